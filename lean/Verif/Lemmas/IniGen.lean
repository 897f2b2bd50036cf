import Verif.Props.UniConn
import Verif.Props.TempGen
import Verif.Model.IniGen
import Verif.Spec.Ini
/- Helper lemmas for C49. -/
namespace Ini
open Wv Wv.Tcl Wv.TempGen Wv.IniGen Spec.Ini

/-! ### Texts -/

theorem white_eq : Spec.Ini.white = isspace := rfl

/-- White space at the end. -/
def lastWhite (s : List Byte) : Bool := match s.getLast? with | some c => isspace c | none => false

theorem lastWhite_cons (c : Byte) (s : List Byte) : lastWhite (c :: s) = if s = [] then isspace c else lastWhite s := by
  unfold lastWhite
  cases s with
  | nil => simp
  | cons d s => simp [List.getLast?_cons_cons]

theorem bal_true (d : Nat) (c : Byte) (s : List Byte) : Spec.Tcl.balanced d true (c :: s) = Spec.Tcl.balanced d false s := rfl
theorem bal_false (d : Nat) (c : Byte) (s : List Byte) : Spec.Tcl.balanced d false (c :: s) =
    if c = 92 then Spec.Tcl.balanced d true s
    else if c = 123 then Spec.Tcl.balanced (d + 1) false s
    else if c = 125 then (match d with | 0 => false | d + 1 => Spec.Tcl.balanced d false s)
    else Spec.Tcl.balanced d false s := rfl

theorem needsLoop_eq (sep : List Byte) (s : List Byte) : ∀ (d : Nat) (esc sp : Bool), Spec.Tcl.balanced d esc s = true →
    needsLoop sep d esc sp s = (exposed sep d esc s || (if s = [] then sp else lastWhite s)) := by
  induction s with
  | nil =>
    intro d esc sp h
    simp only [Spec.Tcl.balanced, Bool.and_eq_true, beq_iff_eq, Bool.not_eq_true'] at h
    obtain ⟨rfl, rfl⟩ := h
    cases sp <;> simp [needsLoop, exposed]
  | cons c s ih =>
    intro d esc sp h
    have hd : ¬ ((d : Int) < 0) := by omega
    have hend : ∀ x : Bool, (if s = [] then isspace c else lastWhite s) = (if c :: s = [] then x else lastWhite (c :: s)) := by
      intro x; rw [lastWhite_cons]; simp
    cases esc with
    | true =>
      rw [bal_true] at h
      rw [needsLoop, exposed, if_pos rfl, if_neg hd, ih d false (isspace c) h, hend]
    | false =>
      rw [needsLoop, exposed, if_neg (by decide)]
      rw [bal_false] at h
      have hz : ((d : Int) == 0) = (d == 0) := by
        rw [Bool.eq_iff_iff]; simp
      rw [hz]
      by_cases hs : (d == 0 && sep.contains c) = true
      · rw [if_pos hs, hs]; simp
      · rw [if_neg hs]
        have hs' : (d == 0 && sep.contains c) = false := by simpa using hs
        rw [hs', Bool.false_or]
        by_cases h92 : c = 92
        · rw [if_pos h92] at h
          rw [if_pos (by simp [h92]), if_neg hd, if_pos h92, ih d true (isspace c) h, hend]
        · rw [if_neg h92] at h
          rw [if_neg (by simp [h92]), if_neg h92]
          by_cases h123 : c = 123
          · rw [if_pos h123] at h
            have := ih (d + 1) false (isspace c) h
            rw [if_pos (by simp [h123]), if_neg (by omega), if_pos h123]
            simp only [Int.natCast_add, Int.cast_ofNat_Int] at this
            rw [this, hend]
          · rw [if_neg h123] at h
            rw [if_neg (by simp [h123]), if_neg h123]
            by_cases h125 : c = 125
            · rw [if_pos h125] at h
              rw [if_pos (by simp [h125]), if_pos h125]
              cases d with
              | zero => simp at h
              | succ d =>
                have := ih d false (isspace c) h
                have e : ((d + 1 : Nat) : Int) - 1 = d := by omega
                rw [e, if_neg (by omega), this, hend sp]
                simp
            · rw [if_neg h125] at h
              rw [if_neg (by simp [h125]), if_neg h125, if_neg hd, ih d false (isspace c) h, hend]

theorem edges_iff (s : List Byte) : edges s ↔ (∃ c, s.head? = some c ∧ isspace c = true) ∨ lastWhite s = true := by
  unfold edges lastWhite
  rw [white_eq]
  cases s.getLast? <;> simp

/-- when a text is escaped -/
theorem needs_iff (sep s : List Byte) (h : Spec.Tcl.balanced 0 false s = true) :
    needs s sep = true ↔ edges s ∨ exposed sep 0 false s = true := by
  rw [edges_iff]
  have h1 := needsLoop_eq sep s 0 false false h
  unfold needs
  cases s with
  | nil => simp [needsLoop, exposed, lastWhite]
  | cons c s =>
    simp only [List.head?_cons, Option.some.injEq, exists_eq_left']
    by_cases hc : isspace c = true
    · simp [hc]
    · simp only [hc, if_false, Bool.false_eq_true]
      have h2 : needsLoop sep 0 false false (c :: s) = (exposed sep 0 false (c :: s) || lastWhite (c :: s)) := by
        rw [show (0 : Int) = ((0 : Nat) : Int) from rfl, h1]; simp
      rw [h2]
      simp [or_comm]

/-! ### Scanning -/

/-- The scanner of words passes over the text. -/
def Pass (split : Mask) (W : List Byte) : Prop :=
  ∃ b, ∀ r, gwLoop split {} (W ++ r) = pre W (gwLoop split { incontinuation := b } r)

theorem pre_pre (a b : List Byte) (x) : pre a (pre b x) = pre (a ++ b) x := by simp [pre]

theorem gw_incont (split : Mask) (b : Bool) (r : List Byte) (hr : r ≠ []) :
    gwLoop split { incontinuation := b } r = gwLoop split {} r := by
  cases r with
  | nil => contradiction
  | cons c cs => exact gwLoop_incont split {} b c cs

theorem Pass.append {split : Mask} {a b : List Byte} (ha : Pass split a) (hb : Pass split b) : Pass split (a ++ b) := by
  obtain ⟨x, hx⟩ := ha
  obtain ⟨y, hy⟩ := hb
  by_cases hb0 : b = []
  · subst hb0; exact ⟨x, by simpa using hx⟩
  · refine ⟨y, fun r => ?_⟩
    rw [List.append_assoc, hx, gw_incont split x _ (by simp [hb0]), hy, pre_pre]

theorem Pass.one {split : Mask} {c : Byte} (h : split.contains c = false) (h1 : c ≠ 92) (h2 : c ≠ 123) (h3 : c ≠ 125) :
    Pass split [c] := by
  refine ⟨false, fun r => ?_⟩
  rw [List.singleton_append, gwLoop]
  simp only [beq_iff_eq, h1, h2, h3, h, if_false, Bool.and_false, Bool.false_eq_true, Bool.false_and]
  simp [pre, h2, h3]

theorem gwLoop_plain {sep split : Mask} (hs : ∀ c ∈ split, c ∈ sep) (s : List Byte) : ∀ (d : Nat) (esc b : Bool),
    Spec.Tcl.balanced d esc s = true → exposed sep d esc s = false →
    ∃ b', ∀ r, gwLoop split { inescape := esc, incontinuation := b, bracecount := d } (s ++ r) =
      pre s (gwLoop split { incontinuation := b' } r) := by
  induction s with
  | nil =>
    intro d esc b h _
    simp only [Spec.Tcl.balanced, Bool.and_eq_true, beq_iff_eq, Bool.not_eq_true'] at h
    obtain ⟨rfl, rfl⟩ := h
    exact ⟨b, fun r => by simp [pre]⟩
  | cons c s ih =>
    intro d esc b h he
    cases esc with
    | true =>
      rw [bal_true] at h
      rw [exposed] at he
      obtain ⟨b', h'⟩ := ih d false (c == 10) h he
      refine ⟨b', fun r => ?_⟩
      rw [List.cons_append, gwLoop]
      simp only [if_true]
      rw [h' r]
      rfl
    | false =>
      rw [bal_false] at h
      rw [exposed, Bool.or_eq_false_iff] at he
      obtain ⟨he1, he2⟩ := he
      have hsp : (d == 0 && split.contains c) = false := by
        cases hd : (d == 0)
        · simp
        · rw [hd, Bool.true_and] at he1
          simp only [Bool.true_and]
          cases hc : split.contains c
          · rfl
          · have := hs c (by simpa using hc)
            simp_all
      by_cases h92 : c = 92
      · rw [if_pos h92] at h he2
        obtain ⟨b', h'⟩ := ih d true false h he2
        refine ⟨b', fun r => ?_⟩
        rw [List.cons_append, gwLoop]
        simp only [beq_iff_eq, h92, if_true, Bool.false_eq_true, if_false]
        rw [h' r]; rfl
      · rw [if_neg h92] at h he2
        by_cases h123 : c = 123
        · rw [if_pos h123] at h he2
          obtain ⟨b', h'⟩ := ih (d + 1) false false h he2
          refine ⟨b', fun r => ?_⟩
          rw [List.cons_append, gwLoop]
          have hsp2 : ¬ (d = 0 ∧ c ∈ split) := by
            intro hh
            have := hsp
            simp [hh.1, hh.2] at this
          rw [h123] at hsp2
          simp [h123, h' r, pre, hsp2]
        · rw [if_neg h123] at h he2
          by_cases h125 : c = 125
          · rw [if_pos h125] at h he2
            cases d with
            | zero => simp at h
            | succ d =>
              obtain ⟨b', h'⟩ := ih d false false h he2
              refine ⟨b', fun r => ?_⟩
              rw [List.cons_append, gwLoop]
              simp [h92, h123, h125, h' r, pre]
          · rw [if_neg h125] at h he2
            obtain ⟨b', h'⟩ := ih d false false h he2
            refine ⟨b', fun r => ?_⟩
            rw [List.cons_append, gwLoop]
            have hsp2 : ¬ (d = 0 ∧ c ∈ split) := by
              intro hh
              have := hsp
              simp [hh.1, hh.2] at this
            simp [h92, h123, h125, h' r, pre, hsp2]

theorem Pass.escape {n split : Mask} (hs : Splits n split) (s : List Byte) : Pass split (escape n s) :=
  ⟨waits n s, fun r => gwLoop_escape hs s r⟩

theorem Pass.plain {sep split : Mask} (hs : ∀ c ∈ split, c ∈ sep) (s : List Byte) (h : Spec.Tcl.balanced 0 false s = true)
    (he : exposed sep 0 false s = false) : Pass split s := gwLoop_plain hs s 0 false false h he

/-- The text as it is written. -/
def written (sep nasties s : List Byte) : List Byte := if needs s sep then Tcl.escape nasties s else s

theorem unbackslash_id (s : List Byte) (h : 92 ∉ s) : unbackslash false s = s := unbackslash_clean s h

/-- All there is to know about a text that is written and read back. -/
structure Written (sep nasties s W : List Byte) : Prop where
  back : unescape W = some s
  head : ∀ c, W.head? = some c → isspace c = false ∧ (c = 123 ∨ c ∉ sep)
  last : ∀ c, W.getLast? = some c → isspace c = false
  pass : ∀ split : Mask, (∀ c ∈ split, c ∈ sep) → Splits nasties split → Pass split W
  nonempty : s ≠ [] → W ≠ []
  nul : 0 ∉ s → 0 ∉ W

theorem braced {n s : List Byte} (h0 : s ≠ []) (hb : Spec.Tcl.balanced 0 false s = true)
    (hn : ∃ c ∈ s, c ∈ n ∨ c ∈ [123, 125, 92, 34]) : Tcl.escape n s = 123 :: (s ++ [125]) := by
  have hnb : needsBackslash n s = false := by rw [needsBackslash_eq, hb]; rfl
  rcases escape_cases n s with ⟨h1, he⟩ | ⟨h1, hc, he⟩ | ⟨h1, hx, he⟩ | ⟨h1, hx, he⟩
  · exact absurd h1 h0
  · obtain ⟨c, hcs, hcn⟩ := hn
    have hd := hc c hcs
    unfold doit at hd
    rw [Bool.or_eq_false_iff] at hd
    rcases hcn with h | h
    · have := hd.2
      simp [h] at this
    · have := hd.1
      simp at h
      rcases h with rfl | rfl | rfl | rfl <;> simp [alwaysNasty] at this
  · rw [hnb] at hx; simp at hx
  · exact he

theorem survives_written {sep nasties s : List Byte} (h : Survives sep nasties s) :
    Written sep nasties s (written sep nasties s) := by
  obtain ⟨hb, h1, h2⟩ := h
  have hne := needs_iff sep s hb
  unfold written
  by_cases hn : needs s sep = true
  · rw [if_pos hn]
    have hx := h1 (hne.mp hn)
    have h0 : s ≠ [] := by
      rintro rfl
      obtain ⟨c, hc, -⟩ := hx
      simp at hc
    have he := braced h0 hb hx
    rw [he]
    refine ⟨?_, ?_, ?_, ?_, by simp, ?_⟩
    · rw [← he]; exact unescape_escape nasties s
    · intro c hc
      simp at hc
      subst hc
      exact ⟨by decide, Or.inl rfl⟩
    · intro c hc
      rw [← List.cons_append, List.getLast?_append] at hc
      simp at hc
      subst hc
      decide
    · intro split _ hs
      rw [← he]; exact Pass.escape hs s
    · intro h
      simp [h]
  · rw [if_neg hn]
    have hx : ¬ (edges s ∨ exposed sep 0 false s = true) := fun h => hn (hne.mpr h)
    obtain ⟨h3, h4, h5⟩ := h2 hx
    have hexp : exposed sep 0 false s = false := by
      cases he : exposed sep 0 false s
      · rfl
      · exact absurd (Or.inr he) hx
    refine ⟨?_, ?_, ?_, ?_, id, id⟩
    · unfold unescape
      rw [if_neg (show ¬ (s.head? = some 123 ∧ s.getLast? = some 125) from h4),
        if_neg (show ¬ (s.head? = some 34 ∧ s.getLast? = some 34) from h5), unbackslash_id s h3]
    · intro c hc
      constructor
      · cases hw : isspace c
        · rfl
        · exact absurd (Or.inl (Or.inl ⟨c, hc, hw⟩)) hx
      · right
        intro hmem
        cases s with
        | nil => simp at hc
        | cons d s =>
          simp at hc
          subst hc
          rw [exposed] at hexp
          simp [hmem] at hexp
    · intro c hc
      cases hw : isspace c
      · rfl
      · exact absurd (Or.inl (Or.inr ⟨c, hc, hw⟩)) hx
    · intro split hs _
      exact Pass.plain hs s hb hexp

/-! ### Lines and words -/
open Props.Uc (gwLoop_inside getword_lead_none split_line takeWhile_all)

/-- A text that is read as one word. -/
structure Word (W : List Byte) : Prop where
  pass : Pass newlines W
  head : ∃ c cs, W = c :: cs ∧ newlines.contains c = false ∧ c ≠ 34
  nul : 0 ∉ W

def nls (k : Nat) : List Byte := List.replicate k 10

theorem nls_mem (k : Nat) : ∀ c ∈ nls k, newlines.contains c = true := by
  intro c hc
  rw [List.eq_of_mem_replicate hc]
  decide

theorem Word.scan {W : List Byte} (h : Word W) (r : List Byte) : gwLoop newlines {} (W ++ 10 :: r) = ({}, W, 10 :: r) := by
  obtain ⟨b, hb⟩ := h.pass
  rw [hb, gw_incont _ _ _ (by simp), gwLoop]
  simp [newlines, pre]

theorem Word.getword {W : List Byte} (h : Word W) (k : Nat) :
    getword newlines false (nls k ++ (W ++ [10])) = some (W, [10]) := by
  unfold Tcl.getword
  rw [dropWhile_leading _ _ (nls_mem k)]
  obtain ⟨c, cs, hW, hn, h34⟩ := h.head
  have h1 := h.scan []
  unfold getwordRaw
  have e : (W ++ [10]).dropWhile newlines.contains = c :: (cs ++ [10]) := by
    rw [hW, List.cons_append, List.dropWhile_cons, hn]; simp
  rw [e]
  rw [hW] at h1 ⊢
  simp only [List.cons_append] at h1
  simp [h34, h1]

theorem Word.getword_inside {W : List Byte} (hw : Word W) (k : Nat) (P Q : List Byte) (h : W = P ++ 10 :: Q) :
    Tcl.getword newlines false (nls k ++ (P ++ [10])) = none := by
  unfold Tcl.getword
  rw [dropWhile_leading _ _ (nls_mem k)]
  obtain ⟨c, cs, hW, hn, h34⟩ := hw.head
  have h1 := hw.scan []
  rw [h] at h1
  have h2 := gwLoop_inside (split := newlines) (by decide) P (Q ++ 10 :: []) Q {} rfl (by
    rw [List.append_assoc, List.cons_append] at h1; rw [h1])
  obtain ⟨p, ps, hp⟩ : ∃ p ps, P ++ [10] = p :: ps := by cases P <;> simp
  have hpc : p = c := by
    have h3 : p :: (ps ++ Q) = c :: cs := by
      rw [← hW, h, ← List.cons_append, ← hp]; simp
    exact (List.cons.inj h3).1
  subst hpc
  unfold getwordRaw
  rw [hp] at h2 ⊢
  rw [List.dropWhile_cons, hn]
  simp only [Bool.false_eq_true, if_false, beq_iff_eq, h34]
  rcases h2.2.2 with h3 | h3
  · simp [h3]
  · simp [h3]

theorem linesFrom_line (acc a F : List Byte) (h : 10 ∉ a) : linesFrom acc (a ++ 10 :: F) = (acc ++ a) :: linesFrom [] F := by
  induction a generalizing acc with
  | nil => simp [linesFrom]
  | cons c a ih =>
    rw [List.cons_append, linesFrom, if_neg (by rintro rfl; simp at h), ih _ (fun hh => h (by simp [hh]))]
    simp

/-- reading goes on from a state -/
def continue_ (s : Read × List Byte) (F : List Byte) : Option (Read × List Byte) := (linesFrom [] F).foldlM readLine s

theorem continue_nil (s : Read × List Byte) : continue_ s [] = some s := rfl

theorem readWords_none (n : Nat) (st : Read) (buf : List Byte) (h : Tcl.getword newlines false buf = none) :
    readWords (n + 1) st buf = some (st, buf) := by
  rw [readWords, h]

theorem continue_line (s s' : Read × List Byte) (a F : List Byte) (h : 10 ∉ a) (hr : readLine s a = some s') :
    continue_ s (a ++ 10 :: F) = continue_ s' F := by
  unfold continue_
  rw [linesFrom_line [] a F h, List.nil_append, List.foldlM_cons, hr]
  rfl

theorem continue_blank (st : Read) (k : Nat) (F : List Byte) :
    continue_ (st, nls k) (10 :: F) = continue_ (st, nls (k + 1)) F := by
  have h := continue_line (st, nls k) (st, nls (k + 1)) [] F (by simp) (by
    unfold readLine
    have e : nls k ++ (List.takeWhile (· != 0) [] ++ [10]) = nls (k + 1) := by
      simp [nls, List.replicate_succ']
    simp only [e]
    exact readWords_none _ _ _ (getword_lead_none _ (nls_mem _)))
  simpa using h

theorem continue_word_from {W : List Byte} (hw : Word W) (st : Read) (k : Nat) (F : List Byte) : ∀ (n : Nat) (P Q : List Byte),
    Q.length = n → W = P ++ Q → (P = [] ∨ ∃ P', P = P' ++ [10]) →
    continue_ (st, nls k ++ P) (Q ++ 10 :: F) = (readWord st W).bind fun st => continue_ (st, nls 1) F := by
  intro n
  induction n using Nat.strongRecOn with
  | _ n ih =>
  intro P Q hn hW hP
  have cs : ∀ a : List Byte, (∀ c ∈ a, c ∈ W) → a.takeWhile (· != 0) = a := fun a ha =>
    takeWhile_all fun x hx => by
      simp only [bne_iff_ne]
      exact fun h0 => hw.nul (h0 ▸ ha x hx)
  by_cases h10 : 10 ∈ Q
  · obtain ⟨a, b, rfl, ha⟩ := split_line Q h10
    have hr : readLine (st, nls k ++ P) a = some (st, nls k ++ (P ++ a ++ [10])) := by
      unfold readLine
      rw [cs a (fun c hc => by rw [hW]; simp [hc])]
      have e : nls k ++ P ++ (a ++ [10]) = nls k ++ ((P ++ a) ++ [10]) := by simp
      simp only [e]
      exact readWords_none _ _ _ (hw.getword_inside k (P ++ a) b (by rw [hW]; simp))
    rw [List.append_assoc, List.cons_append, continue_line _ _ a _ ha hr]
    exact ih b.length (by rw [← hn]; simp; omega) (P ++ a ++ [10]) b rfl (by rw [hW]; simp) (Or.inr ⟨P ++ a, rfl⟩)
  · have hr : readLine (st, nls k ++ P) Q = (readWord st W).bind fun st => some (st, nls 1) := by
      unfold readLine
      rw [cs Q (fun c hc => by rw [hW]; simp [hc])]
      have e : nls k ++ P ++ (Q ++ [10]) = nls k ++ (W ++ [10]) := by rw [hW]; simp
      simp only [e]
      obtain ⟨m, hm⟩ : ∃ m, (nls k ++ (W ++ [10])).length + 1 = m + 1 + 1 := ⟨(nls k).length + W.length, by simp; omega⟩
      rw [hm, readWords, hw.getword]
      simp only
      congr 1
    unfold continue_
    rw [linesFrom_line [] Q F h10, List.nil_append, List.foldlM_cons, hr]
    cases readWord st W <;> rfl

theorem continue_word {W : List Byte} (hw : Word W) (st : Read) (k : Nat) (F : List Byte) :
    continue_ (st, nls k) (W ++ 10 :: F) = (readWord st W).bind fun st => continue_ (st, nls 1) F := by
  have := continue_word_from hw st k F W.length [] W rfl rfl (Or.inl rfl)
  simpa using this

theorem readEnd_nls (n k : Nat) (st : Read) (h : k < n) : readEnd n (st, nls k) = some st := by
  induction n generalizing k with
  | zero => omega
  | succ n ih =>
    cases k with
    | zero => simp [readEnd, nls]
    | succ k =>
      rw [readEnd, if_neg (by simp [nls])]
      have e : ((nls (k + 1)).dropWhile (· != 10)).drop 1 = nls k := by simp [nls, List.replicate_succ]
      simp only [e]
      rw [readWords_none _ _ _ (getword_lead_none _ (nls_mem k))]
      exact ih k (by omega)

/-- the whole file -/
theorem read_of {F : List Byte} {st : Read} {k : Nat} (h : continue_ ({}, nls 0) F = some (st, nls k)) :
    IniGen.read F = some st.sets := by
  unfold IniGen.read
  have h' : (linesFrom [] F).foldlM readLine (({} : Read), ([] : List Byte)) = some (st, nls k) := h
  rw [h']
  simp only [Option.bind_some]
  rw [readEnd_nls _ _ _ (by simp [nls])]
  rfl

/-! ### What is made of words -/

theorem trimEnd_id (s : List Byte) (h : ∀ c, s.getLast? = some c → isspace c = false) : trimEnd s = s := by
  unfold trimEnd
  cases hs : s.reverse with
  | nil =>
    have : s = [] := by simpa using hs
    simp [this]
  | cons c r =>
    have hc : s.getLast? = some c := by rw [List.getLast?_eq_head?_reverse, hs]; rfl
    rw [List.dropWhile_cons, h c hc]
    simp only [Bool.false_eq_true, if_false]
    rw [← hs]; simp

theorem trim_id (s : List Byte) (h1 : ∀ c, s.head? = some c → isspace c = false)
    (h2 : ∀ c, s.getLast? = some c → isspace c = false) : trimString s = s := by
  have : trimString s = (trimEnd s).dropWhile isspace := rfl
  rw [this, trimEnd_id s h2]
  cases s with
  | nil => rfl
  | cons c s =>
    rw [List.dropWhile_cons, h1 c rfl]; rfl

theorem readWord_section (st : Read) (K name : List Byte) (hu : unescape K = some name)
    (h1 : ∀ c, K.head? = some c → isspace c = false) (h2 : ∀ c, K.getLast? = some c → isspace c = false) :
    readWord st (91 :: (K ++ [93])) = some { st with sect := Key.parse name } := by
  have hl : (91 :: (K ++ [93])).getLast? = some 93 := by
    rw [← List.cons_append, List.getLast?_append]; rfl
  have ht : trimString (91 :: (K ++ [93])) = 91 :: (K ++ [93]) := trim_id _ (by
    intro c hc; simp at hc; subst hc; decide) (by
    intro c hc; rw [hl] at hc; simp at hc; subst hc; decide)
  unfold readWord
  simp only [ht, List.cons_ne_nil, if_false]
  rw [if_neg (by simp), if_pos ⟨by simp, hl⟩]
  have e : ((91 :: (K ++ [93])).dropLast).drop 1 = K := by
    rw [← List.cons_append, List.dropLast_concat]; rfl
  rw [e, trim_id K h1 h2, hu]
  rfl

theorem readWord_key (st : Read) (K V name value : List Byte) (hu : unescape K = some name) (hv : unescape V = some value)
    (hn : name ≠ []) (hK : Pass [61] K)
    (hK1 : ∃ c cs, K = c :: cs ∧ isspace c = false ∧ c ≠ 34 ∧ c ≠ 35 ∧ c ≠ 91 ∧ c ≠ 61)
    (hK2 : ∀ c, K.getLast? = some c → isspace c = false)
    (hV0 : V ≠ [])
    (hV1 : ∀ c, V.head? = some c → isspace c = false) (hV2 : ∀ c, V.getLast? = some c → isspace c = false) :
    readWord st (K ++ [32, 61, 32] ++ V) =
      some { st with sets := st.sets ++ [(Key.prepend (Key.parse name) st.sect, value)] } := by
  obtain ⟨c, cs, hKe, hs, h34, h35, h91, h61⟩ := hK1
  have hl : (K ++ [32, 61, 32] ++ V).getLast? = V.getLast? := by
    rw [List.getLast?_append]
    cases hx : V.getLast? with
    | none => exact absurd (List.getLast?_eq_none_iff.mp hx) hV0
    | some x => rfl
  have hh : (K ++ [32, 61, 32] ++ V).head? = some c := by rw [hKe]; rfl
  have hlast : ∀ x, (K ++ [32, 61, 32] ++ V).getLast? = some x → isspace x = false := by
    intro x hx; rw [hl] at hx; exact hV2 x hx
  have ht : trimString (K ++ [32, 61, 32] ++ V) = K ++ [32, 61, 32] ++ V := trim_id _ (by
    intro x hx; rw [hh] at hx; simp at hx; subst hx; exact hs) hlast
  have hg : Tcl.getword [61] false (K ++ [32, 61, 32] ++ V) = some (K ++ [32], 61 :: 32 :: V) := by
    obtain ⟨b, hb⟩ := hK
    have e : K ++ [32, 61, 32] ++ V = K ++ (32 :: 61 :: 32 :: V) := by simp
    have h1 : gwLoop [61] {} (K ++ [32, 61, 32] ++ V) = ({}, K ++ [32], 61 :: 32 :: V) := by
      rw [e, hb, gw_incont _ _ _ (by simp), gwLoop]
      simp [gwLoop, pre]
    unfold Tcl.getword getwordRaw
    have e2 : (K ++ [32, 61, 32] ++ V).dropWhile (List.contains [61]) = K ++ [32, 61, 32] ++ V := by
      rw [hKe]
      simp only [List.cons_append, List.dropWhile_cons]
      simp [h61]
    rw [e2]
    rw [hKe] at h1 ⊢
    simp only [List.cons_append] at h1 ⊢
    simp only [beq_iff_eq, h34, if_false, h1]
    simp
  unfold readWord
  simp only [ht]
  rw [if_neg (by rw [hKe]; simp), if_neg (by rw [hh]; simpa using h35), if_neg (by rw [hh]; simp [h91]),
    trimEnd_id _ hlast, hg]
  simp only [List.cons_ne_nil, if_false]
  have t1 : trimString (K ++ [32]) = K := by
    have e : trimEnd (K ++ [32]) = K := by
      have := trimEnd_id K hK2
      unfold trimEnd at this ⊢
      rw [List.reverse_append]
      simp only [List.reverse_cons, List.reverse_nil, List.nil_append, List.singleton_append]
      rw [List.dropWhile_cons, if_pos (by decide), this]
    have e2 : trimString (K ++ [32]) = (trimEnd (K ++ [32])).dropWhile isspace := rfl
    rw [e2, e, hKe, List.dropWhile_cons, hs]
    simp
  have t2 : trimString (List.drop 1 (61 :: 32 :: V)) = V := by
    have e2 : trimString (32 :: V) = (trimEnd (32 :: V)).dropWhile isspace := rfl
    have e : trimEnd (32 :: V) = 32 :: V := trimEnd_id _ (by
      intro x hx
      rw [List.getLast?_cons] at hx
      cases hx' : V.getLast? with
      | none => exact absurd (List.getLast?_eq_none_iff.mp hx') hV0
      | some y =>
        rw [hx'] at hx
        simp at hx
        subst hx
        exact hV2 _ hx')
    simp only [List.drop_succ_cons, List.drop_zero]
    rw [e2, e, List.dropWhile_cons, if_pos (by decide)]
    cases V with
    | nil => rfl
    | cons v V => rw [List.dropWhile_cons, hV1 v rfl]; simp
  rw [t1, hu]
  simp only [Option.bind_some, hn, if_false]
  rw [if_neg (by simp), t2, hv]
  rfl

/-! ### Case -/

theorem balanced_map (f : Byte → Byte) (h92 : ∀ c, f c = 92 ↔ c = 92) (h123 : ∀ c, f c = 123 ↔ c = 123)
    (h125 : ∀ c, f c = 125 ↔ c = 125) (s : List Byte) : ∀ d e,
    Spec.Tcl.balanced d e (s.map f) = Spec.Tcl.balanced d e s := by
  induction s with
  | nil => intro d e; rfl
  | cons c s ih =>
    intro d e
    cases e with
    | true => rw [List.map_cons, bal_true, bal_true, ih]
    | false =>
      rw [List.map_cons, bal_false, bal_false]
      simp only [h92, h123, h125, ih]

theorem exposed_map (f : Byte → Byte) (sep : List Byte) (hs : ∀ x ∈ sep, ∀ c, f c = x ↔ c = x)
    (h92 : ∀ c, f c = 92 ↔ c = 92) (h123 : ∀ c, f c = 123 ↔ c = 123)
    (h125 : ∀ c, f c = 125 ↔ c = 125) (s : List Byte) : ∀ d e, exposed sep d e (s.map f) = exposed sep d e s := by
  have hmem : ∀ c, sep.contains (f c) = sep.contains c := by
    intro c
    rw [Bool.eq_iff_iff]
    simp only [List.contains_eq_mem, decide_eq_true_eq]
    constructor
    · intro h; have := (hs _ h c).mp rfl; rwa [this]
    · intro h; have := (hs _ h c).mpr rfl; rwa [this]
  induction s with
  | nil => intro d e; cases e <;> rfl
  | cons c s ih =>
    intro d e
    cases e with
    | true => rw [List.map_cons, exposed, exposed, ih]
    | false =>
      rw [List.map_cons, exposed, exposed]
      simp only [h92, h123, h125, ih, hmem]

theorem survives_map (f : Byte → Byte) (sep nasties : List Byte)
    (hs : ∀ x ∈ sep ++ nasties ++ [92, 123, 125, 34], ∀ c, f c = x ↔ c = x) (hw : ∀ c, isspace (f c) = isspace c)
    (s : List Byte) (h : Survives sep nasties (s.map f)) : Survives sep nasties s := by
  have h92 := hs 92 (by simp)
  have h123 := hs 123 (by simp)
  have h125 := hs 125 (by simp)
  have h34 := hs 34 (by simp)
  obtain ⟨a, b, c⟩ := h
  rw [balanced_map f h92 h123 h125] at a
  rw [exposed_map f sep (fun x hx => hs x (by simp [hx])) h92 h123 h125] at b c
  have he : edges (s.map f) ↔ edges s := by
    unfold edges
    rw [white_eq, List.head?_map, List.getLast?_map]
    constructor
    · rintro (⟨x, h1, h2⟩ | ⟨x, h1, h2⟩)
      · left
        obtain ⟨y, hy, rfl⟩ := Option.map_eq_some_iff.mp h1
        exact ⟨y, hy, by rwa [hw] at h2⟩
      · right
        obtain ⟨y, hy, rfl⟩ := Option.map_eq_some_iff.mp h1
        exact ⟨y, hy, by rwa [hw] at h2⟩
    · rintro (⟨x, h1, h2⟩ | ⟨x, h1, h2⟩)
      · exact Or.inl ⟨f x, by simp [h1], by rwa [hw]⟩
      · exact Or.inr ⟨f x, by simp [h1], by rwa [hw]⟩
  have hwi : ∀ x y, (∀ c, f c = x ↔ c = x) → (∀ c, f c = y ↔ c = y) → within x y s → within x y (s.map f) := by
    rintro x y hx hy ⟨h1, h2⟩
    exact ⟨by rw [List.head?_map, h1]; simp [(hx x).mpr rfl], by rw [List.getLast?_map, h2]; simp [(hy y).mpr rfl]⟩
  rw [he] at b c
  refine ⟨a, fun h => ?_, fun h => ?_⟩
  · obtain ⟨x, hx, hx2⟩ := b h
    obtain ⟨y, hy, rfl⟩ := List.mem_map.mp hx
    refine ⟨y, hy, ?_⟩
    rcases hx2 with h2 | h2
    · have := (hs _ (by simp [h2]) y).mp rfl
      left; rwa [this]
    · have hm : f y ∈ sep ++ nasties ++ [92, 123, 125, 34] := by
        simp at h2 ⊢
        rcases h2 with h | h | h | h <;> simp [h]
      have := (hs _ hm y).mp rfl
      right; rwa [this]
  · obtain ⟨c1, c2, c3⟩ := c h
    refine ⟨fun h9 => c1 (List.mem_map.mpr ⟨92, h9, (h92 92).mpr rfl⟩), fun h' => c2 (hwi _ _ h123 h125 h'),
      fun h' => c3 (hwi _ _ h34 h34 h')⟩

theorem tolower_special (x : Byte) (hx : x ∈ [13, 10, 91, 93, 61, 35, 34, 9, 32, 92, 123, 125, 0, 47]) (c : Byte) :
    tolower c = x ↔ c = x := by
  have : ∀ c, ∀ x ∈ ([13, 10, 91, 93, 61, 35, 34, 9, 32, 92, 123, 125, 0, 47] : List Byte), tolower c = x ↔ c = x := by
    apply forall_byte
    decide +kernel
  exact this c x hx

theorem tolower_space (c : Byte) : isspace (tolower c) = isspace c := by
  revert c
  apply forall_byte
  decide +kernel

theorem nul_map (s : List Byte) (h : 0 ∉ s.map tolower) : 0 ∉ s := fun h0 =>
  h (List.mem_map.mpr ⟨0, h0, (tolower_special 0 (by simp) 0).mpr rfl⟩)

theorem keyOk_low (s : List Byte) (h : KeyOk (s.map tolower)) : KeyOk s :=
  ⟨survives_map tolower _ _ (fun x hx => tolower_special x (by simp at hx ⊢; grind)) tolower_space s h.1, nul_map s h.2⟩

theorem sectionOk_low (s : List Byte) (h : SectionOk (s.map tolower)) : SectionOk s :=
  ⟨survives_map tolower _ _ (fun x hx => tolower_special x (by simp at hx ⊢; grind)) tolower_space s h.1, nul_map s h.2⟩

theorem join_low (ns : List Seg) : Spec.Split.join [Spec.Path.slash] (ns.map (List.map tolower)) =
    (Spec.Split.join [Spec.Path.slash] ns).map tolower := by
  induction ns with
  | nil => rfl
  | cons n ns ih =>
    cases ns with
    | nil => simp [Spec.Split.join]
    | cons m ms =>
      have e : tolower Spec.Path.slash = Spec.Path.slash := by decide
      simp only [List.map_cons] at ih ⊢
      simp only [Spec.Split.join, List.map_append, List.map_cons, List.map_nil, e, ih]

end Ini
