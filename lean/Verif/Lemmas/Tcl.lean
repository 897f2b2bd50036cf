import Verif.Model.Tcl
import Verif.Spec.Tcl
import Verif.Lemmas.Basic
namespace Wv.Tcl

def pre (l : List Byte) (x : GW × List Byte × List Byte) : GW × List Byte × List Byte := (x.1, l ++ x.2.1, x.2.2)

@[simp] theorem pre_nil (x) : pre [] x = x := rfl
@[simp] theorem pre_pre (a b x) : pre a (pre b x) = pre (a ++ b) x := by simp [pre]

theorem gwLoop_incont (split : Mask) (g : GW) (b : Bool) (c : Byte) (cs : List Byte) :
    gwLoop split { g with incontinuation := b } (c :: cs) = gwLoop split g (c :: cs) := by
  simp only [gwLoop]

theorem doit_false {n : Mask} {c : Byte} (h : doit n c = false) :
    (c == 123) = false ∧ (c == 125) = false ∧ (c == 92) = false ∧ (c == 34) = false ∧ n.contains c = false := by
  simp only [doit, alwaysNasty, Bool.or_eq_false_iff] at h
  exact ⟨h.1.1.1.1, h.1.1.1.2, h.1.1.2, h.1.2, h.2⟩

/-- What the mask of separators must satisfy. -/
def Splits (n split : Mask) : Prop := ∀ c, split.contains c = true → n.contains c = true ∧ alwaysNasty c = false

theorem gwLoop_clean {n split : Mask} (hs : Splits n split) (l r : List Byte) (h : ∀ c ∈ l, doit n c = false) :
    gwLoop split {} (l ++ r) = pre l (gwLoop split {} r) := by
  induction l with
  | nil => rfl
  | cons c l ih =>
    have hc := doit_false (h c (by simp))
    have hsc : split.contains c = false := by
      cases hx : split.contains c
      · rfl
      · rw [(hs c hx).1] at hc; simp at hc
    rw [List.cons_append, gwLoop]
    simp only [hc, hsc, if_false, Bool.and_false, Bool.false_eq_true]
    rw [ih (fun d hd => h d (by simp [hd]))]
    rfl

theorem gwLoop_backslashes {n split : Mask} (hs : Splits n split) (l : List Byte) (hl : l ≠ []) : ∀ (b : Bool) (r : List Byte),
    gwLoop split { incontinuation := b } (backslashes n l ++ r) =
      pre (backslashes n l) (gwLoop split { incontinuation := l.getLast? == some 10 && doit n 10 } r) := by
  induction l with
  | nil => contradiction
  | cons c l ih =>
    intro b r
    have tail : ∀ b', b' = (c == 10 && doit n 10) → gwLoop split { incontinuation := b' } (backslashes n l ++ r) =
        pre (backslashes n l) (gwLoop split { incontinuation := (c :: l).getLast? == some 10 && doit n 10 } r) := by
      intro b' hb'
      cases l with
      | nil => rw [hb']; rfl
      | cons d l =>
        have : (c :: d :: l).getLast? = (d :: l).getLast? := by simp
        rw [this]
        exact ih (by simp) b' r
    rw [backslashes]
    cases hd : doit n c
    · have hc := doit_false hd
      have hsc : split.contains c = false := by
        cases hx : split.contains c
        · rfl
        · rw [(hs c hx).1] at hc; simp at hc
      simp only [Bool.false_eq_true, if_false, List.cons_append]
      rw [gwLoop]
      simp only [hc, hsc, if_false, Bool.and_false, Bool.false_eq_true]
      have ht := tail false (by
        by_cases h10 : c = 10
        · rw [← h10, hd]; simp
        · simp [h10])
      rw [ht]; rfl
    · simp only [if_true, List.cons_append]
      rw [gwLoop]
      simp only [beq_self_eq_true, if_true, Bool.false_eq_true, if_false]
      rw [gwLoop]
      simp only [if_true]
      have ht := tail (c == 10) (by
        by_cases h10 : c = 10
        · rw [← h10, hd]; simp
        · simp [h10])
      rw [ht]; rfl

theorem escScan_backslashify_mono (n : Mask) (s : List Byte) (st : Scan) (h : (escScan n st s).backslashify = false) :
    st.backslashify = false := by
  induction s generalizing st with
  | nil => exact h
  | cons c s ih =>
    unfold escScan at h
    have := ih _ h
    simp only [Bool.or_eq_false_iff] at this
    exact this.1

theorem gwLoop_balanced {n split : Mask} (s : List Byte) : ∀ (st : Scan) (ic : Bool),
    (escScan n st s).backslashify = false → 0 ≤ st.bracecount →
    0 ≤ (escScan n st s).bracecount ∧
    ∃ ic', ∀ r, gwLoop split ⟨st.inescape, false, ic, (st.bracecount + 1).toNat⟩ (s ++ r) =
      pre s (gwLoop split ⟨(escScan n st s).inescape, false, ic', ((escScan n st s).bracecount + 1).toNat⟩ r) := by
  induction s with
  | nil => intro st ic _ h0; exact ⟨h0, ic, fun r => rfl⟩
  | cons c s ih =>
    intro st ic hb h0
    unfold escScan at hb
    have hm := escScan_backslashify_mono _ _ _ hb
    simp only [Bool.or_eq_false_iff, decide_eq_false_iff_not, Int.not_lt] at hm
    obtain ⟨hm1, hm2⟩ := hm
    have hz : ((st.bracecount + 1).toNat == 0) = false := by
      simp only [beq_eq_false_iff_ne]; omega
    have hpos : decide ((st.bracecount + 1).toNat > 0) = true := by
      simp only [decide_eq_true_eq]; omega
    cases hi : st.inescape
    · simp only [hi, Bool.not_false, Bool.true_and] at hb hm2
      by_cases h92 : c = 92
      · subst h92
        obtain ⟨h1, ic', h2⟩ := ih _ false hb hm2
        refine ⟨by simpa [escScan, hi] using h1, ic', fun r => ?_⟩
        rw [List.cons_append, gwLoop]
        simp only [beq_self_eq_true, if_true, Bool.false_eq_true, if_false]
        have := h2 r
        simp only [beq_self_eq_true, if_true, show ((92 : Byte) == 123) = false from rfl,
          show ((92 : Byte) == 125) = false from rfl, Bool.false_eq_true, if_false] at this
        rw [this]
        simp [pre, escScan, hi]
      · have h92' : (c == 92) = false := by simpa using h92
        by_cases h123 : c = 123
        · subst h123
          obtain ⟨h1, ic', h2⟩ := ih _ false hb hm2
          refine ⟨by simpa [escScan, hi] using h1, ic', fun r => ?_⟩
          rw [List.cons_append, gwLoop]
          simp only [h92', hz, beq_self_eq_true, if_true, Bool.false_eq_true, if_false, Bool.false_and, Bool.not_false,
            Bool.true_and]
          have := h2 r
          simp only [beq_self_eq_true, if_true, h92', Bool.false_eq_true, if_false] at this
          have e : (st.bracecount + 1).toNat + 1 = (st.bracecount + 1 + 1).toNat := by omega
          rw [e, this]
          simp [pre, escScan, hi]
        · have h123' : (c == 123) = false := by simpa using h123
          by_cases h125 : c = 125
          · subst h125
            simp only [h123', beq_self_eq_true, if_true, Bool.false_eq_true, if_false] at hm2
            obtain ⟨h1, ic', h2⟩ := ih _ false hb (by simpa [h123'] using hm2)
            refine ⟨by simpa [escScan, hi] using h1, ic', fun r => ?_⟩
            rw [List.cons_append, gwLoop]
            simp only [h92', h123', hz, hpos, beq_self_eq_true, if_true, Bool.false_eq_true, if_false, Bool.false_and,
              Bool.not_false, Bool.true_and]
            have := h2 r
            simp only [beq_self_eq_true, if_true, h92', h123', Bool.false_eq_true, if_false] at this
            have e : (st.bracecount + 1).toNat - 1 = (st.bracecount - 1 + 1).toNat := by omega
            rw [e, this]
            simp [pre, escScan, hi]
          · have h125' : (c == 125) = false := by simpa using h125
            obtain ⟨h1, ic', h2⟩ := ih _ false hb hm2
            refine ⟨by simpa [escScan, hi, h123', h125', h92'] using h1, ic', fun r => ?_⟩
            rw [List.cons_append, gwLoop]
            simp only [h92', h123', h125', hz, Bool.false_eq_true, if_false, Bool.false_and, Bool.and_false]
            have := h2 r
            simp only [h92', h123', h125', Bool.false_eq_true, if_false] at this
            rw [this]
            simp [pre, escScan, hi, h123, h125, h92]
    · simp only [hi, Bool.not_true, Bool.false_and, Bool.false_eq_true, if_false, ite_self] at hb hm2
      obtain ⟨h1, ic', h2⟩ := ih _ (c == 10) hb hm2
      refine ⟨by simpa [escScan, hi] using h1, ic', fun r => ?_⟩
      rw [List.cons_append, gwLoop]
      simp only [if_true]
      have := h2 r
      simp only [ite_self] at this
      rw [this]
      simp [pre, escScan, hi]

theorem escScan_unprintables (n : Mask) (s : List Byte) : ∀ st : Scan,
    (escScan n st s).unprintables = st.unprintables + (s.filter (doit n)).length := by
  induction s with
  | nil => intro st; rfl
  | cons c s ih =>
    intro st
    unfold escScan
    rw [ih]
    cases h : doit n c <;> simp [h] <;> omega

theorem backslashes_length (n : Mask) (s : List Byte) :
    (backslashes n s).length = s.length + (s.filter (doit n)).length := by
  induction s with
  | nil => rfl
  | cons c s ih =>
    unfold backslashes
    cases h : doit n c <;> simp [h, ih] <;> omega

theorem unbackslash_backslashes (n : Mask) (s : List Byte) : unbackslash false (backslashes n s) = s := by
  induction s with
  | nil => rfl
  | cons c s ih =>
    unfold backslashes
    cases h : doit n c
    · have hc := doit_false h
      simp [unbackslash, hc.2.2.1, ih]
    · simp only [if_true]
      by_cases h92 : c = 92 <;> simp [unbackslash, h92, ih]

theorem unbackslash_clean (s : List Byte) (h : 92 ∉ s) : unbackslash false s = s := by
  induction s with
  | nil => rfl
  | cons c s ih =>
    have hc : c ≠ 92 := fun e => h (by simp [e])
    simp [unbackslash, hc, ih (fun e => h (by simp [e]))]

theorem clean_of_unprintables {n : Mask} {s : List Byte} (h : (escScan n {} s).unprintables = 0) :
    ∀ c ∈ s, doit n c = false := by
  rw [escScan_unprintables] at h
  have : (s.filter (doit n)) = [] := List.eq_nil_of_length_eq_zero (by simpa using h)
  intro c hc
  rw [List.filter_eq_nil_iff] at this
  simpa using this c hc

/-- the three ways to write a word -/
theorem escape_cases (n : Mask) (s : List Byte) :
    (s = [] ∧ escape n s = [123, 125]) ∨
    (s ≠ [] ∧ (∀ c ∈ s, doit n c = false) ∧ escape n s = s) ∨
    (s ≠ [] ∧ needsBackslash n s = true ∧ escape n s = backslashes n s) ∨
    (s ≠ [] ∧ needsBackslash n s = false ∧ escape n s = 123 :: (s ++ [125])) := by
  by_cases h0 : s = []
  · left; simp [h0, escape]
  · right
    cases hn : needsBackslash n s
    · by_cases hu : (escScan n {} s).unprintables = 0
      · left; exact ⟨h0, clean_of_unprintables hu, by simp [escape, h0, hn, hu]⟩
      · right; right; exact ⟨h0, rfl, by simp [escape, h0, hn, hu]⟩
    · right; left; exact ⟨h0, rfl, by simp [escape, h0, hn]⟩

theorem unescape_escape (n : Mask) (s : List Byte) : unescape (escape n s) = some s := by
  rcases escape_cases n s with ⟨h0, he⟩ | ⟨h0, hc, he⟩ | ⟨h0, hb, he⟩ | ⟨h0, hb, he⟩
  · subst h0; rw [he]; decide
  · rw [he]
    obtain ⟨c, cs, rfl⟩ : ∃ c cs, s = c :: cs := by
      cases s with
      | nil => contradiction
      | cons c cs => exact ⟨c, cs, rfl⟩
    have h1 := doit_false (hc c (by simp))
    unfold unescape
    simp only [beq_eq_false_iff_ne] at h1
    simp only [List.head?_cons, Option.some.injEq, h1.1, h1.2.2.2.1, false_and, if_false]
    rw [unbackslash_clean]
    intro hm
    exact absurd (doit_false (hc _ hm)).2.2.1 (by decide)
  · rw [he]
    obtain ⟨c, cs, rfl⟩ : ∃ c cs, s = c :: cs := by
      cases s with
      | nil => contradiction
      | cons c cs => exact ⟨c, cs, rfl⟩
    have hh : (backslashes n (c :: cs)).head? ≠ some 123 ∧ (backslashes n (c :: cs)).head? ≠ some 34 := by
      unfold backslashes
      cases h : doit n c
      · have := doit_false h; simp only [beq_eq_false_iff_ne] at this; simp [this]
      · simp
    unfold unescape
    simp only [hh, false_and, if_false, unbackslash_backslashes]
  · rw [he]
    unfold unescape
    simp only [List.head?_cons, true_and, List.tail_cons]
    rw [if_pos (by rw [← List.cons_append, List.getLast?_append]; rfl)]
    simp

theorem escape_head (n : Mask) (s : List Byte) :
    ∃ c cs, escape n s = c :: cs ∧ c ≠ 34 ∧ (c = 123 ∨ c = 92 ∨ doit n c = false) := by
  rcases escape_cases n s with ⟨h0, he⟩ | ⟨h0, hc, he⟩ | ⟨h0, hb, he⟩ | ⟨h0, hb, he⟩
  · exact ⟨123, [125], he, by decide, Or.inl rfl⟩
  · cases s with
    | nil => contradiction
    | cons c cs =>
      have h1 := hc c (by simp)
      exact ⟨c, cs, he, (by simpa using (doit_false h1).2.2.2.1), Or.inr (Or.inr h1)⟩
  · cases s with
    | nil => contradiction
    | cons c cs =>
      rw [he]; unfold backslashes
      cases h : doit n c
      · exact ⟨c, _, rfl, (by simpa using (doit_false h).2.2.2.1), Or.inr (Or.inr h)⟩
      · exact ⟨92, _, rfl, by decide, Or.inr (Or.inl rfl)⟩
  · exact ⟨123, _, he, by decide, Or.inl rfl⟩

/-- whether the scanner is left waiting for a character after a line continuation -/
def waits (n : Mask) (s : List Byte) : Bool := needsBackslash n s && (s.getLast? == some 10 && doit n 10)

/-- scanning an escaped word -/
theorem gwLoop_escape {n split : Mask} (hs : Splits n split) (s : List Byte) (r : List Byte) :
    gwLoop split {} (escape n s ++ r) = pre (escape n s) (gwLoop split { incontinuation := waits n s } r) := by
  have h123 : split.contains 123 = false := by
    cases hx : split.contains 123
    · rfl
    · have := (hs _ hx).2; revert this; decide
  -- leaving a balanced group
  have close : ∀ (ic : Bool) (r : List Byte),
      gwLoop split { incontinuation := ic, bracecount := 1 } (125 :: r) = pre [125] (gwLoop split {} r) := by
    intro ic r; rw [gwLoop]; simp [pre]
  rcases escape_cases n s with ⟨h0, he⟩ | ⟨h0, hc, he⟩ | ⟨h0, hb, he⟩ | ⟨h0, hb, he⟩
  · have hw : waits n s = false := by simp [waits, h0]
    rw [he, hw]
    have h1 : gwLoop split {} ([123, 125] ++ r) = pre [123] (gwLoop split { bracecount := 1 } (125 :: r)) := by
      rw [List.cons_append, gwLoop]; simp [pre]
      cases hx : split.contains 123 <;> simp_all
    rw [h1, close]; simp
  · have hw : waits n s = false := by
      unfold waits
      cases hd : doit n 10
      · simp
      · by_cases hl : s.getLast? = some 10
        · have := hc 10 (List.mem_of_getLast? hl)
          rw [this] at hd; simp at hd
        · simp [hl]
    rw [he, hw]; exact gwLoop_clean hs s r hc
  · rw [he, waits, hb, Bool.true_and]; exact gwLoop_backslashes hs s h0 false r
  · have hw : waits n s = false := by simp [waits, hb]
    unfold needsBackslash at hb
    simp only [Bool.or_eq_false_iff, bne_eq_false_iff_eq] at hb
    obtain ⟨hb1, hb2, hb3⟩ := hb
    rw [he, hw]
    have h1 : gwLoop split {} (123 :: (s ++ [125]) ++ r) = pre [123] (gwLoop split { bracecount := 1 } (s ++ (125 :: r))) := by
      rw [List.cons_append, gwLoop]; simp [pre]
      cases hx : split.contains 123 <;> simp_all
    obtain ⟨-, ic', h2⟩ := gwLoop_balanced (n := n) (split := split) s {} false hb1 (Int.le_refl 0)
    have h3 := h2 (125 :: r)
    rw [hb2, hb3] at h3
    rw [h1]
    have h4 : gwLoop split { bracecount := 1 } (s ++ (125 :: r)) =
      pre s (gwLoop split { incontinuation := ic', bracecount := 1 } (125 :: r)) := h3
    rw [h4, close]; simp

theorem dropWhile_escape {n split : Mask} (hs : Splits n split) (s r : List Byte) :
    (escape n s ++ r).dropWhile split.contains = escape n s ++ r := by
  obtain ⟨c, cs, he, h34, hc⟩ := escape_head n s
  rw [he, List.cons_append, List.dropWhile_cons]
  have : split.contains c = false := by
    cases hx : split.contains c
    · rfl
    · have := hs c hx
      rcases hc with rfl | rfl | hc
      · exact absurd this.2 (by decide)
      · exact absurd this.2 (by decide)
      · have := doit_false hc; simp_all
  rw [this]; rfl

theorem getwordRaw_escape_sep {n split : Mask} (hs : Splits n split) (s : List Byte) (d : Byte) (ds : List Byte)
    (hd : split.contains d = true) :
    getwordRaw split (escape n s ++ d :: ds) = some (escape n s, d :: ds) := by
  obtain ⟨c, cs, he, h34, -⟩ := escape_head n s
  unfold getwordRaw
  rw [dropWhile_escape hs]
  have h1' := gwLoop_escape hs s (d :: ds)
  rw [he, List.cons_append] at h1' ⊢
  simp only [beq_iff_eq, h34, if_false]
  rw [h1']
  have hn := (hs d hd).2
  have e : gwLoop split { incontinuation := waits n s } (d :: ds) = ({}, [], d :: ds) := by
    rw [gwLoop]
    simp only [alwaysNasty, Bool.or_eq_false_iff, beq_eq_false_iff_ne] at hn
    have hm : d ∈ split := by simpa using hd
    simp [hn, hm]
  rw [e]; simp [pre]

theorem getwordRaw_escape_end {n split : Mask} (hs : Splits n split) (s : List Byte) :
    getwordRaw split (escape n s) = if waits n s then none else some (escape n s, []) := by
  obtain ⟨c, cs, he, h34, -⟩ := escape_head n s
  have h0 := dropWhile_escape hs s []
  have h1' := gwLoop_escape hs s []
  rw [List.append_nil] at h0 h1'
  unfold getwordRaw
  rw [h0]
  rw [he] at h1' ⊢
  simp only [beq_iff_eq, h34, if_false]
  rw [h1']
  cases waits n s <;> simp [gwLoop, pre]

theorem dropWhile_leading {split : Mask} (lead s : List Byte) (h : ∀ c ∈ lead, split.contains c = true) :
    getwordRaw split (lead ++ s) = getwordRaw split s := by
  unfold getwordRaw
  rw [List.dropWhile_append_of_pos h]

theorem getwordRaw_spec {split : Mask} {s w r : List Byte} (h : getwordRaw split s = some (w, r)) :
    ∃ lead, s = lead ++ w ++ r ∧ ∀ c ∈ lead, split.contains c = true := by
  refine ⟨s.takeWhile split.contains, ?_, fun c hc => (List.all_eq_true.mp List.all_takeWhile) c hc⟩
  have ht := List.takeWhile_append_dropWhile (p := split.contains) (l := s)
  suffices hsuf : s.dropWhile split.contains = w ++ r by
    rw [List.append_assoc, ← hsuf, ht]
  unfold getwordRaw at h
  split at h
  · simp at h
  · rename_i c cs hs
    rw [hs]
    by_cases hc : (c == 34) = true
    · simp only [hc, if_true] at h
      have ha := gwLoop_append split { inquote := true } cs
      split at h
      · simp at h
      · simp only [Option.some.injEq, Prod.mk.injEq] at h
        have h2 : (gwLoop split { inquote := true } cs).2.2 = r := h.2
        rw [← h.1, ← h2, List.cons_append]
        exact congrArg _ ha.symm
    · simp only [hc, Bool.false_eq_true, if_false] at h
      have ha := gwLoop_append split {} (c :: cs)
      split at h
      · simp at h
      · simp only [Option.some.injEq, Prod.mk.injEq] at h
        rw [h.1, h.2] at ha
        exact ha.symm

theorem balanced_eq (n : Mask) (s : List Byte) : ∀ (st : Scan), 0 ≤ st.bracecount → st.backslashify = false →
    Spec.Tcl.balanced st.bracecount.toNat st.inescape s =
      (let r := escScan n st s
       !(r.backslashify || (r.bracecount != 0 || r.inescape))) := by
  have hmono : ∀ (s : List Byte) (st : Scan), st.backslashify = true → (escScan n st s).backslashify = true := by
    intro s st h
    cases hx : (escScan n st s).backslashify
    · have := escScan_backslashify_mono _ _ _ hx
      rw [h] at this; simp at this
    · rfl
  induction s with
  | nil =>
    intro st h0 hb
    simp only [Spec.Tcl.balanced, escScan, hb, Bool.false_or, Bool.not_or]
    by_cases h : st.bracecount = 0
    · simp [h]
    · have h1 : (st.bracecount.toNat == 0) = false := by rw [beq_eq_false_iff_ne]; omega
      have h2 : (st.bracecount != 0) = true := by rw [bne_iff_ne]; exact h
      rw [h1, h2]; rfl
  | cons c s ih =>
    intro st h0 hb
    cases hi : st.inescape
    · rw [show Spec.Tcl.balanced st.bracecount.toNat false (c :: s) =
        (if c = 92 then Spec.Tcl.balanced st.bracecount.toNat true s
        else if c = 123 then Spec.Tcl.balanced (st.bracecount.toNat + 1) false s
        else if c = 125 then (match st.bracecount.toNat with | 0 => false | d + 1 => Spec.Tcl.balanced d false s)
        else Spec.Tcl.balanced st.bracecount.toNat false s) from rfl, escScan]
      simp only [hb, hi, Bool.not_false, Bool.true_and, Bool.false_or]
      by_cases h92 : c = 92
      · subst h92
        rw [if_pos rfl]
        simp only [show ((92 : Byte) == 123) = false from rfl, show ((92 : Byte) == 125) = false from rfl,
          Bool.false_eq_true, if_false, beq_self_eq_true, if_true]
        have := ih ⟨decide (st.bracecount < 0), true, if doit n 92 = true then st.unprintables + 1 else st.unprintables,
          st.bracecount⟩ h0 (by simpa using h0)
        exact this
      · rw [if_neg h92]
        have h92' : (c == 92) = false := by simpa using h92
        by_cases h123 : c = 123
        · subst h123
          rw [if_pos rfl]
          simp only [h92', Bool.false_eq_true, if_false, beq_self_eq_true, if_true]
          have := ih ⟨decide (st.bracecount + 1 < 0), false, if doit n 123 = true then st.unprintables + 1 else st.unprintables,
            st.bracecount + 1⟩ (by simp only; omega) (by simp only [decide_eq_false_iff_not]; omega)
          have e : (st.bracecount + 1).toNat = st.bracecount.toNat + 1 := by omega
          simp only [e] at this
          exact this
        · rw [if_neg h123]
          have h123' : (c == 123) = false := by simpa using h123
          by_cases h125 : c = 125
          · subst h125
            rw [if_pos rfl]
            simp only [h92', h123', Bool.false_eq_true, if_false, beq_self_eq_true, if_true]
            by_cases hz : st.bracecount = 0
            · rw [hz]
              simp only [Int.toNat_zero]
              rw [hmono _ _ (by simp)]
              rfl
            · have := ih ⟨decide (st.bracecount - 1 < 0), false,
                if doit n 125 = true then st.unprintables + 1 else st.unprintables,
                st.bracecount - 1⟩ (by simp only; omega) (by simp only [decide_eq_false_iff_not]; omega)
              have e : st.bracecount.toNat = (st.bracecount - 1).toNat + 1 := by omega
              rw [e]
              exact this
          · rw [if_neg h125]
            have h125' : (c == 125) = false := by simpa using h125
            simp only [h92', h123', h125', Bool.false_eq_true, if_false]
            exact ih ⟨decide (st.bracecount < 0), false, if doit n c = true then st.unprintables + 1 else st.unprintables,
              st.bracecount⟩ h0 (by simpa using h0)
    · rw [show Spec.Tcl.balanced st.bracecount.toNat true (c :: s) =
        Spec.Tcl.balanced st.bracecount.toNat false s from rfl, escScan]
      simp only [hb, hi, Bool.not_true, Bool.false_and, Bool.false_eq_true, if_false, Bool.false_or, ite_self]
      exact ih ⟨decide (st.bracecount < 0), false, if doit n c = true then st.unprintables + 1 else st.unprintables,
        st.bracecount⟩ h0 (by simpa using h0)

theorem needsBackslash_eq (n : Mask) (s : List Byte) : needsBackslash n s = !Spec.Tcl.balanced 0 false s := by
  have := balanced_eq n s {} (Int.le_refl 0) rfl
  have h2 : Spec.Tcl.balanced 0 false s = !needsBackslash n s := this
  rw [h2]; simp

theorem getwordRaw_no_quote {split : Mask} {s w r : List Byte} (h : getwordRaw split s = some (w, r)) :
    w ≠ [34] := by
  unfold getwordRaw at h
  have hq : ∀ l g, g.inquote = true → (gwLoop split g l).1.inquote = true := by
    intro l
    induction l with
    | nil => intro g hg; exact hg
    | cons c l ih =>
      intro g hg
      unfold gwLoop
      simp only [hg]
      split
      · exact ih _ (by rfl)
      · split
        · exact ih _ (by rfl)
        · split
          · rfl
          · simp
            exact ih _ rfl
  split at h
  · simp at h
  · rename_i c cs hs
    by_cases hc : (c == 34) = true
    · simp only [hc, if_true] at h
      have := hq cs { inquote := true } rfl
      simp [this] at h
    · simp only [hc, Bool.false_eq_true, if_false] at h
      have ha := gwLoop_append split {} (c :: cs)
      split at h
      · simp at h
      · simp only [Option.some.injEq, Prod.mk.injEq] at h
        rw [h.1] at ha
        intro hw
        rw [hw] at ha
        simp at ha
        exact hc (by simp [← ha.1])

end Wv.Tcl
