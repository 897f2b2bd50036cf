import Verif.Model.Key
import Verif.Spec.Path
import Verif.Props.Split
import Verif.Lemmas.Basic
/- Keys as names and a slash at the end. -/
namespace Wv.Key
open Spec.Path

/-- The key with the given names, and a slash at the end or not. -/
def mk (ns : List Seg) (d : Bool) : Key := ns ++ (if d then [[]] else [])

/-- What can be the names of a key. -/
def Names (ns : List Seg) : Prop := ∀ n ∈ ns, n ≠ [] ∧ slash ∉ n

/-- A key as parse makes them. -/
def Ok (k : Key) : Prop := ∃ ns d, Names ns ∧ (d = true → ns ≠ []) ∧ k = mk ns d

theorem contains_slash : ([ch '/'] : List Byte).contains = (· == slash) := by
  funext c; simp [ch, slash]; rfl

theorem pieces_no_sep (sep : Byte → Bool) (s : List Byte) : ∀ p ∈ Spec.Split.pieces sep s, ∀ c ∈ p, sep c = false := by
  induction s with
  | nil => simp [Props.pieces_nil]
  | cons c s ih =>
    rw [Props.pieces_cons]
    have hn := Props.pieces_ne_nil sep s
    obtain ⟨q, r, hqr⟩ := List.exists_cons_of_ne_nil hn
    rw [hqr] at ih ⊢
    by_cases h : sep c
    · rw [if_pos h]
      intro p hp
      rcases List.mem_cons.mp hp with rfl | hp
      · simp
      · exact ih p hp
    · rw [if_neg h]
      intro p hp
      rcases List.mem_cons.mp hp with rfl | hp
      · intro d hd
        rcases List.mem_cons.mp hd with rfl | hd
        · simpa using h
        · exact ih q (by simp) d hd
      · exact ih p (by simp only [List.tail_cons] at hp; simp [hp])

theorem names_ok (s : List Byte) : Names (names s) := by
  intro n hn
  refine ⟨Props.words_ne_nil _ _ n hn, ?_⟩
  intro hs
  have := pieces_no_sep (· == slash) s n (List.mem_filter.mp hn |>.1) slash hs
  simp at this

theorem filter_names (ns : List Seg) (h : Names ns) : ns.filter (· ≠ []) = ns :=
  List.filter_eq_self.mpr fun n hn => by simpa using (h n hn).1

theorem split_filter (s : List Byte) : (Split.split [ch '/'] 0 s).filter (· ≠ []) = names s := by
  rw [Props.C35_split_words, List.filter_append, List.filter_append, contains_slash, Props.filter_words]
  have : ∀ b : Bool, (if b then ([[]] : List (List Byte)) else []).filter (· ≠ []) = [] := by intro b; cases b <;> simp
  rw [this, this]
  simp [names]

theorem parse_eq (s : List Byte) : parse s = mk (names s) (dir s) := by
  unfold parse
  by_cases hs : s = []
  · subst hs; rfl
  · rw [if_neg hs]
    dsimp only
    rw [split_filter]
    unfold mk dir
    have e : ch '/' = slash := rfl
    rw [e]
    cases hn : names s with
    | nil => simp
    | cons a l => by_cases hl : s.getLast? = some slash <;> simp [hl]

theorem dir_names (s : List Byte) : dir s = true → names s ≠ [] := by
  unfold dir; cases names s <;> simp

theorem parse_ok (s : List Byte) : Ok (parse s) := ⟨names s, dir s, names_ok s, dir_names s, parse_eq s⟩

theorem pieces_append (sep : Byte → Bool) (s t : List Byte) (d : Byte) (hd : sep d = true) :
    Spec.Split.pieces sep (s ++ d :: t) = Spec.Split.pieces sep s ++ Spec.Split.pieces sep t := by
  induction s with
  | nil => rw [List.nil_append, Props.pieces_cons, hd, Props.pieces_nil]; rfl
  | cons c s ih =>
    rw [List.cons_append, Props.pieces_cons, Props.pieces_cons, ih]
    obtain ⟨q, r, hqr⟩ := List.exists_cons_of_ne_nil (Props.pieces_ne_nil sep s)
    rw [hqr]
    split <;> simp

theorem names_append (s t : List Byte) : names (s ++ slash :: t) = names s ++ names t := by
  unfold names Spec.Split.words
  rw [pieces_append _ _ _ _ (by simp), List.filter_append]

theorem names_one (n : List Byte) (h : n ≠ [] ∧ slash ∉ n) : names n = [n] := by
  unfold names Spec.Split.words
  rw [Props.pieces_clean _ n (by intro c hc; simp only [beq_eq_false_iff_ne]; rintro rfl; exact h.2 hc)]
  simp [h.1]

theorem names_nil : names [] = [] := rfl

theorem names_join (ns : List Seg) (h : Names ns) : names (Spec.Split.join [slash] ns) = ns := by
  induction ns with
  | nil => rfl
  | cons n ns ih =>
    have h1 := names_one n (h n (by simp))
    cases ns with
    | nil => exact h1
    | cons m ns =>
      rw [Spec.Split.join]
      · rw [List.singleton_append, names_append, h1, ih (fun x hx => h x (by simp [hx]))]; rfl
      · simp

theorem names_write (ns : List Seg) (d : Bool) (h : Names ns) : names (write ns d) = ns := by
  unfold write
  cases d
  · simp [names_join ns h]
  · simp only [if_true]
    rw [names_append, names_join ns h, names_nil, List.append_nil]

theorem join_last (ns : List Seg) (h : Names ns) : (Spec.Split.join [slash] ns).getLast? ≠ some slash := by
  induction ns with
  | nil => simp [Spec.Split.join]
  | cons n ns ih =>
    have hn := h n (by simp)
    cases ns with
    | nil =>
      intro hl
      exact hn.2 (List.mem_of_getLast? hl)
    | cons m ns =>
      have ih := ih (fun x hx => h x (by simp [hx]))
      rw [Spec.Split.join]
      · rw [List.getLast?_append, List.getLast?_append]
        have hne : Spec.Split.join [slash] (m :: ns) ≠ [] := by
          intro he
          have := names_join (m :: ns) (fun x hx => h x (by simp [hx]))
          rw [he] at this; simp [names_nil] at this
        rw [List.getLast?_eq_some_getLast hne] at ih ⊢
        simpa using ih
      · simp

theorem dir_write (ns : List Seg) (d : Bool) (h : Names ns) (hd : d = true → ns ≠ []) : dir (write ns d) = d := by
  unfold dir
  rw [names_write ns d h]
  unfold write
  cases d
  · simp [join_last ns h]
  · simp [hd rfl]

theorem parse_write (ns : List Seg) (d : Bool) (h : Names ns) (hd : d = true → ns ≠ []) : parse (write ns d) = mk ns d := by
  rw [parse_eq, names_write ns d h, dir_write ns d h hd]

theorem printLoop_eq (k : Key) : printLoop k = Spec.Split.join [slash] k := by
  induction k with
  | nil => rfl
  | cons s k ih =>
    cases k with
    | nil => rfl
    | cons t k => rw [printLoop, Spec.Split.join, ih] <;> simp [ch, slash]

theorem printable_eq (k : Key) : printable k = Spec.Split.join [slash] k := by
  unfold printable
  split
  · rfl
  · rfl
  · exact printLoop_eq k

theorem join_snoc (ns : List Seg) (h : ns ≠ []) : Spec.Split.join [slash] (ns ++ [[]]) = Spec.Split.join [slash] ns ++ [slash] := by
  induction ns with
  | nil => exact absurd rfl h
  | cons n ns ih =>
    cases ns with
    | nil => simp [Spec.Split.join]
    | cons m ns =>
      have e : ∀ (x y : Seg) (l : List Seg), Spec.Split.join [slash] (x :: y :: l) = x ++ slash :: Spec.Split.join [slash] (y :: l) := by
        intro x y l; rfl
      have := ih (by simp)
      rw [List.cons_append] at this
      rw [List.cons_append, List.cons_append, e, e, this]
      simp

theorem printable_mk (ns : List Seg) (d : Bool) (hd : d = true → ns ≠ []) : printable (mk ns d) = write ns d := by
  rw [printable_eq]
  unfold mk write
  cases d
  · simp
  · simp only [if_true]; exact join_snoc ns (hd rfl)

theorem mk_inj (a b : List Seg) (d e : Bool) (ha : Names a) (hb : Names b) (hd : d = true → a ≠ []) (he : e = true → b ≠ [])
    (h : mk a d = mk b e) : a = b ∧ d = e := by
  have h1 := parse_write a d ha hd
  have h2 := parse_write b e hb he
  have h3 : write a d = write b e := by rw [← printable_mk a d hd, ← printable_mk b e he, h]
  exact ⟨by rw [← names_write a d ha, h3, names_write b e hb], by rw [← dir_write a d ha hd, h3, dir_write b e hb he]⟩

theorem ok_parse (k : Key) (h : Ok k) : parse (printable k) = k := by
  obtain ⟨ns, d, h1, h2, rfl⟩ := h
  rw [printable_mk ns d h2, parse_write ns d h1 h2]

theorem filter_mk (ns : List Seg) (d : Bool) (h : Names ns) : (mk ns d).filter (· ≠ []) = ns := by
  unfold mk
  rw [List.filter_append, filter_names ns h]
  cases d <;> simp

theorem isempty_mk (ns : List Seg) (d : Bool) (hd : d = true → ns ≠ []) : isempty (mk ns d) = ns.isEmpty := by
  unfold isempty mk
  cases ns with
  | nil => cases d <;> simp at hd ⊢
  | cons => simp

theorem trailing_mk (ns : List Seg) (d : Bool) (h : Names ns) : hastrailingslash (mk ns d) = d := by
  unfold hastrailingslash mk
  cases d
  · simp only [Bool.false_eq_true, if_false, List.append_nil, beq_eq_false_iff_ne]
    intro hl
    exact (h [] (List.mem_of_getLast? hl)).1 rfl
  · simp

theorem collapse_mk (ns : List Seg) (d : Bool) (h : Names ns) : collapse (mk ns d) = mk ns (d && !ns.isEmpty) := by
  unfold collapse mk
  cases ns with
  | nil => cases d <;> simp
  | cons n ns =>
    have := (h n (by simp)).1
    cases d <;> simp [this]

theorem Names.append {a b : List Seg} (ha : Names a) (hb : Names b) : Names (a ++ b) := by
  intro n hn
  rcases List.mem_append.mp hn with h | h
  · exact ha n h
  · exact hb n h

theorem join_mk (a b : List Seg) (d e : Bool) (ha : Names a) (hb : Names b) (he : e = true → b ≠ []) :
    join (mk a d) (mk b e) = mk (a ++ b) ((b.isEmpty || e) && !(a ++ b).isEmpty) := by
  unfold join
  rw [filter_mk a d ha, filter_mk b e hb, isempty_mk b e he, trailing_mk b e hb]
  exact collapse_mk (a ++ b) (b.isEmpty || e) (ha.append hb)

theorem mk_length (ns : List Seg) (d : Bool) : (mk ns d).length = ns.length + (if d then 1 else 0) := by
  unfold mk; cases d <;> simp

theorem mk_take (ns : List Seg) (d : Bool) (j : Nat) : (mk ns d).take j = mk (ns.take j) (d && decide (ns.length < j)) := by
  unfold mk
  rw [List.take_append]
  cases d
  · simp
  · by_cases h : ns.length < j
    · obtain ⟨m, hm⟩ : ∃ m, j - ns.length = m + 1 := ⟨j - ns.length - 1, by omega⟩
      simp [h, hm]
    · have : j - ns.length = 0 := by omega
      simp [h, this]

theorem mk_drop (ns : List Seg) (d : Bool) (i : Nat) : (mk ns d).drop i = mk (ns.drop i) (d && decide (i ≤ ns.length)) := by
  unfold mk
  rw [List.drop_append]
  cases d
  · simp
  · by_cases h : i ≤ ns.length
    · have : i - ns.length = 0 := by omega
      simp [h, this]
    · obtain ⟨m, hm⟩ : ∃ m, i - ns.length = m + 1 := ⟨i - ns.length - 1, by omega⟩
      simp [h, hm]

theorem Names.take {a : List Seg} (h : Names a) (j : Nat) : Names (a.take j) := fun n hn => h n (List.mem_of_mem_take hn)
theorem Names.drop {a : List Seg} (h : Names a) (j : Nat) : Names (a.drop j) := fun n hn => h n (List.mem_of_mem_drop hn)

/-- `range` in terms of names. -/
theorem range_mk (ns : List Seg) (d : Bool) (h : Names ns) (hd : d = true → ns ≠ []) (i j : Int) :
    range (mk ns d) i j = mk ((ns.take j.toNat).drop i.toNat)
      (d && decide (i < ns.length ∧ (ns.length : Int) < j)) := by
  have key : ∀ i j : Nat, collapse (((mk ns d).take j).drop i) = mk ((ns.take j).drop i) (d && decide (i < ns.length ∧ ns.length < j)) := by
    intro i j
    rw [mk_take, mk_drop, collapse_mk _ _ ((h.take j).drop i)]
    congr 1
    cases d
    · simp
    · by_cases h1 : ns.length < j
      · by_cases h2 : i < ns.length
        · simp [h1, h2]; omega
        · simp [h1, h2]; omega
      · simp [h1]
  unfold range
  dsimp only
  rw [key]
  have hl := mk_length ns d
  have hll : (mk ns d).length ≤ ns.length + 1 := by rw [hl]; split <;> omega
  have hlg : ns.length ≤ (mk ns d).length := by rw [hl]; omega
  generalize (mk ns d).length = L at *
  have hi : (if i < 0 then 0 else i).toNat = i.toNat := by split <;> omega
  obtain ⟨J, hJ⟩ : ∃ J, J = (if (if j > (L : Int) then (L : Int) else j) < (if i < 0 then 0 else i) then (if i < 0 then 0 else i)
    else (if j > (L : Int) then (L : Int) else j)).toNat := ⟨_, rfl⟩
  rw [hi, ← hJ]
  have hJ' : J = max (min j.toNat L) i.toNat := by
    rw [hJ]
    by_cases h1 : j > L <;> by_cases h2 : i < 0 <;> simp only [h1, h2, if_true, if_false] <;> split <;> omega
  clear hJ
  have e1 : (ns.take J).drop i.toNat = (ns.take j.toNat).drop i.toNat := by
    rw [List.drop_take, List.drop_take]
    by_cases h1 : j.toNat ≤ L
    · congr 1; omega
    · rw [List.take_of_length_le (by simp; omega), List.take_of_length_le (by simp; omega)]
  rw [e1]
  congr 1
  cases d
  · simp
  · simp only [Bool.true_and]
    simp only [if_true] at hl
    apply decide_eq_decide.mpr
    have := List.length_pos_iff.mpr (hd rfl)
    omega

end Wv.Key
