import Verif.Model.ListIter
/-!
C130: walking through a prepared list of keys.
-/
namespace Props
open Wv Wv.ListIter
open Spec.ListIter

namespace LiP

/-- The object holds the entries; the iterator of values is where that of keys is, as far as there are values. -/
structure Inv (o : Obj) (s : St) : Prop where
  keys : o.keys = s.entries.map Prod.fst
  values : s.entries.map Prod.snd = o.values.map some ++ List.replicate (s.entries.length - o.values.length) none
  ki : o.ki = s.pos
  vi : ∀ i, s.pos = some i → o.vi = if i ≤ o.values.length then some i else none
  pos : ∀ i, s.pos = some i → i ≤ s.entries.length
  done : s.pos = none → o.vi = none

theorem len {o : Obj} {s : St} (h : Inv o s) : o.values.length ≤ s.entries.length := by
  have := congrArg List.length h.values
  simp at this
  omega

theorem keys_len {o : Obj} {s : St} (h : Inv o s) : o.keys.length = s.entries.length := by rw [h.keys]; simp

theorem entry {o : Obj} {s : St} (h : Inv o s) (i : Nat) (k : Key) (v : Option Value) (he : s.entries[i]? = some (k, v)) :
    o.keys[i]? = some k ∧ (if i < o.values.length then v = o.values[i]? ∧ v.isSome = true else v = none) := by
  have h1 : (s.entries.map Prod.snd)[i]? = some v := by rw [List.getElem?_map, he]; rfl
  have hl : i < s.entries.length := by
    by_cases hc : i < s.entries.length
    · exact hc
    · rw [List.getElem?_eq_none (by omega)] at he
      cases he
  rw [h.values] at h1
  refine ⟨by rw [h.keys, List.getElem?_map, he]; rfl, ?_⟩
  by_cases hc : i < o.values.length
  · rw [if_pos hc]
    rw [List.getElem?_append_left (by simpa using hc), List.getElem?_map, List.getElem?_eq_getElem hc] at h1
    rw [List.getElem?_eq_getElem hc]
    simp at h1
    subst h1
    exact ⟨rfl, rfl⟩
  · rw [if_neg hc]
    rw [List.getElem?_append_right (by simpa using hc), List.getElem?_replicate] at h1
    split at h1
    · injection h1 with h1
      exact h1.symm
    · cases h1

theorem step_inv (G : Key → Option Value) {o : Obj} {s : St} (h : Inv o s) (p : Op)
    (hp : ∀ k v, p = .add k (some v) → o.values.length = s.entries.length) :
    (ListIter.step G o p).1 = (Spec.ListIter.step G s p).1 ∧ Inv (ListIter.step G o p).2 (Spec.ListIter.step G s p).2 := by
  have hl := len h
  cases p with
  | add k v =>
    refine ⟨rfl, ?_⟩
    cases v with
    | none =>
      refine ⟨by simp [ListIter.step, add, Spec.ListIter.step, h.keys], ?_, h.ki, h.vi, fun i hi => ?_, ?_⟩
      · show (s.entries ++ [(k, none)]).map Prod.snd = o.values.map some ++ List.replicate ((s.entries ++ [(k, none)]).length - o.values.length) none
        have e : (s.entries ++ [(k, (none : Option Value))]).length - o.values.length = (s.entries.length - o.values.length) + 1 := by simp; omega
        rw [List.map_append, h.values, e, List.append_assoc]
        congr 1
        rw [List.replicate_succ']
        rfl
      · have := h.pos i hi
        simp [Spec.ListIter.step]
        omega
      · exact h.done
    | some v =>
      have hq := hp k v rfl
      refine ⟨by simp [ListIter.step, add, Spec.ListIter.step, h.keys], ?_, h.ki, fun i hi => ?_, fun i hi => ?_, ?_⟩
      · show (s.entries ++ [(k, some v)]).map Prod.snd = (o.values ++ [v]).map some ++ List.replicate ((s.entries ++ [(k, some v)]).length - (o.values ++ [v]).length) none
        have e : (s.entries ++ [(k, some v)]).length - (o.values ++ [v]).length = 0 := by simp; omega
        have e' : s.entries.length - o.values.length = 0 := by omega
        rw [List.map_append, h.values, e, e']
        simp
      · have h1 := h.vi i hi
        have h2 := h.pos i hi
        rw [if_pos (by omega)] at h1
        show o.vi = if i ≤ (o.values ++ [v]).length then some i else none
        rw [if_pos (by simp; omega), h1]
      · have := h.pos i hi
        simp [Spec.ListIter.step]
        omega
      · exact h.done
  | rewind => exact ⟨rfl, h.keys, h.values, rfl, fun i hi => (by cases hi; rfl), fun i hi => (by cases hi; exact Nat.zero_le _), fun hc => (by cases hc)⟩
  | next =>
    unfold ListIter.step ListIter.next Spec.ListIter.step
    dsimp only
    rw [h.ki]
    cases hpos : s.pos with
    | none => exact ⟨rfl, h⟩
    | some i =>
      have hv := h.vi i hpos
      have hi := h.pos i hpos
      dsimp only
      unfold Cur.next
      rw [keys_len h]
      by_cases hc : i < s.entries.length
      · rw [if_pos hc, if_pos hc]
        refine ⟨rfl, h.keys, h.values, rfl, fun j hj => ?_, fun j hj => ?_, fun hj => (by cases hj)⟩
        · cases hj
          rw [hv]
          by_cases h1 : i ≤ o.values.length
          · rw [if_pos h1]
            dsimp only
            by_cases h2 : i < o.values.length
            · rw [if_pos h2, if_pos (by omega)]
            · rw [if_neg h2, if_neg (by omega)]
          · rw [if_neg h1]
            show none = _
            rw [if_neg (by simp only []; omega)]
        · cases hj
          exact hc
      · rw [if_neg hc, if_neg hc]
        exact ⟨rfl, h.keys, h.values, rfl, fun j hj => (by cases hj), fun j hj => (by cases hj), fun _ => (by
        dsimp only
        rw [hv]
        by_cases h1 : i ≤ o.values.length
        · rw [if_pos h1]
          dsimp only
          rw [if_neg (by omega)]
        · rw [if_neg h1])⟩
  | key =>
    unfold ListIter.step Spec.ListIter.step
    dsimp only
    rw [h.ki, h.keys]
    cases hpos : s.pos with
    | none => exact ⟨rfl, h⟩
    | some i =>
      cases i with
      | zero => exact ⟨rfl, h⟩
      | succ i =>
        unfold deref
        dsimp only
        rw [List.getElem?_map]
        cases s.entries[i]? with
        | none => exact ⟨rfl, h⟩
        | some e => exact ⟨rfl, h⟩
  | value =>
    unfold ListIter.step ListIter.value Spec.ListIter.step
    dsimp only
    cases hpos : s.pos with
    | none =>
      rw [h.ki, hpos]
      rw [h.done hpos]
      exact ⟨rfl, h⟩
    | some i =>
      have hv := h.vi i hpos
      have hi := h.pos i hpos
      rw [hv, h.ki, hpos]
      cases i with
      | zero =>
        rw [if_pos (Nat.zero_le _)]
        exact ⟨rfl, h⟩
      | succ i =>
        have hlt : i < s.entries.length := hi
        generalize hkv : s.entries[i] = kv
        obtain ⟨k, v⟩ := kv
        have he : s.entries[i]? = some (k, v) := by rw [List.getElem?_eq_getElem hlt, hkv]
        obtain ⟨e1, e2⟩ := entry h i k v he
        dsimp only
        rw [he]
        by_cases hc : i < o.values.length
        · rw [if_pos hc] at e2
          have hle : i + 1 ≤ o.values.length := hc
          simp only [if_pos hle, Option.isSome_some, if_true]
          unfold deref
          dsimp only
          rw [← e2.1]
          cases v with
          | none => cases e2.2
          | some v => exact ⟨rfl, h⟩
        · rw [if_neg hc] at e2
          have hle : ¬ i + 1 ≤ o.values.length := hc
          simp only [if_neg hle, Option.isSome_none, Bool.false_eq_true, if_false]
          unfold deref
          dsimp only
          rw [e1, e2]
          exact ⟨rfl, h⟩

theorem valued_next {a b : List (Option Value)} {v : Value} (h : ValuedFirst (a ++ some v :: b)) : ∀ x ∈ a, x.isSome = true := by
  obtain ⟨l, n, hl⟩ := h
  intro x hx
  by_cases hn : a.length < l.length
  · obtain ⟨j, hj, rfl⟩ := List.mem_iff_getElem.1 hx
    have e := congrArg (fun z => z[j]?) hl
    rw [List.getElem?_append_left hj, List.getElem?_append_left (by simp; omega), List.getElem?_map, List.getElem?_eq_getElem hj, List.getElem?_eq_getElem (by omega)] at e
    simp at e
    rw [e]; rfl
  · have e := congrArg (fun z => z[a.length]?) hl
    rw [List.getElem?_append_right (Nat.le_refl _), List.getElem?_append_right (by simp; omega), List.getElem?_replicate] at e
    simp at e

theorem run_eq (G : Key → Option Value) : ∀ (l : List Op) (o : Obj) (s : St), Inv o s → ValuedFirst (s.entries.map Prod.snd ++ added l) →
    ListIter.run G o l = Spec.ListIter.run G s l := by
  intro l
  induction l with
  | nil => intro o s _ _; rfl
  | cons p l ih =>
    intro o s h hv
    obtain ⟨s1, s2⟩ := step_inv G h p (by
      rintro k v rfl
      have := valued_next hv
      have h1 := h.values
      by_cases hc : s.entries.length - o.values.length = 0
      · have := len h
        omega
      · have hm : (none : Option Value) ∈ s.entries.map Prod.snd := by
          rw [h1]
          exact List.mem_append_right _ (List.mem_replicate.2 ⟨hc, rfl⟩)
        cases this none hm)
    show _ :: _ = _ :: _
    rw [s1, ih _ _ s2]
    cases p with
    | add k v => simpa [Spec.ListIter.step, added] using hv
    | rewind => exact hv
    | next =>
      have : (Spec.ListIter.step G s .next).2.entries = s.entries := by
        unfold Spec.ListIter.step
        dsimp only
        split
        · rfl
        · split <;> rfl
      rw [this]; exact hv
    | key =>
      have : (Spec.ListIter.step G s .key).2 = s := by
        unfold Spec.ListIter.step
        dsimp only
        split
        · split <;> rfl
        · rfl
      rw [this]; exact hv
    | value =>
      have : (Spec.ListIter.step G s .value).2 = s := by
        unfold Spec.ListIter.step
        dsimp only
        split
        · split <;> rfl
        · rfl
      rw [this]; exact hv

end LiP

/-- As long as no key with a value is added after one without, the iterator gives exactly the keys that were added, in that order, each with the value it was added
    with or, if there was none, the one the generator has, whatever is called in whatever order; keys may be added while it is used. -/
theorem C130_walk_partial (G : Key → Option Value) (l : List Op) (h : ValuedFirst (added l)) :
    ListIter.run G ListIter.new l = Spec.ListIter.run G ⟨[], none⟩ l :=
  LiP.run_eq G l _ _ ⟨rfl, rfl, rfl, fun i hi => (by cases hi), fun i hi => (by cases hi), fun _ => rfl⟩ h

example : ValuedFirst (added [.add [[1]] (some [7]), .add [[2]] none, .rewind, .next, .value, .next, .value, .next]) ∧
    ListIter.run (fun _ => some [9]) ListIter.new [.add [[1]] (some [7]), .add [[2]] none, .rewind, .next, .value, .next, .value, .next] =
      [.unit, .unit, .unit, .bool true, .value (some [7]), .bool true, .value (some [9]), .bool false] :=
  ⟨⟨[[7]], 1, rfl⟩, by decide +kernel⟩

/-- Filled from another iterator that has a value for every key, it gives the same pairs, any number of times. -/
theorem C130_autofill (G : Key → Option Value) (ps : List (Key × Value)) (i : Nat) (hi : i < ps.length) :
    let o := (autofill ListIter.new (ps.map fun p => (p.1, some p.2)))
    let w := (List.replicate (i + 1) Op.next)
    ListIter.run G o ([.rewind] ++ w ++ [.key, .value]) = [.unit] ++ List.replicate (i + 1) (.bool true) ++ [.key ps[i].1, .value (some ps[i].2)] := by
  have fill : ∀ (ps : List (Key × Value)) (o : Obj), autofill o (ps.map fun p => (p.1, some p.2)) = { o with keys := o.keys ++ ps.map Prod.fst, values := o.values ++ ps.map Prod.snd } := by
    intro ps
    induction ps with
    | nil => intro o; simp [autofill]
    | cons p ps ih => intro o; simp [autofill, ih, add]
  dsimp only
  rw [fill]
  have walk : ∀ (n j : Nat) (K : List Key) (V : List Value) (l : List Op), j + n ≤ K.length → K.length = V.length →
      ListIter.run G ⟨K, V, some j, some j⟩ (List.replicate n Op.next ++ l) = List.replicate n (Ans.bool true) ++ ListIter.run G ⟨K, V, some (j + n), some (j + n)⟩ l := by
    intro n
    induction n with
    | zero => intro j K V l _ _; rfl
    | succ n ih =>
      intro j K V l h1 h2
      have e : ListIter.step G ⟨K, V, some j, some j⟩ .next = (.bool true, ⟨K, V, some (j + 1), some (j + 1)⟩) := by
        unfold ListIter.step ListIter.next Cur.next
        dsimp only
        rw [if_pos (by omega), if_pos (by omega)]
        rfl
      rw [List.replicate_succ, List.cons_append]
      show (ListIter.step G _ .next).1 :: ListIter.run G (ListIter.step G _ .next).2 _ = _
      rw [e, ih _ _ _ _ (by omega) h2, List.replicate_succ, List.cons_append]
      congr 4 <;> (congr 1; omega)
  show Ans.unit :: ListIter.run G ⟨_, _, some 0, some 0⟩ (List.replicate (i + 1) Op.next ++ [.key, .value]) = _
  rw [walk (i + 1) 0 _ _ _ (by simp [ListIter.new]; omega) (by simp [ListIter.new])]
  simp [ListIter.run, ListIter.step, deref, ListIter.value, ListIter.new, List.getElem?_eq_getElem hi]

example : ListIter.run (fun _ => none) (autofill ListIter.new [([[1]], some [7]), ([[2]], some [8])]) [.rewind, .next, .next, .key, .value] =
    [.unit, .bool true, .bool true, .key [[2]], .value (some [8])] := by decide +kernel

/-- DISAGREEMENT: a key that was added with a value, after one without, is given with the wrong value: the values of all later keys move up to the keys before them. -/
theorem C130_mixed_fails : ∃ (G : Key → Option Value) (l : List Op),
    ListIter.run G ListIter.new l = [.unit, .unit, .unit, .bool true, .value (some [7]), .bool true, .value (some [8])] ∧
    Spec.ListIter.run G ⟨[], none⟩ l = [.unit, .unit, .unit, .bool true, .value (some [9]), .bool true, .value (some [7])] :=
  ⟨fun k => if k = [[1]] then some [9] else some [8], [.add [[1]] none, .add [[2]] (some [7]), .rewind, .next, .value, .next, .value], by decide +kernel⟩

/-- DISAGREEMENT: going on after the end, or before the first `rewind`, reads through a null pointer. -/
theorem C130_end_fails (G : Key → Option Value) : ListIter.run G ListIter.new [.next] = [.bad] ∧ ListIter.run G ListIter.new [.rewind, .next, .next] = [.unit, .bool false, .bad] :=
  ⟨rfl, rfl⟩

end Props
