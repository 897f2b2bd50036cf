import Verif.Model.Attrs
/- C41: stream attributes. -/
namespace Props
open Wv Spec.Attrs

namespace Attr
open Wv.Attrs (State strlen getLoop find realloc write delete clear)

/-- An entry in memory. -/
def enc (e : Text × Text) : List Byte := e.1 ++ [0] ++ (e.2 ++ [0])

/-- All entries. -/
def encs (l : List (Text × Text)) : List Byte := (l.map enc).flatten

/-- Entries that can be: names and values not empty, no NULs. -/
def Good (e : Text × Text) : Prop := e.1 ≠ [] ∧ e.2 ≠ [] ∧ (0 : Byte) ∉ e.1 ∧ (0 : Byte) ∉ e.2

/-- The memory holds these entries. -/
structure Holds (s : State) (l : List (Text × Text)) : Prop where
  len : s.len = (encs l).length
  mem : s.list = some (encs l ++ [0]) ∨ (s.list = none ∧ l = [])
  good : ∀ e ∈ l, Good e
  once : (l.map (·.1)).Nodup

/-- Where the value of a name is. -/
def place (l : List (Text × Text)) (n : Text) : Option Nat :=
  (l.findIdx? fun e => e.1 == n).map fun i => (encs (l.take i)).length + n.length + 1

/-- The value of a name. -/
def look (l : List (Text × Text)) (n : Text) : Option Text := (l.find? fun e => e.1 == n).map (·.2)

theorem takeWhile_c (a r : List Byte) (h : (0 : Byte) ∉ a) : (a ++ 0 :: r).takeWhile (· ≠ (0 : Byte)) = a := by
  rw [List.takeWhile_append_of_pos (by intro x hx; simp; intro e; exact h (e ▸ hx))]
  simp

theorem strlen_c (a r : List Byte) (h : (0 : Byte) ∉ a) : strlen (a ++ 0 :: r) = some a.length := by
  unfold strlen
  rw [if_pos (by simp), takeWhile_c a r h]

theorem getLoop_spec (n : Text) (l : List (Text × Text)) (hg : ∀ e ∈ l, Good e) : ∀ (f p : Nat), l.length < f →
    getLoop n f (encs l ++ [0]) p = some (match l.findIdx? (fun e => e.1 == n) with
      | none => none
      | some i => some (p + (encs (l.take i)).length + n.length + 1)) := by
  induction l with
  | nil =>
    intro f p hf
    obtain ⟨f, rfl⟩ : ∃ g, f = g + 1 := ⟨f - 1, by simp at hf; omega⟩
    rfl
  | cons e l ih =>
    intro f p hf
    obtain ⟨f, rfl⟩ : ∃ g, f = g + 1 := ⟨f - 1, by simp at hf; omega⟩
    obtain ⟨g1, g2, g3, g4⟩ := hg e (by simp)
    obtain ⟨c, r, hc⟩ : ∃ c r, e.1 = c :: r := List.exists_cons_of_ne_nil g1
    have hall : encs (e :: l) ++ [0] = e.1 ++ 0 :: (e.2 ++ 0 :: (encs l ++ [0])) := by simp [encs, enc]
    have hform : encs (e :: l) ++ [0] = c :: (r ++ 0 :: (e.2 ++ 0 :: (encs l ++ [0]))) := by rw [hall, hc]; rfl
    have hc0 : c ≠ 0 := by
      intro h; apply g3; rw [hc, h]; simp
    rw [hform, getLoop, if_neg hc0, ← hform, hall, strlen_c _ _ g3]
    simp only [Option.bind_some]
    rw [takeWhile_c _ _ g3]
    by_cases hn : e.1 = n
    · rw [if_pos hn, List.findIdx?_cons]
      simp only [hn, beq_self_eq_true, if_true]
      simp [encs]
    · rw [if_neg hn, List.findIdx?_cons]
      have hb : (e.1 == n) = false := by simpa using hn
      simp only [hb, Bool.false_eq_true, if_false]
      have hd : (e.1 ++ 0 :: (e.2 ++ 0 :: (encs l ++ [0]))).drop (e.1.length + 1) = e.2 ++ 0 :: (encs l ++ [0]) := by
        have : e.1 ++ 0 :: (e.2 ++ 0 :: (encs l ++ [0])) = (e.1 ++ [0]) ++ (e.2 ++ 0 :: (encs l ++ [0])) := by simp
        rw [this, List.drop_left' (by simp)]
      rw [hd, strlen_c _ _ g4]
      simp only [Option.bind_some]
      have hd2 : (e.1 ++ 0 :: (e.2 ++ 0 :: (encs l ++ [0]))).drop (e.1.length + 1 + e.2.length + 1) = encs l ++ [0] := by
        have : e.1 ++ 0 :: (e.2 ++ 0 :: (encs l ++ [0])) = (e.1 ++ [0] ++ e.2 ++ [0]) ++ (encs l ++ [0]) := by simp
        rw [this, List.drop_left' (by simp; omega)]
      rw [hd2, ih (fun x hx => hg x (by simp [hx])) f _ (by simp at hf; omega)]
      congr 1
      cases l.findIdx? (fun e => e.1 == n) with
      | none => rfl
      | some i =>
        simp only [Option.map_some, List.take_succ_cons]
        congr 1
        simp [encs, enc]; omega

theorem encs_length_ge (l : List (Text × Text)) : 2 * l.length ≤ (encs l).length := by
  induction l with
  | nil => simp
  | cons e l ih =>
    have : (encs (e :: l)).length = (enc e).length + (encs l).length := by simp [encs]
    rw [this]; simp [enc]; omega

theorem find_spec (s : State) (l : List (Text × Text)) (h : Holds s l) (n : Text) :
    find s n = some (place l n) := by
  unfold find place
  rcases h.mem with hm | ⟨hm, rfl⟩
  · rw [hm]
    simp only []
    have := getLoop_spec n l h.good (encs l ++ [0]).length 0 (by have := encs_length_ge l; simp; omega)
    rw [this]
    cases l.findIdx? (fun e => e.1 == n) <;> simp
  · rw [hm]; rfl

/-- The entries before, the entry and the entries after a name's place. -/
theorem split_at (l : List (Text × Text)) (n : Text) (i : Nat) (h : l.findIdx? (fun e => e.1 == n) = some i) :
    ∃ v, l = l.take i ++ (n, v) :: l.drop (i + 1) ∧ look l n = some v ∧ i < l.length := by
  obtain ⟨hi, h1, h2⟩ := List.findIdx?_eq_some_iff_getElem.mp h
  have hn : l[i].1 = n := by simpa using h1
  refine ⟨l[i].2, ?_, ?_, hi⟩
  · conv => lhs; rw [← List.take_append_drop i l, List.drop_eq_getElem_cons hi]
    congr 2
    exact Prod.ext hn rfl
  · unfold look
    have : l.find? (fun e => e.1 == n) = some l[i] := by
      rw [List.find?_eq_some_iff_getElem]
      exact ⟨h1, i, hi, rfl, fun j hj => by simpa using h2 j hj⟩
    rw [this]; rfl

theorem look_none (l : List (Text × Text)) (n : Text) (h : l.findIdx? (fun e => e.1 == n) = none) : look l n = none ∧ ∀ e ∈ l, e.1 ≠ n := by
  rw [List.findIdx?_eq_none_iff] at h
  refine ⟨?_, fun e he hn => by have := h e he; simp [hn] at this⟩
  unfold look
  rw [List.find?_eq_none.mpr (by intro x hx; simp [h x hx])]
  rfl

theorem get_spec (s : State) (l : List (Text × Text)) (h : Holds s l) (n : Text) : Wv.Attrs.get s (some n) = some (look l n) := by
  unfold Wv.Attrs.get
  simp only []
  rw [find_spec s l h n]
  unfold place
  cases hf : l.findIdx? (fun e => e.1 == n) with
  | none => simp only [Option.bind_some, Option.map_none, (look_none l n hf).1]
  | some i =>
    obtain ⟨v, h1, h2, h3⟩ := split_at l n i hf
    simp only [Option.bind_some, Option.map_some]
    have hm : s.list = some (encs l ++ [0]) := by
      rcases h.mem with hm | ⟨_, rfl⟩
      · exact hm
      · simp at h3
    have hv : (0 : Byte) ∉ v := (h.good (n, v) (by rw [h1]; simp)).2.2.2
    have hd : (encs l ++ [0]).drop ((encs (l.take i)).length + n.length + 1) = v ++ 0 :: (encs (l.drop (i + 1)) ++ [0]) := by
      have : encs l ++ [0] = (encs (l.take i) ++ n ++ [0]) ++ (v ++ 0 :: (encs (l.drop (i + 1)) ++ [0])) := by
        conv => lhs; rw [h1]
        simp [encs, enc]
      rw [this, List.drop_left' (by simp; omega)]
    rw [hm, Option.getD_some, hd, strlen_c _ _ hv, Option.map_some, h2, List.take_left' rfl]

theorem delete_spec (junk : Byte) (s : State) (l : List (Text × Text)) (h : Holds s l) (n : Text) (i : Nat)
    (hf : l.findIdx? (fun e => e.1 == n) = some i) :
    ∃ s', delete junk s n.length ((encs (l.take i)).length + n.length + 1) = some s' ∧ Holds s' (l.take i ++ l.drop (i + 1)) := by
  obtain ⟨v, h1, h2, h3⟩ := split_at l n i hf
  have hm : s.list = some (encs l ++ [0]) := by
    rcases h.mem with hm | ⟨_, rfl⟩
    · exact hm
    · simp at h3
  have hv : (0 : Byte) ∉ v := (h.good (n, v) (by rw [h1]; simp)).2.2.2
  have hall : encs l = encs (l.take i) ++ (n ++ [0] ++ (v ++ [0])) ++ encs (l.drop (i + 1)) := by
    conv => lhs; rw [h1]
    simp [encs, enc]
  have hd : (encs l ++ [0]).drop ((encs (l.take i)).length + n.length + 1) = v ++ 0 :: (encs (l.drop (i + 1)) ++ [0]) := by
    have : encs l ++ [0] = (encs (l.take i) ++ n ++ [0]) ++ (v ++ 0 :: (encs (l.drop (i + 1)) ++ [0])) := by
      rw [hall]; simp
    rw [this, List.drop_left' (by simp; omega)]
  have hlen : s.len = (encs (l.take i)).length + (n.length + v.length + 2) + (encs (l.drop (i + 1))).length := by
    rw [h.len, hall]; simp; omega
  have hml : (encs l ++ [0]).length = s.len + 1 := by rw [h.len]; simp
  have hdd : (encs l ++ [0]).drop ((encs (l.take i)).length + (n.length + v.length + 2)) = encs (l.drop (i + 1)) ++ [0] := by
    have : encs l ++ [0] = (encs (l.take i) ++ (n ++ [0] ++ (v ++ [0]))) ++ (encs (l.drop (i + 1)) ++ [0]) := by
      rw [hall]; simp
    rw [this, List.drop_left' (by simp; omega)]
  have hcat : encs (l.take i ++ l.drop (i + 1)) = encs (l.take i) ++ encs (l.drop (i + 1)) := by simp [encs]
  obtain ⟨s', hs'⟩ : ∃ s' : State, s' = ⟨some (encs (l.take i ++ l.drop (i + 1)) ++ [0]), (encs (l.take i ++ l.drop (i + 1))).length⟩ := ⟨_, rfl⟩
  refine ⟨s', ?_, ?_⟩
  · unfold delete
    rw [hm, Option.getD_some, hd, strlen_c _ _ hv]
    simp only [Option.bind_some]
    rw [if_neg (by omega)]
    have eo : (encs (l.take i)).length + n.length + 1 - (n.length + 1) = (encs (l.take i)).length := by omega
    rw [eo, if_neg (by omega), hdd, hml, if_neg (by omega)]
    have ee : s.len - (encs (l.take i)).length - (n.length + v.length + 2) + 1 = (encs (l.drop (i + 1)) ++ [0]).length := by
      simp; omega
    rw [ee, List.take_length]
    unfold write
    rw [hml, if_pos (by simp; omega), Option.map_some, hs', hcat]
    have et : (encs l ++ [0]).take (encs (l.take i)).length = encs (l.take i) := by
      have : encs l ++ [0] = encs (l.take i) ++ ((n ++ [0] ++ (v ++ [0])) ++ (encs (l.drop (i + 1)) ++ [0])) := by
        rw [hall]; simp
      rw [this, List.take_left' rfl]
    rw [et]
    congr 1
    have el : s.len - (n.length + v.length + 2) = (encs (l.take i) ++ encs (l.drop (i + 1))).length := by simp; omega
    rw [el]
    congr 2
    unfold realloc
    rw [Option.getD_some]
    have e0 : (encs (l.take i) ++ encs (l.drop (i + 1))).length + 1 = (encs (l.take i) ++ (encs (l.drop (i + 1)) ++ [0])).length := by
      simp; omega
    rw [e0, List.take_left' rfl]
    have e1 : (encs (l.take i) ++ (encs (l.drop (i + 1)) ++ [0])).length - (encs (l.take i) ++ (encs (l.drop (i + 1)) ++ [0]) ++
        (encs l ++ [(0 : Byte)]).drop ((encs (l.take i)).length + (encs (l.drop (i + 1)) ++ [(0 : Byte)]).length)).length = 0 := by
      simp
    rw [e1]; simp
  · rw [hs']
    refine ⟨rfl, Or.inl rfl, ?_, ?_⟩
    · intro e he
      apply h.good
      rw [h1]
      rcases List.mem_append.mp he with he | he
      · simp [he]
      · simp [he]
    · have := h.once
      rw [h1] at this
      simp only [List.map_append, List.map_cons, List.nodup_append, List.nodup_cons] at this ⊢
      refine ⟨this.1, this.2.1.2, ?_⟩
      intro a ha b hb
      exact this.2.2 a ha b (List.mem_cons_of_mem _ hb)

theorem look_delete (l : List (Text × Text)) (ho : (l.map (·.1)).Nodup) (n : Text) (i : Nat) (hf : l.findIdx? (fun e => e.1 == n) = some i) (k : Text) :
    look (l.take i ++ l.drop (i + 1)) k = if k = n then none else look l k := by
  obtain ⟨v, h1, h2, h3⟩ := split_at l n i hf
  have hnot : ∀ e ∈ l.take i ++ l.drop (i + 1), e.1 ≠ n := by
    rw [h1] at ho
    simp only [List.map_append, List.map_cons, List.nodup_append, List.nodup_cons] at ho
    intro e he
    rcases List.mem_append.mp he with he | he
    · exact ho.2.2 e.1 (List.mem_map_of_mem he) n (by simp)
    · intro hn
      exact ho.2.1.1 (hn ▸ List.mem_map_of_mem he)
  by_cases hk : k = n
  · subst hk
    rw [if_pos rfl]
    unfold look
    rw [List.find?_eq_none.mpr (by intro x hx; simpa using hnot x hx)]
    rfl
  · rw [if_neg hk]
    conv => rhs; rw [h1]
    unfold look
    rw [List.find?_append, List.find?_append, List.find?_cons]
    have : (n == k) = false := by simpa using fun e : n = k => hk e.symm
    simp only [this]

theorem write_end (m p l : List Byte) (h : m.length = p.length) : write (p ++ l) m.length l = some (p ++ l) := by
  unfold write
  rw [if_pos (by simp [h]), h, List.take_left' rfl]
  simp

theorem append_spec (junk : Byte) (s : State) (l : List (Text × Text)) (h : Holds s l) (n v : Text) (hn : Good (n, v)) (hnew : ∀ e ∈ l, e.1 ≠ n) :
    ∃ s', ((write (realloc junk s.list (s.len + (n.length + v.length + 2) + 1)) s.len (n ++ [0])).bind fun m =>
          (write m (s.len + n.length + 1) (v ++ [0])).bind fun m =>
            (write m (s.len + (n.length + v.length + 2)) [0]).map fun m => (⟨some m, s.len + (n.length + v.length + 2)⟩ : State)) = some s' ∧
      Holds s' (l ++ [(n, v)]) := by
  have hr : ∃ r, realloc junk s.list (s.len + (n.length + v.length + 2) + 1) = encs l ++ r ∧ r.length = n.length + v.length + 3 := by
    unfold realloc
    rcases h.mem with hm | ⟨hm, hl⟩
    · rw [hm, Option.getD_some, h.len]
      refine ⟨[0] ++ List.replicate ((encs l).length + (n.length + v.length + 2) + 1 - (encs l ++ [0]).length) junk, ?_, ?_⟩
      · rw [List.take_of_length_le (by simp)]; simp
      · simp
    · subst hl
      rw [hm, h.len]
      refine ⟨List.replicate (n.length + v.length + 3) junk, ?_, by simp⟩
      simp [encs]
  obtain ⟨r, hr1, hr2⟩ := hr
  have hcat : encs (l ++ [(n, v)]) = encs l ++ (n ++ [0] ++ (v ++ [0])) := by simp [encs, enc]
  have hw : ∀ (a b c : List Byte) (p : Nat), a.length = p → c.length ≤ b.length → write (a ++ b) p c = some (a ++ c ++ b.drop c.length) := by
    intro a b c p ha hc
    unfold write
    rw [if_pos (by simp; omega), ← ha, List.take_left' rfl, ← List.drop_drop, List.drop_left' rfl]
  refine ⟨⟨some (encs (l ++ [(n, v)]) ++ [0]), (encs (l ++ [(n, v)])).length⟩, ?_, ?_⟩
  · rw [hr1, hw _ _ _ _ h.len.symm (by simp; omega), Option.bind_some,
      hw _ _ _ _ (by rw [h.len]; simp; omega) (by simp; omega), Option.bind_some,
      hw _ _ _ _ (by rw [h.len]; simp; omega) (by simp; omega), Option.map_some, hcat, h.len]
    have : (((r.drop (n ++ [0]).length).drop (v ++ [0]).length).drop [(0 : Byte)].length) = [] := by
      apply List.eq_nil_of_length_eq_zero
      simp; omega
    rw [this]
    congr 1
    have e1 : (encs l ++ (n ++ [0]) ++ (v ++ [0]) ++ [0] ++ []) = encs l ++ (n ++ [0] ++ (v ++ [0])) ++ [0] := by simp
    have e2 : (encs l).length + (n.length + v.length + 2) = (encs l ++ (n ++ [0] ++ (v ++ [0]))).length := by simp; omega
    rw [e1, e2]
  · refine ⟨rfl, Or.inl rfl, ?_, ?_⟩
    · intro e he
      rcases List.mem_append.mp he with he | he
      · exact h.good e he
      · rw [List.mem_singleton.mp he]; exact hn
    · simp only [List.map_append, List.map_cons, List.map_nil, List.nodup_append]
      refine ⟨h.once, by simp, ?_⟩
      intro a ha b hb
      obtain ⟨e, he, rfl⟩ := List.mem_map.mp ha
      rw [List.mem_singleton.mp hb]
      exact hnew e he

theorem look_append (l : List (Text × Text)) (n v : Text) (hnew : ∀ e ∈ l, e.1 ≠ n) (k : Text) :
    look (l ++ [(n, v)]) k = if k = n then some v else look l k := by
  unfold look
  rw [List.find?_append]
  by_cases hk : k = n
  · subst hk
    rw [if_pos rfl, List.find?_eq_none.mpr (by intro x hx; simpa using hnew x hx)]
    simp
  · rw [if_neg hk]
    have : (n == k) = false := by simpa using fun e : n = k => hk e.symm
    simp [this]

theorem set_spec (junk : Byte) (s : State) (l : List (Text × Text)) (h : Holds s l) (n v : Option Text) (hn : CStr n) (hv : CStr v) :
    ∃ s' l', Wv.Attrs.set junk s n v = some s' ∧ Holds s' l' ∧ look l' = Spec.Attrs.set (look l) n v := by
  unfold CStr at hn hv
  unfold Wv.Attrs.set Spec.Attrs.set
  cases hname : n.getD [] with
  | nil => exact ⟨s, l, by simp, h, rfl⟩
  | cons c t =>
    rw [hname] at hn
    simp only []
    rw [if_neg (by simp), find_spec s l h]
    simp only [Option.bind_some]
    obtain ⟨s1, l1, e1, h1, k1, k2⟩ : ∃ s1 l1, clear junk s (c :: t).length (place l (c :: t)) = some s1 ∧ Holds s1 l1 ∧ (∀ e ∈ l1, e.1 ≠ c :: t) ∧
        ∀ k, look l1 k = if k = c :: t then none else look l k := by
      cases hf : l.findIdx? (fun e => e.1 == c :: t) with
      | none =>
        obtain ⟨g1, g2⟩ := look_none l _ hf
        refine ⟨s, l, by simp [place, hf, clear], h, g2, ?_⟩
        intro k
        by_cases hk : k = c :: t
        · rw [if_pos hk, hk, g1]
        · rw [if_neg hk]
      | some i =>
        obtain ⟨s1, e1, h1⟩ := delete_spec junk s l h _ i hf
        refine ⟨s1, _, by simpa [place, hf, clear] using e1, h1, ?_, look_delete l h.once _ i hf⟩
        intro e he hn
        have := look_delete l h.once _ i hf (c :: t)
        rw [if_pos rfl] at this
        unfold look at this
        have h0 : (l.take i ++ l.drop (i + 1)).find? (fun e => e.1 == c :: t) = none := by simpa using this
        have := List.find?_eq_none.mp h0 e he
        simp [hn] at this
    rw [e1]
    simp only [Option.bind_some]
    cases hval : v.getD [] with
    | nil =>
      refine ⟨s1, l1, by simp, h1, ?_⟩
      funext k
      rw [k2]; simp
    | cons d u =>
      rw [hval] at hv
      rw [if_neg (by simp)]
      obtain ⟨s2, e2, h2⟩ := append_spec junk s1 l1 h1 (c :: t) (d :: u) ⟨by simp, by simp, hn, hv⟩ k1
      refine ⟨s2, _, e2, h2, ?_⟩
      funext k
      rw [look_append l1 _ _ k1, k2]
      have : v = some (d :: u) := by
        cases v with
        | none => simp at hval
        | some w => simp at hval; rw [hval]
      by_cases hk : k = c :: t
      · simp [hk, this]
      · simp [hk]

theorem run_spec (junk : Byte) (hist : List (Option Text × Option Text)) : ∀ (s : State) (l : List (Text × Text)), Holds s l →
    (∀ x ∈ hist, CStr x.1 ∧ CStr x.2) →
    ∃ s' l', Wv.Attrs.run junk s hist = some s' ∧ Holds s' l' ∧ look l' = hist.foldl (fun m x => Spec.Attrs.set m x.1 x.2) (look l) := by
  induction hist with
  | nil => intro s l h _; exact ⟨s, l, rfl, h, rfl⟩
  | cons x hist ih =>
    intro s l h hx
    obtain ⟨s1, l1, e1, h1, k1⟩ := set_spec junk s l h x.1 x.2 (hx x (by simp)).1 (hx x (by simp)).2
    obtain ⟨s2, l2, e2, h2, k2⟩ := ih s1 l1 h1 (fun y hy => hx y (by simp [hy]))
    refine ⟨s2, l2, ?_, h2, by rw [k2, k1]; rfl⟩
    rw [Wv.Attrs.run, e1, Option.bind_some, e2]

theorem new_holds : Holds Wv.Attrs.new [] := ⟨rfl, Or.inr ⟨rfl, rfl⟩, by simp, by simp⟩

theorem look_nil : look [] = Spec.Attrs.empty := rfl

end Attr
open Attr

/-- C41: after every history of `set` calls, which never touch other memory, `get` gives what the history says; whatever new memory holds. -/
theorem C41_map (junk : Byte) (hist : List (Option Text × Option Text)) (h : ∀ x ∈ hist, CStr x.1 ∧ CStr x.2) :
    ∃ s, Wv.Attrs.run junk Wv.Attrs.new hist = some s ∧ ∀ n : Text, Wv.Attrs.get s (some n) = some (Spec.Attrs.run hist n) := by
  obtain ⟨s, l, e, hl, k⟩ := run_spec junk hist _ _ new_holds h
  refine ⟨s, e, fun n => ?_⟩
  rw [get_spec s l hl, k]; rfl

/-- C41: the memory is the names and values, each with its NUL, one entry for each name, and a NUL more; or there is none. -/
theorem C41_memory (junk : Byte) (hist : List (Option Text × Option Text)) (h : ∀ x ∈ hist, CStr x.1 ∧ CStr x.2) (s : Wv.Attrs.State)
    (hs : Wv.Attrs.run junk Wv.Attrs.new hist = some s) :
    ∃ l : List (Text × Text), (l.map (·.1)).Nodup ∧ (∀ n v, (n, v) ∈ l ↔ Spec.Attrs.run hist n = some v) ∧
      (s.list = some ((l.map fun e => e.1 ++ [0] ++ (e.2 ++ [0])).flatten ++ [0]) ∨ s.list = none ∧ l = []) ∧
      s.len = ((l.map fun e => e.1 ++ [0] ++ (e.2 ++ [0])).flatten).length := by
  obtain ⟨s', l, e, hl, k⟩ := run_spec junk hist _ _ new_holds h
  rw [hs] at e
  simp only [Option.some.injEq] at e
  subst e
  refine ⟨l, hl.once, ?_, hl.mem, hl.len⟩
  intro n v
  have hk : Spec.Attrs.run hist n = look l n := by rw [k]; rfl
  rw [hk]
  cases hf : l.findIdx? (fun e => e.1 == n) with
  | none =>
    obtain ⟨g1, g2⟩ := look_none l n hf
    rw [g1]
    constructor
    · intro hm; exact absurd rfl (g2 _ hm)
    · intro hc; cases hc
  | some i =>
    obtain ⟨w, h1, h2, h3⟩ := split_at l n i hf
    rw [h2]
    constructor
    · intro hm
      have ho := hl.once
      rw [h1] at ho hm
      simp only [List.map_append, List.map_cons, List.nodup_append, List.nodup_cons] at ho
      rcases List.mem_append.mp hm with hm | hm
      · exact absurd rfl (ho.2.2 n (List.mem_map_of_mem (f := fun e : Text × Text => e.1) hm) n (by simp))
      · rcases List.mem_cons.mp hm with hm | hm
        · simp only [Prod.mk.injEq, true_and] at hm; rw [hm]
        · exact absurd (List.mem_map_of_mem (f := fun e : Text × Text => e.1) hm) ho.2.1.1
    · intro hw
      simp only [Option.some.injEq] at hw
      subst hw
      rw [h1]; simp

/-- C41: a copy has the same attributes. -/
theorem C41_copy (junk : Byte) (hist : List (Option Text × Option Text)) (h : ∀ x ∈ hist, CStr x.1 ∧ CStr x.2) (s : Wv.Attrs.State)
    (hs : Wv.Attrs.run junk Wv.Attrs.new hist = some s) :
    ∃ c, Wv.Attrs.copy s = some c ∧ ∀ n : Text, Wv.Attrs.get c (some n) = some (Spec.Attrs.run hist n) := by
  obtain ⟨s', l, e, hl, k⟩ := run_spec junk hist _ _ new_holds h
  rw [hs] at e
  simp only [Option.some.injEq] at e
  subst e
  have : ∃ c, Wv.Attrs.copy s = some c ∧ Holds c l := by
    unfold Wv.Attrs.copy
    by_cases h0 : s.len = 0
    · rw [if_pos h0]
      have : l = [] := by
        have h1 := encs_length_ge l
        have h2 := hl.len
        exact List.eq_nil_of_length_eq_zero (by omega)
      subst this
      exact ⟨_, rfl, new_holds⟩
    · rw [if_neg h0]
      rcases hl.mem with hm | ⟨hm, hn⟩
      · rw [hm]
        simp only []
        rw [if_neg (by simp [hl.len])]
        refine ⟨_, rfl, hl.len, Or.inl ?_, hl.good, hl.once⟩
        simp only []
        rw [List.take_of_length_le (by simp [hl.len])]
      · subst hn
        exact absurd hl.len h0
  obtain ⟨c, e, hc⟩ := this
  refine ⟨c, e, fun n => ?_⟩
  rw [get_spec c l hc, k]; rfl

/-- A history that meets the hypotheses, and what it leaves. -/
example : ∀ x ∈ ([(some (str ['a']), some (str ['1'])), (some (str ['b', 'c']), some (str ['2', '3'])), (some (str ['a']), none),
    (none, some []), (some (str ['b', 'c']), some (str ['4']))] : List (Option Text × Option Text)), CStr x.1 ∧ CStr x.2 := by
  unfold CStr; decide +kernel

example : Wv.Attrs.run 7 Wv.Attrs.new [(some (str ['a']), some (str ['1'])), (some (str ['b', 'c']), some (str ['2', '3'])), (some (str ['a']), none),
    (none, some []), (some (str ['b', 'c']), some (str ['4']))] = some ⟨some [98, 99, 0, 52, 0, 0], 5⟩ := by decide +kernel

/-- Asking for a null name, when there are attributes, reads memory at address 0. -/
theorem C41_null_fails : ¬ ∀ (junk : Byte) (s : Wv.Attrs.State) (n : Option Text) (hist : List (Option Text × Option Text)),
    Wv.Attrs.run junk Wv.Attrs.new hist = some s → (Wv.Attrs.get s n).isSome = true := by
  intro h
  have := h 0 ⟨some [97, 0, 49, 0, 0], 4⟩ none [(some (str ['a']), some (str ['1']))] (by decide +kernel)
  revert this; decide +kernel

end Props
