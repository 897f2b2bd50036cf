import Verif.Model.FsTree
/- C140: a directory of configuration files as one configuration. -/
namespace Props
open Wv Wv.FsTree
open Spec.FsTree (Key Value File valueIn HasKeys Apart)

namespace FtP

theorem pre_iff (a b : Key) : a.isPrefixOf b = true ↔ a <+: b := List.isPrefixOf_iff_prefix

theorem store_keys (l : Mounts) (k : Key) (v : Value) : (store l k v).map Prod.fst = l.map Prod.fst := by
  induction l with
  | nil => rfl
  | cons m r ih =>
    unfold store
    split
    · rfl
    · simp [ih]

/-- Setting below another mount does not change what is found. -/
theorem store_find (l : Mounts) (k : Key) (v : Value) (p : Key) (hk : ¬ p <+: k) (g : Gen) (h : findmount l p = some (p, g)) :
    findmount (store l k v) p = some (p, g) := by
  induction l with
  | nil => cases h
  | cons m r ih =>
    unfold store
    unfold findmount at h ih ⊢
    rw [List.find?_cons] at h
    by_cases hm : m.1.isPrefixOf p = true
    · rw [hm] at h
      cases h
      rw [if_neg (by rw [pre_iff]; exact hk), List.find?_cons, hm]
    · have hm' : m.1.isPrefixOf p = false := Bool.eq_false_iff.2 hm
      rw [hm'] at h
      split
      · rw [List.find?_cons]
        dsimp only
        rw [hm']
        exact h
      · rw [List.find?_cons, hm']
        exact ih h

theorem points_prefix (k p : Key) (h : p ∈ points k) : p <+: k ∧ p ≠ [] := by
  unfold points at h
  obtain ⟨i, hi, rfl⟩ := List.mem_map.1 h
  refine ⟨List.take_prefix _ _, ?_⟩
  intro e
  have := congrArg List.length e
  rw [List.length_take, List.length_nil] at this
  have := List.mem_range.1 hi
  omega

theorem make_keys (d : Dir) (ps : List Key) : ∀ l : Mounts, (makemount d l ps).map Prod.fst = l.map Prod.fst := by
  induction ps with
  | nil => intro l; rfl
  | cons p ps ih =>
    intro l
    unfold makemount
    rw [ih]
    split
    · exact store_keys _ _ _
    · rfl

theorem make_find (d : Dir) (p : Key) (g : Gen) (ps : List Key) (hps : ∀ x ∈ ps, ¬ p <+: x) : ∀ l : Mounts, findmount l p = some (p, g) →
    findmount (makemount d l ps) p = some (p, g) := by
  induction ps with
  | nil => intro l h; exact h
  | cons x ps ih =>
    intro l h
    unfold makemount
    refine ih (fun y hy => hps y (by simp [hy])) _ ?_
    split
    · exact store_find l x _ p (hps x (by simp)) g h
    · exact h

/-- The file is mounted and no other one comes before it, or is mounted below. -/
def Settled (l : Mounts) (p : Key) (c : File) : Prop :=
  findmount l p = some (p, .ini c) ∧ ∀ m ∈ l, p <+: m.1 → m.1 = p

theorem settled_find (l : Mounts) (p : Key) (c : File) (h : Settled l p c) (rest : Key) : findmount l (p ++ rest) = some (p, .ini c) := by
  obtain ⟨h1, h2⟩ := h
  unfold findmount at h1 ⊢
  induction l with
  | nil => cases h1
  | cons m r ih =>
    rw [List.find?_cons] at h1 ⊢
    by_cases hm : m.1.isPrefixOf p = true
    · rw [hm] at h1
      cases h1
      have : (p.isPrefixOf (p ++ rest)) = true := (pre_iff _ _).2 ⟨rest, rfl⟩
      rw [this]
    · have hm' : m.1.isPrefixOf p = false := Bool.eq_false_iff.2 hm
      rw [hm'] at h1
      have : m.1.isPrefixOf (p ++ rest) = false := by
        cases hx : m.1.isPrefixOf (p ++ rest) with
        | false => rfl
        | true =>
          exfalso
          have hx := (pre_iff _ _).1 hx
          rcases List.prefix_or_prefix_of_prefix hx ⟨rest, rfl⟩ with h | h
          · exact hm ((pre_iff _ _).2 h)
          · have := h2 m (by simp) h
            exact hm ((pre_iff _ _).2 (by rw [this]; exact List.prefix_rfl))
      rw [this]
      exact ih h1 (fun m hm => h2 m (by simp [hm]))

theorem value_in (d : Dir) (c : File) (k : Key) :
    Gen.value d (if (Gen.value d (.ini c) []).isNone then Gen.put (.ini c) [] [] else .ini c) k = valueIn c k := by
  have h0 : Gen.value d (.ini c) [] = (c.find? fun e => e.1 == []).map Prod.snd := rfl
  rw [h0]
  cases hf : c.find? (fun e => e.1 == []) with
  | some e =>
    rw [if_neg (by simp)]
    unfold Gen.value valueIn
    dsimp only
    cases hk : c.find? (fun e => e.1 == k) with
    | some x => rfl
    | none =>
      have : k ≠ [] := by intro e'; rw [e', hf] at hk; cases hk
      dsimp only
      rw [if_neg this]; rfl
  | none =>
    rw [if_pos (by simp)]
    have hfil : c.filter (fun e => e.1 != []) = c := by
      rw [List.filter_eq_self]
      intro e he
      have := List.find?_eq_none.1 hf e he
      simpa using this
    unfold Gen.value Gen.put valueIn
    dsimp only
    rw [hfil]
    by_cases hk : k = []
    · subst hk
      rw [List.find?_cons, hf]; rfl
    · rw [List.find?_cons]
      have : (([] : Key) == k) = false := by
        cases k with
        | nil => exact absurd rfl hk
        | cons a b => rfl
      dsimp only
      rw [this]
      dsimp only
      cases c.find? (fun e => e.1 == k) with
      | some x => rfl
      | none => dsimp only; rw [if_neg hk]; rfl

theorem settled_step (d : Dir) (l : Mounts) (p : Key) (c : File) (hc : Gen.haschildren (.ini c) = true) (h : Settled l p c) (k : Key)
    (hk : k <+: p → k = p ∨ k ∈ l.map Prod.fst) : Settled (automount d l k) p c := by
  by_cases hp : p <+: k
  · obtain ⟨rest, rfl⟩ := hp
    unfold automount
    rw [settled_find l p c h rest]
    dsimp only
    rw [if_pos hc]
    exact h
  · have hm : k ∉ l.map Prod.fst → Settled (mount d l k) p c := by
      intro hnot
      have hkp : ¬ k <+: p := by
        intro e
        rcases hk e with e' | e'
        · rw [e'] at hp; exact hp List.prefix_rfl
        · exact hnot e'
      refine ⟨?_, ?_⟩
      · unfold mount findmount
        dsimp only
        rw [List.find?_cons]
        have : k.isPrefixOf p = false := by
          cases hx : k.isPrefixOf p with
          | false => rfl
          | true => exact absurd ((pre_iff _ _).1 hx) hkp
        rw [this]
        exact make_find d p _ _ (fun x hx hpx => hp (hpx.trans (points_prefix k x hx).1)) l h.1
      · intro m hm hpm
        unfold mount at hm
        rcases List.mem_cons.1 hm with e | hm
        · rw [e] at hpm; exact absurd hpm hp
        · have : m.1 ∈ l.map Prod.fst := by
            rw [← make_keys d (points k) l]; exact List.mem_map_of_mem hm
          obtain ⟨m', hm', e⟩ := List.mem_map.1 this
          rw [← e] at hpm ⊢
          exact h.2 m' hm' hpm
    have hany : l.any (fun m => m.1 == k) = false → k ∉ l.map Prod.fst := by
      intro ha hx
      obtain ⟨m, hm, e⟩ := List.mem_map.1 hx
      rw [List.any_eq_false] at ha
      exact ha m hm (by simp [e])
    unfold automount
    split
    · split
      · exact h
      · split
        · exact h
        · rename_i ha; exact hm (hany (Bool.eq_false_iff.2 ha))
    · split
      · exact h
      · rename_i ha; exact hm (hany (Bool.eq_false_iff.2 ha))

theorem auto_keys (d : Dir) (l : Mounts) (k : Key) : ∀ x ∈ l.map Prod.fst, x ∈ (automount d l k).map Prod.fst := by
  intro x hx
  have hm : x ∈ (mount d l k).map Prod.fst := by
    unfold mount
    simp only [List.map_cons, List.mem_cons, make_keys]
    exact .inr hx
  unfold automount
  split
  · split
    · exact hx
    · split
      · exact hx
      · exact hm
  · split
    · exact hx
    · exact hm

/-- Nothing at or below the key is mounted, and above it only the root. -/
def Fresh (l : Mounts) (p : Key) : Prop :=
  findmount l p = some ([], .tree) ∧ (∀ m ∈ l, ¬ p <+: m.1) ∧ [] ∈ l.map Prod.fst

theorem store_find_tree (l : Mounts) (k : Key) (v : Value) (p : Key) (h : findmount l p = some ([], .tree)) :
    findmount (store l k v) p = some ([], .tree) := by
  induction l with
  | nil => cases h
  | cons m r ih =>
    unfold store
    unfold findmount at h ih ⊢
    rw [List.find?_cons] at h
    by_cases hm : m.1.isPrefixOf p = true
    · rw [hm] at h
      cases h
      split
      · rw [List.find?_cons]; simp [Gen.put]
      · rw [List.find?_cons, hm]
    · have hm' : m.1.isPrefixOf p = false := Bool.eq_false_iff.2 hm
      rw [hm'] at h
      split
      · rw [List.find?_cons]
        dsimp only
        rw [hm']
        exact h
      · rw [List.find?_cons, hm']
        exact ih h

theorem make_find_tree (d : Dir) (p : Key) (ps : List Key) : ∀ l : Mounts, findmount l p = some ([], .tree) →
    findmount (makemount d l ps) p = some ([], .tree) := by
  induction ps with
  | nil => intro l h; exact h
  | cons x ps ih =>
    intro l h
    unfold makemount
    refine ih _ ?_
    split
    · exact store_find_tree l x _ p h
    · exact h

theorem fresh_step (d : Dir) (l : Mounts) (p : Key) (h : Fresh l p) (k : Key) (hk : k = [] ∨ Apart k p) : Fresh (automount d l k) p := by
  have hroot : k = [] → automount d l k = l := by
    intro e
    have ha : l.any (fun m => m.1 == k) = true := by
      obtain ⟨m, hm, e'⟩ := List.mem_map.1 h.2.2
      exact List.any_eq_true.2 ⟨m, hm, by simp [e, e']⟩
    unfold automount
    rw [ha]
    split
    · split <;> rfl
    · rfl
  rcases hk with e | ⟨h1, h2⟩
  · rw [hroot e]; exact h
  · have hm : Fresh (mount d l k) p := by
      refine ⟨?_, ?_, ?_⟩
      · unfold mount findmount
        dsimp only
        rw [List.find?_cons]
        have : k.isPrefixOf p = false := by
          cases hx : k.isPrefixOf p with
          | false => rfl
          | true => exact absurd ((pre_iff _ _).1 hx) h1
        rw [this]
        exact make_find_tree d p _ l h.1
      · intro m hm hpm
        unfold mount at hm
        rcases List.mem_cons.1 hm with e | hm
        · rw [e] at hpm; exact h2 hpm
        · have : m.1 ∈ l.map Prod.fst := by
            rw [← make_keys d (points k) l]; exact List.mem_map_of_mem hm
          obtain ⟨m', hm', e⟩ := List.mem_map.1 this
          rw [← e] at hpm
          exact h.2.1 m' hm' hpm
      · unfold mount
        simp only [List.map_cons, List.mem_cons, make_keys]
        exact .inr h.2.2
    unfold automount
    split
    · split
      · exact h
      · split
        · exact h
        · exact hm
    · split
      · exact h
      · exact hm

end FtP

/-- C140: if the first key that is looked up at a file or below it is that of the file, which has keys, and no key above it is looked up, other than the
    root, then each key below has the value that the file has, whatever else is looked up before and in between. -/
theorem C140_values_partial (d : Dir) (p : Key) (hp : p ≠ []) (hc : HasKeys (d.file p)) (before between : List Key)
    (hb : ∀ k ∈ before, k = [] ∨ Apart k p) (ha : ∀ k ∈ between, k <+: p → k = p ∨ k = []) (rest : Key) :
    (get d (after d new (before ++ [p] ++ between)) (p ++ rest)).1 = valueIn (d.file p) rest := by
  have hfresh : FtP.Fresh (after d new before) p := by
    have key : ∀ (ks : List Key) (l : Mounts), FtP.Fresh l p → (∀ k ∈ ks, k = [] ∨ Apart k p) → FtP.Fresh (after d l ks) p := by
      intro ks
      induction ks with
      | nil => intro l h _; exact h
      | cons k ks ih => intro l h hk; exact ih _ (FtP.fresh_step d l p h k (hk k (by simp))) (fun x hx => hk x (by simp [hx]))
    refine key before new ⟨by simp [findmount, new], ?_, by simp [new]⟩ hb
    intro m hm h
    simp [new] at hm
    rw [hm] at h
    exact hp (List.prefix_nil.1 h)
  have happ : after d new (before ++ [p] ++ between) = after d (automount d (after d new before) p) between := by
    unfold after
    rw [List.foldl_append, List.foldl_append]; rfl
  rw [happ]
  generalize after d new before = l at hfresh
  obtain ⟨f1, f2, f3⟩ := hfresh
  have hmnt : automount d l p = mount d l p := by
    unfold automount
    rw [f1]
    dsimp only
    rw [if_neg]
    intro h
    obtain ⟨m, hm, e⟩ := List.any_eq_true.1 h
    have e : m.1 = p := by simpa using e
    exact f2 m hm (by rw [e]; exact List.prefix_rfl)
  let g : Gen := if (Gen.value d (.ini (d.file p)) []).isNone then Gen.put (.ini (d.file p)) [] [] else .ini (d.file p)
  have hg : ∃ c, g = .ini c ∧ Gen.haschildren (.ini c) = true := by
    obtain ⟨e, he, hne⟩ := hc
    show ∃ c, (if (Gen.value d (.ini (d.file p)) []).isNone then Gen.put (.ini (d.file p)) [] [] else .ini (d.file p)) = .ini c ∧ _
    split
    · refine ⟨_, rfl, List.any_eq_true.2 ⟨e, ?_, by simpa using hne⟩⟩
      refine List.mem_cons.2 (.inr (List.mem_filter.2 ⟨he, by simpa using hne⟩))
    · exact ⟨_, rfl, List.any_eq_true.2 ⟨e, he, by simpa using hne⟩⟩
  obtain ⟨c, hgc, hch⟩ := hg
  have hset : FtP.Settled (automount d l p) p c ∧ [] ∈ (automount d l p).map Prod.fst := by
    rw [hmnt]
    refine ⟨⟨?_, ?_⟩, ?_⟩
    · show findmount ((p, g) :: makemount d l (points p)) p = _
      unfold findmount
      rw [List.find?_cons]
      have : p.isPrefixOf p = true := (FtP.pre_iff _ _).2 List.prefix_rfl
      dsimp only
      rw [this, hgc]
    · intro m hm hpm
      unfold mount at hm
      rcases List.mem_cons.1 hm with e | hm
      · rw [e]
      · have : m.1 ∈ l.map Prod.fst := by
          rw [← FtP.make_keys d (points p) l]; exact List.mem_map_of_mem hm
        obtain ⟨m', hm', e⟩ := List.mem_map.1 this
        rw [← e] at hpm
        exact absurd hpm (f2 m' hm')
    · unfold mount
      simp only [List.map_cons, List.mem_cons, FtP.make_keys]
      exact .inr f3
  have hall : ∀ (ks : List Key) (l : Mounts), FtP.Settled l p c ∧ [] ∈ l.map Prod.fst → (∀ k ∈ ks, k <+: p → k = p ∨ k = []) →
      FtP.Settled (after d l ks) p c := by
    intro ks
    induction ks with
    | nil => intro l h _; exact h.1
    | cons k ks ih =>
      intro l h hk
      refine ih _ ⟨FtP.settled_step d l p c hch h.1 k (fun e => ?_), FtP.auto_keys d l k _ h.2⟩ (fun x hx => hk x (by simp [hx]))
      rcases hk k (by simp) e with e | e
      · exact .inl e
      · exact .inr (by rw [e]; exact h.2)
  have hs := hall between _ hset ha
  generalize after d (automount d l p) between = l' at hs
  have hs' : FtP.Settled (automount d l' (p ++ rest)) p c := by
    have := FtP.settled_find l' p c hs rest
    unfold automount
    rw [this]
    dsimp only
    rw [if_pos hch]
    exact hs
  show lookup d (automount d l' (p ++ rest)) (p ++ rest) = _
  unfold lookup
  rw [FtP.settled_find _ p c hs' rest]
  dsimp only
  rw [List.drop_left, ← hgc]
  exact FtP.value_in d (d.file p) rest

namespace FtP

/-- A directory with a file 1, that has a value for 2, and a directory 5 with a file 6, that has a value for 7, and a file 5 that has one for 8. -/
def dir : Dir :=
  ⟨fun _ => none, fun k => if k = [1] then [([2], [65])] else if k = [5, 6] then [([7], [66])] else if k = [5] then [([8], [67])] else []⟩

end FtP

example : (get FtP.dir (after FtP.dir new [[5, 6], [1], [3, 4], []]) [1, 2]).1 = some [65] := by decide +kernel
example : HasKeys (FtP.dir.file [1]) := ⟨([2], [65]), by decide, by decide⟩
example : Apart [5, 6] [1] := by unfold Apart; decide

/-- C140 fails if a key of a file is looked up first: it is empty, however often it is looked up, until
    the file itself is looked up. -/
theorem C140_first_fails : (get FtP.dir new [1, 2]).1 = some [] ∧ (get FtP.dir (after FtP.dir new [[1, 2], [1]]) [1, 2]).1 = some [65] ∧
    (get FtP.dir (after FtP.dir new [[1, 2], [1, 2]]) [1, 2]).1 = some [] := by decide +kernel

/-- C140 fails if a key above a file is looked up afterwards: the values of the file are gone. -/
theorem C140_above_fails : (get FtP.dir (after FtP.dir new [[5, 6]]) [5, 6, 7]).1 = some [66] ∧
    (get FtP.dir (after FtP.dir new [[5, 6], [5]]) [5, 6, 7]).1 = none := by decide +kernel

end Props
