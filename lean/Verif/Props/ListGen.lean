import Verif.Lemmas.Gen
import Verif.Props.FilterGen
import Mathlib.Data.List.Forall2
/- C26: a list of generators. -/
namespace Props
open Wv Spec.Conf Gens
open Wv.Key (fold)

/-- What a list of configurations shows at each place: the value of the first in which the place exists. -/
def overlay (ms : List Spec.Conf.State) : Spec.Conf.State := fun q => ms.findSome? fun m => m q

theorem get_overlay (ms : List Spec.Conf.State) (k : Text) : Spec.Conf.get (overlay ms) k = ms.findSome? fun m => Spec.Conf.get m k := by
  unfold Spec.Conf.get overlay
  split
  · induction ms with
    | nil => rfl
    | cons m ms ih => simp [List.findSome?_cons, ← ih]
  · rfl

section
variable {σ : Type} (I : IGen σ)

theorem list_get (l : List σ) (ms : List Spec.Conf.State) (h : List.Forall₂ (Reads I) l ms) (k : Text) :
    (IGen.list I).get l (Key.parse k) = ms.findSome? fun m => Spec.Conf.get m k := by
  show (match l.find? fun s => I.exists s (Key.parse k) with | some s => I.get s (Key.parse k) | none => none) = _
  induction h with
  | nil => rfl
  | @cons s m l ms hs _ ih =>
    rw [List.find?_cons, List.findSome?_cons]
    cases he : I.exists s (Key.parse k) with
    | true =>
      obtain ⟨v, hv⟩ := Option.ne_none_iff_exists'.mp ((hs.exists_ k).mp he)
      simp only [hv]
      rw [← hv]; exact hs.get k
    | false =>
      have : Spec.Conf.get m k = none := by
        have h1 := (hs.exists_ k).not.mp (by rw [he]; simp)
        simpa using h1
      simp only [this]
      exact ih

theorem findSome_ne (ms : List Spec.Conf.State) (f : Spec.Conf.State → Option Text) : ms.findSome? f ≠ none ↔ ∃ m ∈ ms, f m ≠ none := by
  rw [ne_eq, List.findSome?_eq_none_iff]; simp

theorem forall2_any (l : List σ) (ms : List Spec.Conf.State) (p : σ → Bool) (q : Spec.Conf.State → Prop) (R : σ → Spec.Conf.State → Prop)
    (h : List.Forall₂ R l ms) (hp : ∀ s m, R s m → (p s = true ↔ q m)) : l.any p = true ↔ ∃ m ∈ ms, q m := by
  induction h with
  | nil => simp
  | cons hs _ ih => simp only [List.any_cons, Bool.or_eq_true, hp _ _ hs, ih, List.mem_cons, exists_eq_or_imp]

/-- The keys a list iterator has not visited yet, from a list of what the iterators of the generators list. -/
theorem listIter_spec (L : List (Key × Option TempGen.Value)) : ∀ d : List Key,
    (IGen.listIter d L).Sublist L ∧ ((IGen.listIter d L).map fun x => fold x.1).Nodup ∧
    (∀ x ∈ IGen.listIter d L, fold x.1 ∉ d.map fold) ∧
    ∀ x ∈ L, (fold x.1 ∈ d.map fold) ∨ ∃ y ∈ IGen.listIter d L, fold y.1 = fold x.1 := by
  have heq : ∀ (k : Key) (d : List Key), (d.any fun x => Key.eq k x) = true ↔ fold k ∈ d.map fold := by
    intro k d
    simp only [List.any_eq_true, List.mem_map, Key.eq_iff]
    exact ⟨fun ⟨x, h1, h2⟩ => ⟨x, h1, h2.symm⟩, fun ⟨x, h1, h2⟩ => ⟨x, h1, h2.symm⟩⟩
  induction L with
  | nil => intro d; simp [IGen.listIter]
  | cons z L ih =>
    intro d
    obtain ⟨k, v⟩ := z
    rw [IGen.listIter]
    by_cases hk : (d.any fun x => Key.eq k x) = true
    · rw [if_pos hk]
      obtain ⟨i1, i2, i3, i4⟩ := ih d
      refine ⟨i1.cons _, i2, i3, ?_⟩
      intro x hx
      rcases List.mem_cons.mp hx with rfl | hx
      · exact Or.inl ((heq _ _).mp hk)
      · exact i4 x hx
    · rw [if_neg hk]
      obtain ⟨i1, i2, i3, i4⟩ := ih (k :: d)
      have hkd : fold k ∉ d.map fold := fun h => hk ((heq _ _).mpr h)
      refine ⟨i1.cons_cons _, ?_, ?_, ?_⟩
      · rw [List.map_cons, List.nodup_cons]
        refine ⟨?_, i2⟩
        intro hm
        obtain ⟨y, hy, he⟩ := List.mem_map.mp hm
        exact i3 y hy (by rw [he]; simp)
      · intro x hx
        rcases List.mem_cons.mp hx with rfl | hx
        · exact hkd
        · intro hm; exact i3 x hx (by rw [List.map_cons]; exact List.mem_cons_of_mem _ hm)
      · intro x hx
        rcases List.mem_cons.mp hx with rfl | hx
        · exact Or.inr ⟨_, List.mem_cons_self, rfl⟩
        · rcases i4 x hx with h | ⟨y, hy, he⟩
          · rw [List.map_cons] at h
            rcases List.mem_cons.mp h with h | h
            · exact Or.inr ⟨_, List.mem_cons_self, h.symm⟩
            · exact Or.inl h
          · exact Or.inr ⟨y, List.mem_cons_of_mem _ hy, he⟩

/-- The first of a list with a given folded key is the one that stays. -/
theorem listIter_first (L : List (Key × Option TempGen.Value)) (q : Place) : ∀ d : List Key, q ∉ d.map fold →
    (IGen.listIter d L).find? (fun x => decide (fold x.1 = q)) = L.find? (fun x => decide (fold x.1 = q)) := by
  have heq : ∀ (k : Key) (d : List Key), (d.any fun x => Key.eq k x) = true ↔ fold k ∈ d.map fold := by
    intro k d
    simp only [List.any_eq_true, List.mem_map, Key.eq_iff]
    exact ⟨fun ⟨x, h1, h2⟩ => ⟨x, h1, h2.symm⟩, fun ⟨x, h1, h2⟩ => ⟨x, h1, h2.symm⟩⟩
  induction L with
  | nil => intro d _; rfl
  | cons z L ih =>
    intro d hd
    obtain ⟨k, v⟩ := z
    rw [IGen.listIter]
    by_cases hk : (d.any fun x => Key.eq k x) = true
    · rw [if_pos hk, ih d hd, List.find?_cons]
      have : decide (fold k = q) = false := by
        rw [decide_eq_false_iff_not]; rintro rfl; exact hd ((heq _ _).mp hk)
      simp only [this]
    · rw [if_neg hk, List.find?_cons, List.find?_cons]
      by_cases hq : fold k = q
      · simp [hq]
      · simp only [hq, decide_false]
        refine ih (k :: d) ?_
        rw [List.map_cons, List.mem_cons, not_or]
        exact ⟨fun h => hq h.symm, hd⟩

theorem mem_iff_find (r : List (Key × Option TempGen.Value)) (h : (r.map fun x => fold x.1).Nodup) (q : Place) (v : TempGen.Value) :
    (∃ x ∈ r, fold x.1 = q ∧ x.2 = some v) ↔ (r.find? fun x => decide (fold x.1 = q)).bind Prod.snd = some v := by
  induction r with
  | nil => simp
  | cons z r ih =>
    have h' := List.nodup_cons.mp (show (fold z.1 :: r.map fun x => fold x.1).Nodup from h)
    rw [List.find?_cons]
    by_cases hz : fold z.1 = q
    · simp only [hz, decide_true, Option.bind_some]
      constructor
      · rintro ⟨x, hx, h1, h2⟩
        rcases List.mem_cons.mp hx with rfl | hx
        · exact h2
        · exact absurd (List.mem_map.mpr ⟨x, hx, h1.trans hz.symm⟩) h'.1
      · intro h2; exact ⟨z, by simp, hz, h2⟩
    · simp only [hz, decide_false]
      rw [← ih h'.2]
      constructor
      · rintro ⟨x, hx, h1, h2⟩
        rcases List.mem_cons.mp hx with rfl | hx
        · exact absurd h1 hz
        · exact ⟨x, hx, h1, h2⟩
      · rintro ⟨x, hx, h1, h2⟩; exact ⟨x, by simp [hx], h1, h2⟩

theorem iter_flat (l : List σ) (ms : List Spec.Conf.State) (h : List.Forall₂ (Reads I) l ms) (k : Text) :
    (∀ x ∈ (l.filterMap fun s => I.iterator s (Key.parse k)).flatten,
      (∃ n : Seg, x.1 = [n] ∧ n ≠ [] ∧ Spec.Path.slash ∉ n) ∧ x.2 ≠ none) ∧
    ∀ n, (((l.filterMap fun s => I.iterator s (Key.parse k)).flatten).find? fun x => decide (fold x.1 = [n])).bind Prod.snd =
      overlay ms (place k ++ [n]) := by
  induction h with
  | nil => exact ⟨by simp, by intro n; rfl⟩
  | @cons s m l ms hs _ ih =>
    have hit := hs.iterator k
    cases hi : I.iterator s (Key.parse k) with
    | none =>
      rw [hi] at hit
      rw [List.filterMap_cons_none (by exact hi)]
      refine ⟨ih.1, fun n => ?_⟩
      rw [ih.2 n, overlay, overlay, List.findSome?_cons, hit [n]]
    | some r =>
      rw [hi] at hit
      obtain ⟨h1, h2, h3⟩ := hit
      rw [List.filterMap_cons_some (by exact hi), List.flatten_cons]
      refine ⟨?_, fun n => ?_⟩
      · intro x hx
        rcases List.mem_append.mp hx with hx | hx
        · exact h2 x hx
        · exact ih.1 x hx
      · rw [List.find?_append]
        have hv : ∀ v, m (place k ++ [n]) = some v ↔ (r.find? fun x => decide (fold x.1 = [n])).bind Prod.snd = some v := by
          intro v; rw [h3, mem_iff_find r h1]
        have he : m (place k ++ [n]) = (r.find? fun x => decide (fold x.1 = [n])).bind Prod.snd := by
          cases hm : m (place k ++ [n]) with
          | some v => exact ((hv v).mp hm).symm
          | none =>
            cases hf : (r.find? fun x => decide (fold x.1 = [n])).bind Prod.snd with
            | none => rfl
            | some v => rw [(hv v).mpr hf] at hm; cases hm
        have e : overlay (m :: ms) (place k ++ [n]) = (m (place k ++ [n])).or (overlay ms (place k ++ [n])) := by
          rw [overlay, List.findSome?_cons, overlay]
          cases m (place k ++ [n]) <;> rfl
        rw [e, he, ← ih.2 n]
        cases hf : r.find? fun x => decide (fold x.1 = [n]) with
        | none => rfl
        | some x =>
          have hx := (h2 x (List.mem_of_find?_eq_some hf)).2
          simp only [Option.some_or, Option.bind_some]
          cases hx2 : x.2 with
          | none => exact absurd hx2 hx
          | some v => rfl

/-- What a list of generators shows is the overlay of what they show. Reading any key gives the value of the first generator in which
    the key exists; a key exists, or has children, if it does in one of them; an iterator lists each name once, with the value of the
    first generator that has it. -/
theorem C26_reads (l : List σ) (ms : List Spec.Conf.State) (h : List.Forall₂ (Reads I) l ms) :
    Reads (IGen.list I) l (overlay ms) := by
  constructor
  · intro k; rw [get_overlay]; exact list_get I l ms h k
  · intro k
    rw [get_overlay, findSome_ne]
    exact forall2_any l ms _ _ _ h fun s m hs => hs.exists_ k
  · intro k
    have : (∃ n, overlay ms (place k ++ [n]) ≠ none) ↔ ∃ m ∈ ms, ∃ n, m (place k ++ [n]) ≠ none := by
      simp only [overlay, findSome_ne]
      exact ⟨fun ⟨n, m, h1, h2⟩ => ⟨m, h1, n, h2⟩, fun ⟨m, h1, n, h2⟩ => ⟨n, m, h1, h2⟩⟩
    rw [this]
    exact forall2_any l ms _ _ _ h fun s m hs => hs.haschildren k
  · intro k
    have e : (IGen.list I).iterator l (Key.parse k) =
      some (IGen.listIter [] (l.filterMap fun s => I.iterator s (Key.parse k)).flatten) := rfl
    rw [e]
    obtain ⟨f1, f2⟩ := iter_flat I l ms h k
    obtain ⟨i1, i2, _, _⟩ := listIter_spec (l.filterMap fun s => I.iterator s (Key.parse k)).flatten []
    refine ⟨i2, fun x hx => f1 x (i1.subset hx), ?_⟩
    intro n v
    rw [mem_iff_find _ i2, listIter_first _ _ [] (by simp), f2 n]

/-- In particular, which generator answers. -/
theorem C26_get (l1 l2 : List σ) (s : σ) (k : Text)
    (hno : ∀ t ∈ l1, I.exists t (Key.parse k) = false) (hyes : I.exists s (Key.parse k) = true) :
    (IGen.list I).get (l1 ++ s :: l2) (Key.parse k) = I.get s (Key.parse k) := by
  have hf : (l1 ++ s :: l2).find? (fun s => I.exists s (Key.parse k)) = some s := by
    rw [List.find?_append]
    have : l1.find? (fun s => I.exists s (Key.parse k)) = none := by
      rw [List.find?_eq_none]; intro t ht; rw [hno t ht]; simp
    rw [this, List.find?_cons, hyes]; rfl
  show (match (l1 ++ s :: l2).find? fun s => I.exists s (Key.parse k) with | some s => I.get s (Key.parse k) | none => none) = _
  rw [hf]

/-- `set` is applied to every generator, and so are `setv`, `commit` and `refresh`. -/
theorem C26_set (Rep : σ → Spec.Conf.State → Prop) (hI : Behaves I Rep) (l : List σ) (ms : List Spec.Conf.State)
    (h : List.Forall₂ Rep l ms) (k : Text) (v : Option Text) :
    List.Forall₂ Rep ((IGen.list I).set l (Key.parse k) v) (ms.map fun m => Spec.Conf.set m k v) ∧
    List.Forall₂ Rep ((IGen.list I).commit l) ms ∧ List.Forall₂ Rep ((IGen.list I).refresh l).1 ms := by
  show List.Forall₂ Rep (l.map _) _ ∧ List.Forall₂ Rep (l.map I.commit) _ ∧ List.Forall₂ Rep (l.map fun s => (I.refresh s).1) _
  induction h with
  | nil => simp
  | cons hs _ ih =>
    obtain ⟨i1, i2, i3⟩ := ih
    exact ⟨.cons (hI.set _ _ hs k v) i1, .cons (hI.commit _ _ hs) i2, .cons (hI.refresh _ _ hs) i3⟩

theorem C26_setv (Rep : σ → Spec.Conf.State → Prop) (hI : SetsAll I Rep) (l : List σ) (ms : List Spec.Conf.State)
    (h : List.Forall₂ Rep l ms) (p : List (Text × Option Text)) :
    List.Forall₂ Rep ((IGen.list I).setv l (p.map fun x => (Key.parse x.1, x.2))) (ms.map fun m => Spec.Conf.run m p) := by
  show List.Forall₂ Rep (l.map _) _
  induction h with
  | nil => simp
  | cons hs _ ih => exact .cons (hI _ _ hs p) ih

end

/-- A value that is not null can be read back after it was set, if there is a generator and the key has no slash at its end. -/
theorem C26_set_get {σ : Type} (I : IGen σ) (Rep : σ → Spec.Conf.State → Prop) (hI : Behaves I Rep) (l : List σ)
    (ms : List Spec.Conf.State) (h : List.Forall₂ Rep l ms) (hne : l ≠ []) (k : Text) (hd : Spec.Path.dir k = false) (v : Text) :
    (IGen.list I).get ((IGen.list I).set l (Key.parse k) (some v)) (Key.parse k) = some v := by
  have hs := (C26_set I Rep hI l ms h k (some v)).1
  rw [(C26_reads I _ _ (hs.imp fun _ _ => hI.reads _ _)).get, get_overlay]
  cases h with
  | nil => exact absurd rfl hne
  | cons _ _ => simp [List.findSome?_cons, Spec.Conf.get, Spec.Conf.set, hd]

/-- Two generators; "a" is in both, "z" only in the second. -/
def sampleList : List TempGen.Gen :=
  [sampleGen, Temp.after TempGen.new [⟨str ['z'], some (str ['8']), id, fun _ => .refl _⟩, ⟨str ['a'], some (str ['9']), id, fun _ => .refl _⟩]]

example : List.Forall₂ (Reads (IGen.temp id)) sampleList [Temp.conf sampleCalls,
    Temp.conf [⟨str ['z'], some (str ['8']), id, fun _ => .refl _⟩, ⟨str ['a'], some (str ['9']), id, fun _ => .refl _⟩]] :=
  .cons (temp_reads _ _ _ (Temp.conf_holds _)) (.cons (temp_reads _ _ _ (Temp.conf_holds _)) .nil)

example : (IGen.list (IGen.temp id)).get sampleList (Key.parse (str ['a'])) = some (str ['3']) ∧
    (IGen.list (IGen.temp id)).get sampleList (Key.parse (str ['z'])) = some (str ['8']) ∧
    (IGen.list (IGen.temp id)).iterator sampleList [] =
      some [([str ['A']], some (str ['3'])), ([str ['z']], some (str ['8']))] := by decide +kernel

end Props
