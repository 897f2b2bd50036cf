import Verif.Lemmas.HashTable
/-
C18: a chained hash table is a dictionary (`Spec.Dict`).
-/
namespace Props
open Wv Wv.HashTable Spec.Dict
variable {α κ : Type} [DecidableEq κ]

/-- For every hash function, every suggested size below 2^30 and every history of calls: each call shows what the dictionary
    shows (find the element added first of those with the key, remove it, ...); afterwards iteration ends, visits exactly the
    elements, and those with the same key in the order they were added; and `zap` deletes exactly the elements that are
    owned and leaves an empty table that behaves like a new one. -/
theorem C18_dictionary (k : Kind α κ) (numslots : Nat) (hn : numslots < 2 ^ 30) (ops ops' : List (Call α κ)) :
    ∃ t : Table α, new numslots = some t ∧
      let c := (Spec.Dict.run k.key [] ops).1
      let t' := (HashTable.run k t ops).1
      (HashTable.run k t ops).2 = (Spec.Dict.run k.key [] ops).2 ∧
      (∃ l, (∃ fuel, iterate t' 0 0 fuel = some l) ∧ l.Perm c ∧ ∀ key, l.filter (has k.key key) = c.filter (has k.key key)) ∧
      (zap t').2.Perm ((c.filter Prod.snd).map Prod.fst) ∧
      (HashTable.run k (zap t').1 ops').2 = (Spec.Dict.run k.key [] ops').2 := by
  obtain ⟨t, h0, r0⟩ := new_rel k numslots hn
  refine ⟨t, h0, ?_⟩
  obtain ⟨h1, r1⟩ := r0.run ops
  dsimp only
  generalize (HashTable.run k t ops).1 = t' at *
  generalize (Spec.Dict.run k.key [] ops).1 = c at *
  refine ⟨h1, ⟨flat t' 0, ⟨(flat t' 0).length + 1, ?_⟩, flat_all k t' c r1, ?_⟩, zap_perm k t' c r1, ?_⟩
  · have hf : flat t' 0 = t'.slots 0 ++ flat t' 1 := by rw [flat, dif_pos r1.pos]
    have := iterate_flat t' ((flat t' 0).length + 1) 0 0 r1.pos (by omega) (by rw [hf]; simp)
    rw [this, hf]; rfl
  · intro key
    rw [flat_key k t' c r1 key 0, if_pos (by omega)]
  · have rz : Rel k (zap t').1 [] := ⟨r1.pos, by intro i _; rfl⟩
    exact (rz.run ops').1

/-- In particular: after any history, a key is found exactly if an element with that key is in the dictionary, and then it is
    the one added first. -/
theorem C18_find (k : Kind α κ) (numslots : Nat) (hn : numslots < 2 ^ 30) (ops : List (Call α κ)) (key : κ) :
    ∃ t : Table α, new numslots = some t ∧
      (HashTable.run k t (ops ++ [.find key])).2 =
        (Spec.Dict.run k.key [] ops).2 ++ [.found (((Spec.Dict.run k.key [] ops).1.find? (has k.key key)).map Prod.fst)] := by
  obtain ⟨t, h0, r0⟩ := new_rel k numslots hn
  refine ⟨t, h0, ?_⟩
  rw [(r0.run _).1]
  have : ∀ (ops : List (Call α κ)) (c : List (α × Bool)), (Spec.Dict.run k.key c (ops ++ [.find key])).2 =
      (Spec.Dict.run k.key c ops).2 ++ [.found (((Spec.Dict.run k.key c ops).1.find? (has k.key key)).map Prod.fst)] := by
    intro ops
    induction ops with
    | nil => intro c; rfl
    | cons op ops ih => intro c; simp only [List.cons_append, Spec.Dict.run, ih]
  exact this ops []

/- A history with colliding keys and equal keys. -/
example : (Spec.Dict.run (fun x : Nat × Nat => x.1) []
    [.add (3, 1) true, .add (8, 1) false, .add (3, 2) false, .find 3, .find 8, .remove (3, 5), .find 3, .getAutofree 3,
      .setAutofree 3 true, .remove (3, 0), .count, .isempty, .find 3, .remove (8, 0), .isempty]).2 =
    [.freed [], .freed [], .freed [], .found (some (3, 1)), .found (some (8, 1)), .freed [(3, 1)], .found (some (3, 2)), .flag false,
      .freed [], .freed [(3, 2)], .num 1, .flag false, .found none, .freed [], .flag true] := by decide

example : (new 10 : Option (Table Nat)).map Table.numslots = some 15 := by decide +kernel

end Props
