import Verif.Model.Key
/-!
What is expected of a configuration that is kept in a directory (C71): a tree in which a key has a value or is a folder.
-/
namespace Spec.Folders
open Wv

/-- What a key may be. -/
inductive Item where
  | value (v : List Byte)
  | folder
deriving DecidableEq

/-- A configuration. -/
abbrev Tree := Key → Option Item

/-- A key that names a file: no part is "", "." or "..". -/
def Safe (k : Key) : Prop := ∀ s ∈ k, s ≠ [] ∧ s ≠ str ['.'] ∧ s ≠ str ['.', '.']

instance (k : Key) : Decidable (Safe k) := by unfold Safe; infer_instance

/-- A key over `k` has a value, so that `k` can not be there. -/
def Under (T : Tree) (k : Key) : Prop := ∃ p v, p <+: k ∧ p ≠ k ∧ T p = some (.value v)

/-- The value of a key: folders have the empty value. -/
def get (T : Tree) (k : Key) : Option (List Byte) := match T k with
  | none => none
  | some (.value v) => some v
  | some .folder => some []

/-- Setting a key. A key that is a folder, or is under a key with a value, can not be given a value. Otherwise the keys over it become
    folders. With NULL, the key and all under it are gone. Other keys are not touched. -/
inductive Set (T : Tree) (k : Key) : Option (List Byte) → Tree → Prop
  | refused (v : Option (List Byte)) : ¬ Safe k → Set T k v T
  | cannot (v : List Byte) : k = [] ∨ T k = some .folder ∨ Under T k → Set T k (some v) T
  | value (v : List Byte) (T' : Tree) : Safe k → k ≠ [] → T k ≠ some .folder → ¬ Under T k → T' k = some (.value v) →
      (∀ p, p <+: k → p ≠ k → T' p = some .folder) → (∀ p, ¬ p <+: k → T' p = T p) → Set T k (some v) T'
  | null (T' : Tree) : Safe k → (∀ p, k <+: p → T' p = none) → (∀ p, ¬ k <+: p → T' p = T p) → Set T k none T'

/-- Keys that are set to NULL, and the root, are only set when what is over them is there, or can not be there. -/
def Careful (T : Tree) (k : Key) (v : Option (List Byte)) : Prop := (v = none ∨ k = []) → T k.dropLast ≠ none ∨ Under T k

/-- A history of settings, and the configuration after it. -/
inductive History : Tree → List (Key × Option (List Byte)) → Tree → Prop
  | done (T : Tree) : History T [] T
  | set {T T' T'' : Tree} {k : Key} {v : Option (List Byte)} {l : List (Key × Option (List Byte))} :
      Careful T k v → Set T k v T' → History T' l T'' → History T ((k, v) :: l) T''

end Spec.Folders
