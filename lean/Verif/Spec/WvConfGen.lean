import Verif.Model.Basic
/-!
A configuration tree kept in an old configuration file, for C120.
-/
namespace Spec.WvConfGen
open Wv

abbrev Text := List Byte
/-- Keys are lists of names. -/
abbrev Path := List Text

/-- Names that can be in a key. -/
def Named (k : Path) : Prop := ∀ s ∈ k, s ≠ [] ∧ ch '/' ∉ s

/-- Case does not matter in keys. -/
def fold (k : Path) : Path := k.map fun s => s.map tolower

abbrev Values := Path → Option Text

inductive Op where
  | set (k : Path) (v : Text)
  | remove (k : Path)

/-- The values after a key was set or removed; what is below a key is removed with it. -/
def apply (M : Values) : Op → Values
  | .set k v => fun k' => if fold k' = fold k then some v else M k'
  | .remove k => fun k' => if fold k <+: fold k' then none else M k'

end Spec.WvConfGen
