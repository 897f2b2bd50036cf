/- A directory of configuration files, independent of the model. -/
namespace Spec.FsTree

/-- A segment of a key, a key, a value. -/
abbrev Key := List Nat
abbrev Value := List UInt8

/-- What a file has: values by keys. -/
abbrev File := List (Key × Value)

/-- The value of a key of a file; a file that has no value of its own has the empty one. -/
def valueIn (c : File) (k : Key) : Option Value :=
  match c.find? fun e => e.1 == k with
  | some e => some e.2
  | none => if k = [] then some [] else none

/-- A file with at least one key. -/
def HasKeys (c : File) : Prop := ∃ e ∈ c, e.1 ≠ []

/-- Neither of two keys is below the other. -/
def Apart (a b : Key) : Prop := ¬ a <+: b ∧ ¬ b <+: a

end Spec.FsTree
