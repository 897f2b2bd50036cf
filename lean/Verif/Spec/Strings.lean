import Verif.Model.Strings
/-
Strings as values: each variable holds a text or null, and every statement changes one variable only. Only the type of
statements (`Op`) is from the model.
-/
namespace Spec.Strings
open Wv
open Wv.Strings (Op)

/-- The variables: one that does not exist, a null string, or a text. -/
abbrev Vals := Nat → Option (Option (List Byte))

/-- No variable. -/
def empty : Vals := fun _ => none

/-- Changes one variable. -/
def set (x : Vals) (v : Nat) (a : Option (Option (List Byte))) : Vals := fun u => if u = v then a else x u

/-- What comes after a null or a text when another is appended. -/
def join : Option (List Byte) → Option (List Byte) → Option (List Byte)
  | a, none => a
  | none, b => b
  | some a, some b => some (a ++ b)

/-- The value after a statement. -/
def step (x : Vals) : Op → Vals
  | .declare v => set x v (some none)
  | .make v p => set x v (some (p.map (·.2)))
  | .copy v w => set x v (x w)
  | .copyOffset v w i => set x v ((x w).map (·.map (·.drop i)))
  | .assign v w => set x v (x w)
  | .assignOffset v w i => set x v ((x w).map (·.map (·.drop i)))
  | .assignText v p => set x v (some (p.map (·.2)))
  | .assignTail v w i => set x v ((x w).map (·.map (·.drop i)))
  | .edit v i c => set x v ((x v).map (·.map fun t => (t.set i c).takeWhile (· != 0)))
  | .fill v t => set x v (some (some t))
  | .append v w => set x v ((x v).bind fun a => (x w).map fun b => join a b)
  | .appendText v _ t => set x v ((x v).map fun a => join a (some t))
  | .destroy v => set x v none

/-- What the language and the interface ask of the program: variables exist when they are used and not before they are made,
    strings have no NUL in them, edits stay within the text, lengths fit an int. -/
def Legal (n : Nat) (x : Vals) : Op → Prop
  | .declare v => v < n ∧ x v = none
  | .make v p => v < n ∧ x v = none ∧ ∀ a t, p = some (a, t) → (0 : Byte) ∉ t
  | .copy v w => v < n ∧ x v = none ∧ x w ≠ none
  | .copyOffset v w _ => v < n ∧ x v = none ∧ x w ≠ none
  | .assign v w => x v ≠ none ∧ x w ≠ none
  | .assignOffset v w _ => x v ≠ none ∧ x w ≠ none
  | .assignText v p => x v ≠ none ∧ ∀ a t, p = some (a, t) → (0 : Byte) ∉ t
  | .assignTail v w i => x v ≠ none ∧ ∃ t, x w = some (some t) ∧ i ≤ t.length
  | .edit v i _ => ∃ t, x v = some (some t) ∧ i < t.length
  | .fill v t => x v ≠ none ∧ (0 : Byte) ∉ t
  | .append v w => ∃ a b, x v = some a ∧ x w = some b ∧ ((join a b).getD []).length < 2 ^ 31
  | .appendText v _ t => (0 : Byte) ∉ t ∧ ∃ a, x v = some a ∧ ((join a (some t)).getD []).length < 2 ^ 31
  | .destroy v => x v ≠ none

end Spec.Strings
