import Verif.Model.KeyStore
import Verif.Spec.Path
/-
Keys as values: each variable holds a list of segments, and every statement changes one variable only (pop two). Only the type
of statements (`Op`) is from the model.
-/
namespace Spec.Keys
open Wv
open Wv.KeyStore (Op)

/-- The variables: one that does not exist, or its segments. -/
abbrev Vals := Nat → Option Key

/-- No variable. -/
def none_ : Vals := fun _ => none

/-- Changes one variable. -/
def set (x : Vals) (v : Nat) (a : Option Key) : Vals := fun u => if u = v then a else x u

/-- A slash alone is the root. -/
def root (k : Key) : Key := if k = [[]] then [] else k

/-- The names in a key. -/
def names (k : Key) : Key := k.filter (· ≠ [])

/-- The slash that a key ends with when it is put after another: it has one itself, or it is the root. -/
def slash (k : Key) : Key := if k = [] ∨ k.getLast? = some [] then [[]] else []

/-- The segments from `i` to before `j`, both cut to the key. -/
def part (k : Key) (i j : Int) : Key := root ((k.take (max i j).toNat).drop i.toNat)

/-- The key of a text: its names, and a slash if it ends with one and has names. -/
def ofText (t : List Byte) : Key := Spec.Path.names t ++ if Spec.Path.dir t then [[]] else []

/-- The values after a statement. -/
def step (x : Vals) : Op → Vals
  | .declare v => set x v (some [])
  | .make v t => set x v (some (ofText t))
  | .copy v w => set x v (x w)
  | .concat v w u => set x v ((x w).bind fun a => (x u).map fun b => root (names a ++ names b ++ slash b))
  | .range v w i j => set x v ((x w).map fun k => part k i j)
  | .pop v w n => set (set x w ((x w).map fun k => root (k.drop n.toNat))) v ((x w).map fun k => root (k.take n.toNat))
  | .assign v w => set x v (x w)
  | .assignRange v w i j => set x v ((x w).map fun k => part k i j)
  | .append v w => set x v ((x v).bind fun a => (x w).map fun b => root (a ++ names b ++ slash b))
  | .prepend v w => set x v ((x v).bind fun a => (x w).map fun b => root (names b ++ a))
  | .destroy v => set x v none

/-- Variables exist when they are used and not before they are made. -/
def Legal (n : Nat) (x : Vals) : Op → Prop
  | .declare v => v < n ∧ x v = none
  | .make v _ => v < n ∧ x v = none
  | .copy v w => v < n ∧ x v = none ∧ x w ≠ none
  | .concat v w u => v < n ∧ x v = none ∧ x w ≠ none ∧ x u ≠ none
  | .range v w _ _ => v < n ∧ x v = none ∧ x w ≠ none
  | .pop v w _ => v < n ∧ x v = none ∧ x w ≠ none
  | .assign v w => x v ≠ none ∧ x w ≠ none
  | .assignRange v w _ _ => x v ≠ none ∧ x w ≠ none
  | .append v w => x v ≠ none ∧ x w ≠ none
  | .prepend v w => x v ≠ none ∧ x w ≠ none
  | .destroy v => x v ≠ none

end Spec.Keys
