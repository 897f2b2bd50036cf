import Mathlib.Data.List.Forall2
/- Word wrapping, independent of the model. -/
namespace Spec.WordWrap

/-- Column after a character: tabs go to the next multiple of eight, a newline goes back to 0. -/
def adv (col : Nat) (c : UInt8) : Nat := if c = 10 then 0 else if c = 9 then (col / 8 + 1) * 8 else col + 1

/-- Written from column `col` on, the text never goes beyond column `w`. -/
def fits (w : Nat) : Nat → List UInt8 → Prop
  | col, [] => col ≤ w
  | col, c :: cs => col ≤ w ∧ fits w (adv col c) cs

/-- Space, tab, newline. -/
def blank (c : UInt8) : Bool := c = 32 || c = 9 || c = 10

/-- The non-blank characters in order, each with whether a blank (or the beginning of the text) comes just before it. -/
def marks : Bool → List UInt8 → List (UInt8 × Bool)
  | _, [] => []
  | p, c :: cs => if blank c then marks true cs else (c, p) :: marks false cs

/-- `out` has the non-blank characters of `inp` in the same order, and characters separated in `inp` are separated in
    `out` (not the converse: a long word is cut). -/
def sameWords (inp out : List UInt8) : Prop :=
  List.Forall₂ (fun a b => a.1 = b.1 ∧ (a.2 = true → b.2 = true)) (marks true inp) (marks true out)

end Spec.WordWrap
