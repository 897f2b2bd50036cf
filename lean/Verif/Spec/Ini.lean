import Verif.Spec.Tcl
import Verif.Spec.Conf
/- What survives being written to an INI file, independent of the model. -/
namespace Spec.Ini
open Spec.Conf

def white (c : UInt8) : Bool := c == 32 || (9 ≤ c && c ≤ 13)

/-- A character of `sep` stands outside of braces and not after a backslash. `d` is the number of open braces, `esc` says whether
    the character before was an active backslash. -/
def exposed (sep : List UInt8) : Nat → Bool → Text → Bool
  | _, _, [] => false
  | d, true, _ :: cs => exposed sep d false cs
  | d, false, c :: cs =>
    (d == 0 && sep.contains c) ||
    (if c = 92 then exposed sep d true cs
     else if c = 123 then exposed sep (d + 1) false cs
     else if c = 125 then exposed sep (d - 1) false cs
     else exposed sep d false cs)

/-- White space at the start or at the end. -/
def edges (s : Text) : Prop := (∃ c, s.head? = some c ∧ white c = true) ∨ (∃ c, s.getLast? = some c ∧ white c = true)

/-- The text starts with `a` and ends with `b`. -/
def within (a b : UInt8) (s : Text) : Prop := s.head? = some a ∧ s.getLast? = some b

/-- Braces match and no backslash is left over. A text with white space at an end or an exposed character of `sep` has one of the
    characters that make it be put in braces. Another one has no backslashes, and is not within braces or quotes. -/
def Survives (sep nasties : List UInt8) (s : Text) : Prop :=
  Spec.Tcl.balanced 0 false s = true ∧
  ((edges s ∨ exposed sep 0 false s = true) → ∃ c ∈ s, c ∈ nasties ∨ c ∈ [123, 125, 92, 34]) ∧
  (¬ (edges s ∨ exposed sep 0 false s = true) → 92 ∉ s ∧ ¬ within 123 125 s ∧ ¬ within 34 34 s)

/-- In values, a line end; put in braces with white space. -/
def ValueOk (v : Text) : Prop := Survives [13, 10] [32, 9, 10, 13] v ∧ 0 ∉ v
/-- In keys, line ends and `[ ] = # "`; put in braces with these except the quote, and spaces and tabs. -/
def KeyOk (k : Text) : Prop := Survives [13, 10, 91, 93, 61, 35, 34] [13, 10, 9, 32, 91, 93, 61, 35] k ∧ 0 ∉ k
/-- In section names, line ends and brackets. -/
def SectionOk (k : Text) : Prop := Survives [13, 10, 91, 93] [13, 10, 91, 93] k ∧ 0 ∉ k

/-- Changing the configuration: the root cannot be removed, only what is below it. -/
def set (m : State) (k : Text) (v : Option Text) : State :=
  if v = none ∧ Spec.Path.names k = [] then Spec.Conf.set (Spec.Conf.set m k v) [] (some []) else Spec.Conf.set m k v

/-- A place in the configuration: the first name is the section, the others the key, unless there is only one. -/
def PlaceOk : Place → Prop
  | [] => True
  | [n] => KeyOk n
  | n :: r => SectionOk n ∧ KeyOk (Spec.Split.join [Spec.Path.slash] r)

/-- All that has a value that is not empty can be saved. -/
def Savable (m : State) : Prop := ∀ p v, m p = some v → v ≠ [] → PlaceOk p ∧ ValueOk v

open Classical in
/-- What is kept of a configuration: the values that are not empty, and what these are below of. The root is always there. -/
noncomputable def kept (m : State) : State := fun q =>
  match m q with
  | some (c :: v) => some (c :: v)
  | _ => if q = [] ∨ ∃ p c v, q <+: p ∧ m p = some (c :: v) then some [] else none

end Spec.Ini
