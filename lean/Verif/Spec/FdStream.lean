import Verif.Model.Basic
/-!
Descriptors and what is done with them, for C118.
-/
namespace Spec.FdStream
open Wv

/-- What the program does with descriptors: they are given to a stream, written to, shut down one way, closed. -/
inductive Ev where
  | took (d : Nat)
  | wrote (d : Nat) (b : List Byte)
  | got (d : Nat) (b : List Byte)
  | shutR (d : Nat)
  | shutW (d : Nat)
  | closed (d : Nat)
  /-- the close callback runs -/
  | callback
deriving DecidableEq

/-- The descriptors that are open, by what was done to all of them; `none` if one is used or closed that is not open (it might be somebody else's by now), or
    is given while it is open already. -/
def opened : List Ev → List Nat → Option (List Nat)
  | [], l => some l
  | .took d :: es, l => if d ∈ l then none else opened es (l ++ [d])
  | .wrote d _ :: es, l | .got d _ :: es, l | .shutR d :: es, l | .shutW d :: es, l => if d ∈ l then opened es l else none
  | .closed d :: es, l => if d ∈ l then opened es (l.erase d) else none
  | .callback :: es, l => opened es l

/-- What the flags of `open(2)` allow: the last two bits are 0 for reading, 1 for writing, 2 for both. -/
def mayRead (mode : Nat) : Prop := mode % 4 = 0 ∨ mode % 4 = 2
def mayWrite (mode : Nat) : Prop := mode % 4 = 1 ∨ mode % 4 = 2

end Spec.FdStream
