/-
Processes, as far as starting and stopping them goes. `ours` marks those that descend from a process that the object in question started; the programs
modelled do not look at it.
-/
namespace Spec.SubProc

/-- A process: its number, its process group, whether it is a child of the program itself, whether it is dead but not yet waited for. -/
structure P where
  pid : Nat
  pgid : Nat
  child : Bool
  zombie : Bool
  ours : Bool
  deriving DecidableEq

/-- What processes do by themselves: end; fork; leave the group; unrelated ones appear. -/
inductive Move where
  | exit (pid : Nat)
  | fork (pid new : Nat)
  | leave (pid : Nat)
  | stranger (pid pgid : Nat) (child : Bool)
  deriving DecidableEq

/-- No process leaves its group. -/
def Stays : Move → Prop
  | .leave _ => False
  | _ => True

/-- Nothing of ours is left, dead or alive. -/
def NoneLeft (ps : List P) : Prop := ∀ p ∈ ps, p.ours = false

end Spec.SubProc
