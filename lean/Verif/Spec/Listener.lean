import Verif.Model.Basic
/-!
Listeners, for C121.
-/
namespace Spec.Listener
open Wv

/-- Who connects: a client, or a new listener that tries whether there is one already. -/
inductive Peer where
  | client (n : Nat)
  | probe (i : Nat)
deriving DecidableEq, Repr

/-- What happens to the listeners, which are numbered: a connection comes to one, or one gives a connection to the function that was
    set, with what it was wrapped in, the innermost first. -/
inductive Ev where
  | arrived (i : Nat) (p : Peer)
  | given (i : Nat) (to : Nat) (p : Peer) (wraps : List Nat)
deriving DecidableEq, Repr

/-- The connections that came to a listener, and those that it gave away. -/
def came (i : Nat) (log : List Ev) : List Peer := log.filterMap fun | .arrived j p => if j = i then some p else none | _ => none
def gave (i : Nat) (log : List Ev) : List Peer := log.filterMap fun | .given j _ p _ => if j = i then some p else none | _ => none

/-- The mode of a new file, as for `open`: of the nine bits those that are asked for, without those that the mask has. -/
def Mode (asked mask m : Nat) : Prop := ∀ b, m.testBit b = (decide (b < 9) && asked.testBit b && !mask.testBit b)

end Spec.Listener
