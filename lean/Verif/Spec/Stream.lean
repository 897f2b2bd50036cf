import Verif.Model.Basic
/-
What is expected of a buffered stream. A history is a list of calls with their results.
-/
namespace Spec.Stream
open Wv

/-- What happens on the reading side: bytes the device produced, bytes given to the caller, bytes the caller put back. -/
inductive Ev where
  | produced (b : List Byte)
  | returned (b : List Byte)
  | unread (b : List Byte)
  deriving DecidableEq

/-- The bytes waiting to be read, as a queue. `none` when something was returned that is not at the head of the queue. -/
def replay : List Ev → List Byte → Option (List Byte)
  | [], q => some q
  | .produced b :: l, q => replay l (q ++ b)
  | .returned b :: l, q => if b.isPrefixOf q then replay l (q.drop b.length) else none
  | .unread b :: l, q => replay l (b ++ q)

/-- All that the device produced. -/
def produced : List Ev → List Byte
  | [] => []
  | .produced b :: l => b ++ produced l
  | _ :: l => produced l

/-- All that was given to the caller. -/
def returned : List Ev → List Byte
  | [] => []
  | .returned b :: l => b ++ returned l
  | _ :: l => returned l

end Spec.Stream
