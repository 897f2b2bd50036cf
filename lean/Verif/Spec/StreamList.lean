import Verif.Model.Basic
/-
What is expected of a list of streams: who is to be called, given what happened. Streams are known by numbers.
-/
namespace Spec.StreamList

/-- What happens: a round begins, a stream reports that it is ready, a stream is called, a stream is removed by the user. -/
inductive Ev where
  | start
  | ready (x : Nat)
  | called (x : Nat)
  | removed (x : Nat)
  deriving DecidableEq

/-- Those still to be called, in order. `none` when one was called who was not the next. A stream that reports again waits at the end. -/
def pending : List Ev → List Nat → Option (List Nat)
  | [], q => some q
  | .start :: l, _ => pending l []
  | .ready x :: l, q => pending l (q.filter (· ≠ x) ++ [x])
  | .called x :: l, q =>
    match q with
    | y :: t => if x = y then pending l t else none
    | [] => none
  | .removed x :: l, q => pending l (q.filter (· ≠ x))

end Spec.StreamList
