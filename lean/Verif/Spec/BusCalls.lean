/-
What a program sees of a DBus connection: it sends messages, some with a function to be called with the answer; messages arrive;
functions are called and return. Requests are numbered in the order they are sent.
-/
namespace Spec.BusCalls

/-- A message that arrives: which one it is, and the number of the message that it answers, or 0. -/
structure In where
  tag : Nat
  reply : Nat
  deriving DecidableEq, Repr

/-- What can happen: the program sends a message (`serial`: the number the message already has, or 0; with a function for the
    answer, or without; how long to wait for it), also while one of its functions runs; a message arrives; the function that runs returns
    ("did it handle the message?"); the connection looks at the clock; the connection is closed. -/
inductive Event where
  | send (serial : Nat) (fn : Bool) (deadline : Nat)
  | recv (m : In)
  | ret (handled : Bool)
  | poll (now : Nat)
  | close
  deriving DecidableEq, Repr

inductive Outcome where
  | answer (m : In)
  | cancelled
  deriving DecidableEq, Repr

/-- What is seen: a message goes out with this number, as this request if the program waits for an answer; the function of a
    request is called; a filter is called. -/
inductive Effect where
  | sent (serial : Nat) (request : Option Nat)
  | called (request : Nat) (o : Outcome)
  | filter (name : Nat) (m : In)
  deriving DecidableEq, Repr

/-- How often the function of a request was called. -/
def calls (r : Nat) (l : List Effect) : Nat := l.countP fun | .called q _ => q == r | _ => false

/-- A request that was sent with this number and has not been answered. -/
def Open (l : List Effect) (r serial : Nat) : Prop := Effect.sent serial (some r) ∈ l ∧ calls r l = 0

end Spec.BusCalls
