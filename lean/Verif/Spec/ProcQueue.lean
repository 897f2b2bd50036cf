import Verif.Model.Basic
/-
What a process queue does, as a list of events. Each time a process is put in the queue it gets a ticket; `c` is its cookie, if any.
-/
namespace Spec.ProcQueue

inductive Event where
  | enq (t : Nat) (c : Option Nat)
  | start (t : Nat) (c : Option Nat)
  | fin (t : Nat)
  deriving DecidableEq

/-- How many are running after these events. -/
def running : List Event → Int
  | [] => 0
  | .enq _ _ :: l => running l
  | .start _ _ :: l => running l + 1
  | .fin _ :: l => running l - 1

/-- There are never more than `n` running. -/
def Limited (n : Nat) (tr : List Event) : Prop := ∀ pre post, tr = pre ++ post → running pre ≤ n

/-- They start in the order they were put in, each at most once. -/
def InOrder (tr : List Event) : Prop :=
  ∀ pre t c post, tr = pre ++ Event.start t c :: post →
    (∀ c', Event.start t c' ∉ pre) ∧ Event.enq t c ∈ pre ∧
      ∀ u c', (∃ p q r, tr = p ++ Event.enq u c' :: q ++ Event.enq t c :: r) → Event.start u c' ∈ pre

/-- Whenever one starts, and it or an earlier one has a cookie, the earlier one has finished. -/
def Synced (tr : List Event) : Prop :=
  ∀ pre t c post, tr = pre ++ Event.start t c :: post → ∀ u c', Event.start u c' ∈ pre → c ≠ none ∨ c' ≠ none → Event.fin u ∈ pre

end Spec.ProcQueue
