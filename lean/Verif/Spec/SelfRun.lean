import Verif.Spec.ProcQueue
/- Histories of streams that wake themselves, independent of the model. -/
namespace Spec.SelfRun

/-- A process is put in the queue; or the list of streams is run at a time, and the processes that have finished then. -/
inductive Ev where
  | add (cookie : Option Nat)
  | run (t : Nat) (done : Nat → Bool)

/-- The clock does not go backwards, from `t` on. -/
def Clock : Nat → List Ev → Prop
  | _, [] => True
  | t, .add _ :: l => Clock t l
  | t, .run u _ :: l => t ≤ u ∧ Clock u l

/-- How many processes were started, in what happened to the queue. -/
def startCount (l : List Spec.ProcQueue.Event) : Nat :=
  (l.filter fun e => match e with | .start _ _ => true | _ => false).length

/-- Whenever the list is run, all processes have finished. -/
def Quick (l : List Ev) : Prop := ∀ t d, Ev.run t d ∈ l → ∀ x, d x = true

end Spec.SelfRun
