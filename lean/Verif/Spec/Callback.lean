/- What callbacks do. Independent of the model. -/
namespace Spec.Callback

/-- What happens with delayed callbacks: number `d` is called with an argument, or its function is run with an argument. -/
inductive Ev
  | called (d x : Nat)
  | ran (d x : Nat)
deriving DecidableEq

def Ev.who : Ev → Nat
  | .called d _ => d
  | .ran d _ => d

/-- The last thing that happened with `d`. -/
def last (d : Nat) (t : List Ev) : Option Ev := (t.filter (·.who = d)).getLast?

/-- A function runs just for the last call that it had not run for. -/
def Right (t : List Ev) : Prop := ∀ pre d x post, t = pre ++ .ran d x :: post → last d pre = some (.called d x)

end Spec.Callback
