import Verif.Model.Basic
/-
What sharing addresses means: each of a number of users has the addresses it added since it last started over.
-/
namespace Spec.Aliaser

abbrev Addr := BitVec 32

/-- What users do. `real` says which addresses the computer has anyway at that time. -/
inductive Op where
  | start (user : Nat) (real : Addr → Bool)
  | add (user : Nat) (ip : Addr)
  | done (user : Nat)
  | destroy (user : Nat) (real : Addr → Bool)

/-- The addresses of each user, and those it was told the computer has anyway. -/
structure Users where
  has : Nat → List Addr
  real : Nat → Addr → Bool

def upd {α : Type} (f : Nat → α) (k : Nat) (a : α) : Nat → α := fun j => if j = k then a else f j

/-- An address is added unless it is none, the user has it, or the computer has it anyway. -/
def step (s : Users) : Op → Users
  | .start k real => ⟨upd s.has k [], upd s.real k real⟩
  | .add k ip => if ip = 0 ∨ ip ∈ s.has k ∨ s.real k ip = true then s else { s with has := upd s.has k (s.has k ++ [ip]) }
  | .done _ => s
  | .destroy k real => ⟨upd s.has k [], upd s.real k real⟩

def users (l : List Op) : Users := l.foldl step ⟨fun _ => [], fun _ _ => false⟩

/-- All addresses that are added. -/
def added : List Op → List Addr
  | [] => []
  | .add _ ip :: l => ip :: added l
  | _ :: l => added l

end Spec.Aliaser
