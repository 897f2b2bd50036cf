/-
A dictionary that keeps several elements with the same key in the order they were added, independent of the model. Each
element comes with a flag: does the collection own it (and delete it when it is removed)?
-/
namespace Spec.Dict
variable {α κ : Type} [DecidableEq κ]

inductive Call (α κ : Type)
  | add (x : α) (autofree : Bool)
  | remove (x : α)
  | setAutofree (key : κ) (autofree : Bool)
  | getAutofree (key : κ)
  | find (key : κ)
  | count
  | isempty
deriving Repr

inductive Out (α : Type)
  | freed (l : List α)
  | found (x : Option α)
  | num (n : Nat)
  | flag (b : Bool)
deriving Repr, DecidableEq

/-- Does the element have the key? -/
def has (key : α → κ) (k : κ) (p : α × Bool) : Bool := decide (key p.1 = k)

/-- Change the first element with the key. -/
def changeFirst (key : α → κ) (k : κ) (a : Bool) : List (α × Bool) → List (α × Bool)
  | [] => []
  | p :: c => if has key k p then (p.1, a) :: c else p :: changeFirst key k a c

/-- What a call does to the elements, listed in the order they were added. -/
def step (key : α → κ) (c : List (α × Bool)) : Call α κ → List (α × Bool) × Out α
  | .add x a => (c ++ [(x, a)], .freed [])
  | .remove x =>
    (c.eraseP (has key (key x)), .freed (match c.find? (has key (key x)) with | some (y, true) => [y] | _ => []))
  | .setAutofree k a => (changeFirst key k a c, .freed [])
  | .getAutofree k => (c, .flag (match c.find? (has key k) with | some (_, a) => a | none => false))
  | .find k => (c, .found ((c.find? (has key k)).map Prod.fst))
  | .count => (c, .num c.length)
  | .isempty => (c, .flag c.isEmpty)

def run (key : α → κ) : List (α × Bool) → List (Call α κ) → List (α × Bool) × List (Out α)
  | c, [] => (c, [])
  | c, op :: ops => ((run key (step key c op).1 ops).1, (step key c op).2 :: (run key (step key c op).1 ops).2)

end Spec.Dict
