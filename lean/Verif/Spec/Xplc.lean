import Verif.Model.Basic
/- A registry of components, independent of the model. -/
namespace Spec.Xplc
open Wv (Byte ch)

abbrev Text := List Byte

/-! ### In which order handlers are asked -/

/-- Those that were added first of all (the latest first), those that were just added (the latest first), those that were added last
    (the latest last). -/
structure Order where
  firsts : List Nat
  others : List Nat
  lasts : List Nat

def Order.all (o : Order) : List Nat := o.firsts ++ o.others ++ o.lasts

inductive Call where
  | add (h : Nat)
  | addFirst (h : Nat)
  | addLast (h : Nat)
  | remove (h : Nat)

/-- A handler that is there already stays where it is. -/
def step (o : Order) : Call → Order
  | .add h => if h ∈ o.all then o else { o with others := h :: o.others }
  | .addFirst h => if h ∈ o.all then o else { o with firsts := h :: o.firsts }
  | .addLast h => if h ∈ o.all then o else { o with lasts := o.lasts ++ [h] }
  | .remove h => ⟨o.firsts.filter (· ≠ h), o.others.filter (· ≠ h), o.lasts.filter (· ≠ h)⟩

/-! ### Objects under a UUID -/

inductive Put where
  | add (u : Nat) (o : Option Nat)
  | remove (u : Nat)

/-- The first object under a UUID stays, until it is removed. -/
def put (m : Nat → Option Nat) : Put → Nat → Option Nat
  | .add u o, v => if v = u ∧ m u = none then o else m v
  | .remove u, v => if v = u then none else m v

/-! ### Categories -/

/-- A registration: category, component, string. -/
abbrev Reg := Nat × Nat × Option Text

/-- The string with which a component was first registered in a category. -/
def firstIn (hist : List Reg) (cat comp : Nat) : Option (Option Text) :=
  (hist.find? fun r => r.1 == cat && r.2.1 == comp).map (·.2.2)

/-! ### Names -/

/-- The UUID for which a name was first registered. -/
def firstName (hist : List (Text × Nat)) (n : Text) : Option Nat := (hist.find? fun r => r.1 == n).map (·.2)

/-- What there is: what the service manager has for a UUID; which objects are a moniker service (with these names), the moniker "new",
    another moniker, or a factory, and what they give; the UUID where "new" looks for the moniker service. -/
structure Env where
  get : Nat → Option Nat
  service : Nat → Prop
  new : Nat → Prop
  other : Nat → Text → Option Nat
  makes : Nat → Option Nat
  monikers : Nat

/-- What a name stands for: an object; `n:rest` is what the moniker `n` makes of `rest`; for "new" that is what the factory makes that
    `rest` stands for. -/
inductive Names (E : Env) (hist : List (Text × Nat)) : Text → Nat → Prop
  | plain (n : Text) (u o : Nat) : ch ':' ∉ n → firstName hist n = some u → E.get u = some o → Names E hist n o
  | service (n rest : Text) (u m o : Nat) : ch ':' ∉ n → firstName hist n = some u → E.get u = some m → E.service m →
      Names E hist rest o → Names E hist (n ++ ch ':' :: rest) o
  | other (n rest : Text) (u m o : Nat) : ch ':' ∉ n → firstName hist n = some u → E.get u = some m →
      E.other m rest = some o → Names E hist (n ++ ch ':' :: rest) o
  | new (n rest : Text) (u m s f o : Nat) : ch ':' ∉ n → firstName hist n = some u → E.get u = some m → E.new m →
      E.get E.monikers = some s → E.service s → Names E hist rest f → E.makes f = some o → Names E hist (n ++ ch ':' :: rest) o
  | newOther (n rest : Text) (u m s f o : Nat) : ch ':' ∉ n → firstName hist n = some u → E.get u = some m → E.new m →
      E.get E.monikers = some s → E.other s rest = some f → E.makes f = some o → Names E hist (n ++ ch ':' :: rest) o

end Spec.Xplc
