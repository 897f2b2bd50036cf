import Verif.Model.Basic
/- What registering monikers means. -/
namespace Spec.Moniker
open Wv

abbrev Text := List Byte

/-- A registration object: its name, the interface, the prefix, the factory. -/
structure Obj where
  obj : Nat
  iid : Nat
  id : Text
  func : Nat
  deriving DecidableEq

/-- Objects are made (with or without `override`) and destroyed. -/
inductive Op where
  | make (o : Obj) (override : Bool)
  | destroy (obj : Nat)

/-- The objects that exist, the newest first. -/
def alive (l : List Obj) : Op → List Obj
  | .make o _ => o :: l
  | .destroy i => l.filter fun o => o.obj ≠ i

/-- Those for a prefix of an interface. -/
def of (iid : Nat) (id : Text) (l : List Obj) : List Obj := l.filter fun o => o.iid = iid ∧ o.id = id

/-- Which factory should be used: that of the newest. -/
def newest (iid : Nat) (id : Text) (l : List Obj) : Option Nat := (of iid id l).head?.map (·.func)

/-- A history makes sense: new objects have new names, and prefixes that are not in use unless `override` is given; only existing objects are
    destroyed. -/
def Valid (l : List Obj) : List Op → Prop
  | [] => True
  | .make o override :: h => (∀ x ∈ l, x.obj ≠ o.obj) ∧ (override = false → of o.iid o.id l = []) ∧ Valid (alive l (.make o override)) h
  | .destroy i :: h => (∃ o ∈ l, o.obj = i) ∧ Valid (alive l (.destroy i)) h

/-- Objects for one prefix are destroyed in the opposite order. -/
def Nested (l : List Obj) : List Op → Prop
  | [] => True
  | .make o override :: h => Nested (alive l (.make o override)) h
  | .destroy i :: h => (∀ o ∈ l, o.obj = i → (of o.iid o.id l).head? = some o) ∧ Nested (alive l (.destroy i)) h

/-- No history uses `override`. -/
def NoOverride (h : List Op) : Prop := ∀ o b, Op.make o b ∈ h → b = false

end Spec.Moniker

namespace Spec.Moniker
open Wv

/-- What happens instead: the factories of a prefix form a stack. Destroying any object of the prefix takes the top. -/
def stack (iid : Nat) (id : Text) : List Obj → List Nat → List Op → List Nat
  | _, st, [] => st
  | l, st, .make o b :: h => stack iid id (alive l (.make o b)) (if o.iid = iid ∧ o.id = id then o.func :: st else st) h
  | l, st, .destroy i :: h =>
    stack iid id (alive l (.destroy i)) (if l.any (fun o => o.obj = i ∧ o.iid = iid ∧ o.id = id) then st.tail else st) h

end Spec.Moniker
