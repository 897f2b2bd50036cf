import Verif.Spec.Conf
/- Watches on a configuration, independent of the model. -/
namespace Spec.Watch
open Spec.Path Spec.Conf

/-- A watch: where it is, whether it is for everything below too, whose it is, and what to call. -/
structure Watch where
  point : Place
  recurse : Bool
  cookie : Nat
  callback : Nat
  deriving DecidableEq

/-- Adding and removing watches. -/
inductive Op where
  | add (key : Text) (recurse : Bool) (cookie callback : Nat)
  | del (key : Text) (recurse : Bool) (cookie : Nat)

/-- The watches there are, oldest first. Removing takes the oldest one with this place, cookie and kind away. -/
def step (ws : List Watch) : Op → List Watch
  | .add k r c f => ws ++ [⟨place k, r, c, f⟩]
  | .del k r c => ws.eraseP fun w => decide (w.point = place k ∧ w.cookie = c ∧ w.recurse = r)

/-- After a history. -/
def after (ws : List Watch) : List Op → List Watch
  | [] => ws
  | o :: r => after (step ws o) r

/-- The places above a place and itself, from the root down. -/
def above (q : Place) : List Place := (List.range (q.length + 1)).map q.take

/-- A watch is for changes of its own place, and for those of everything below if it is recursive. -/
def Watches (w : Watch) (q : Place) : Prop := w.point = q ∨ w.recurse = true ∧ w.point <+: q
instance (w : Watch) (q : Place) : Decidable (Watches w q) := inferInstanceAs (Decidable (_ ∨ _))

/-- A call: the watch, and where the change is below it. -/
abbrev Call := Watch × Place

/-- What is called first for a change at `q`: the watches for it, those at the root first and those at `q` last, and of those
    at the same place the oldest first. -/
def upper (ws : List Watch) (q : Place) : List Call :=
  (above q).flatMap fun p => (ws.filter fun w => decide (w.point = p ∧ Watches w q)).map fun w => (w, q.drop p.length)

/-- What is called then, in some order, if the change at `q` is that it is removed: all watches below, as if their own places had
    been removed. -/
def lower (ws : List Watch) (q : Place) : List Call :=
  (ws.filter fun w => decide (q <+: w.point ∧ w.point ≠ q)).map fun w => (w, [])

end Spec.Watch
