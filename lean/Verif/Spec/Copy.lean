import Verif.Spec.Conf
/- Copying a part of a configuration, as on a map from places to values. Independent of the model. -/
namespace Spec.Copy
open Spec.Conf

/-- Neither is below the other, and they are not the same. -/
def Separate (a b : Place) : Prop := ¬ a <+: b ∧ ¬ b <+: a

/-- What there is after everything at the place `a` of the configuration `m` and below was copied to the place `b` of the
    configuration `d`: what is at a place is overwritten if `force`, and kept otherwise; what leads to `b` is made if it is not
    there; everything else stays. -/
def copied (m d : State) (a b : Place) (force : Bool) : State := fun q =>
  if b <+: q then
    match m (a ++ q.drop b.length) with
    | some v => if force ∨ d q = none then some v else d q
    | none => d q
  else if q <+: b then some ((d q).getD [])
  else d q

/-- The place `b` and everything below is gone. -/
def removed (d : State) (b : Place) : State := fun q => if b <+: q then none else d q

/-- What there is after everything at `a` was moved to `b`: below `b` what was below `a`, and nothing of what was there before;
    nothing at `a` and below; what leads to `b` exists; all else as it was. -/
def moved (m : State) (a b : Place) : State := fun q =>
  if a <+: q then none else if b <+: q then m (a ++ q.drop b.length) else if q <+: b then some ((m q).getD []) else m q

end Spec.Copy
