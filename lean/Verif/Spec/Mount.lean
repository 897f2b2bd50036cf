import Verif.Spec.Conf
/- Mounting, independent of the model. -/
namespace Spec.Mount
open Spec.Path Spec.Conf

/-- What is left of a path without its first `n` names. -/
def rest (k : Text) (n : Nat) : Text := write ((names k).drop n) (dir k && decide (n < (names k).length))

/-- A mount covers a path that is at or below its mount point. -/
def Covers (mount k : Text) : Prop := place mount <+: place k
instance (mount k : Text) : Decidable (Covers mount k) := inferInstanceAs (Decidable (_ <+: _))

/-- One path is strictly below another. -/
def Below (k mount : Text) : Prop := place k <+: place mount ∧ place k ≠ place mount
instance (k mount : Text) : Decidable (Below k mount) := inferInstanceAs (Decidable (_ ∧ _))

/-- A table of mounts, newest first: mount points and what is mounted there. -/
abbrev Table := List (Text × Nat)

/-- The newest mount that covers a path. -/
def newest (t : Table) (k : Text) : Option (Text × Nat) := t.find? fun m => decide (Covers m.1 k)

/-- No mount was made above one that was already there. -/
def Ordered (t : Table) : Prop := t.Pairwise fun newer older => ¬ Below newer.1 older.1

/-- Mounting and unmounting. -/
inductive Op where
  | mount (point : Text) (what : Nat)
  | unmount (what : Nat)

/-- What is mounted afterwards: unmounting takes the newest mount of what is unmounted away. -/
def run (t : Table) : List Op → Table
  | [] => t
  | .mount p i :: r => run ((p, i) :: t) r
  | .unmount i :: r => run (t.eraseP fun m => decide (m.2 = i)) r

end Spec.Mount
