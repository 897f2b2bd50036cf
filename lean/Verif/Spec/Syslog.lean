import Verif.Spec.LogRcv
/-!
What a program's log is in the system log, for C115.
-/
namespace Spec.Syslog
open Wv Spec.Log Spec.LogRcv

/-- The priority of a level: 2 (critical) to 7 (debug). Levels from 0 (critical) to 5 (debug) have one; debug messages below the level `first` are
    informational (6). -/
def priority (first lvl : Nat) : Option Nat :=
  match lvl with
  | 0 => some 2
  | 1 => some 3
  | 2 => some 4
  | 3 => some 5
  | 4 => some 6
  | 5 => if 5 < first then some 6 else some 7
  | _ => none

/-- One line of a message, with its heading if wanted. -/
def entry (first : Nat) (app : Bool) (m : Msg) (t : Text) : Option (Nat × Text) :=
  (priority first m.lvl).map fun p => (p, (if app then heading m else []) ++ t.flatMap shown ++ [10])

/-- The lines of a message that are not empty. -/
def entries (first : Nat) (app : Bool) (m : Msg) : List (Nat × Text) :=
  ((Split.pieces lineEnd m.text).filter (· ≠ [])).filterMap (entry first app m)

/-- Those that have ended. -/
def ended (first : Nat) (app : Bool) (m : Msg) : List (Nat × Text) :=
  ((Split.pieces lineEnd m.text).dropLast.filter (· ≠ [])).filterMap (entry first app m)

/-- What has been sent after these messages. -/
def sent (first : Nat) (app : Bool) (l : List Msg) : List (Nat × Text) :=
  l.dropLast.flatMap (entries first app) ++ (l.getLast?.map (ended first app)).getD []

end Spec.Syslog
