import Verif.Model.Basic
/-
A directory with log files. A file has a name, and is found under it until it is removed; what was written to it stays what it is.
-/
namespace Spec.LogFile
open Wv (Byte)

/-- Names: the log file of a day (counted from the epoch, in local time) with a number; or any other. -/
inductive Name where
  | log (day : Int) (num : Nat)
  | other (t : List Byte)
  deriving DecidableEq

structure File where
  data : List Byte
  mtime : Int
  deriving DecidableEq

/-- What happens: a new line at the time `t1`, written at `t2`; more of the same line; an old file is considered for removal. -/
inductive Ev where
  | line (t1 t2 : Int) (x : List Byte)
  | more (t : Int) (x : List Byte)
  | trim (t : Int) (n : Name)

def Ev.first : Ev → Int
  | .line t1 _ _ => t1
  | .more t _ => t
  | .trim t _ => t

def Ev.last : Ev → Int
  | .line _ t2 _ => t2
  | .more t _ => t
  | .trim t _ => t

/-- The clock does not go back. -/
def Ordered : Int → List Ev → Prop
  | _, [] => True
  | now, e :: l => now ≤ e.first ∧ e.first ≤ e.last ∧ Ordered e.last l

/-- The time of the last event. -/
def clock (now : Int) (l : List Ev) : Int := l.foldl (fun _ e => e.last) now

end Spec.LogFile
