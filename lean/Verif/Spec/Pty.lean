import Verif.Model.Basic
/-!
Programs that run on a terminal of their own, for C125: the names of terminals, what becomes of a process, and what can happen.
-/
namespace Spec.Pty
open Wv

abbrev Text := List Byte

/-- The pairs of terminals there can be, in order: the last two characters of the names. -/
def pairs : List (Byte × Byte) := (str "pqrstuvwxyzPQRST".toList).flatMap fun x => (str "0123456789abcdef".toList).map fun y => (x, y)

def masterName (p : Byte × Byte) : Text := str "/dev/pty".toList ++ [p.1, p.2]

def slaveName (p : Byte × Byte) : Text := str "/dev/tty".toList ++ [p.1, p.2]

/-- Opening a file: a descriptor, or an error. -/
inductive Opened where
  | fd (n : Nat)
  | noent
  | other
deriving DecidableEq, Repr

/-- How a process ends. -/
inductive Fate where
  | exit (code : Nat)
  | signal (n : Nat) (core : Bool)
deriving DecidableEq, Repr

/-- Fates there are: codes are bytes, signals are 1 to 126. -/
def Fate.Ok : Fate → Prop
  | .exit c => c < 256
  | .signal n _ => 0 < n ∧ n < 127

/-- What `waitpid` says about it. -/
def Fate.raw : Fate → Nat
  | .exit c => c * 256
  | .signal n core => n + (if core then 128 else 0)

/-- What happens: the program ends; the object is asked or told something. -/
inductive Op where
  | ends
  | exited
  | killed
  | finish
  | status
  | kill (sig : Nat)
deriving DecidableEq, Repr

/-- What a call returns. -/
inductive Ret where
  | unit
  | bool (b : Bool)
  | int (n : Nat)
deriving DecidableEq, Repr

/-- What the calls should return while the program runs, and after it has ended. `finish` waits. -/
def expected (f : Fate) : (ended : Bool) → Op → Ret
  | e, .exited => .bool e
  | e, .killed => .bool (e && match f with | .exit _ => false | .signal _ _ => true)
  | e, .status => .int (if e then (match f with | .exit c => c | .signal n _ => n) else 242)
  | _, .finish => .int (match f with | .exit c => c | .signal n _ => n)
  | _, .ends => .unit
  | _, .kill _ => .unit

/-- What a history of calls should return. -/
def answers (f : Fate) : (ended : Bool) → List Op → List Ret
  | _, [] => []
  | e, o :: l => expected f e o :: answers f (e || o = .ends || o = .finish) l

/-- A pair that is in use: one of its terminals is there but cannot be opened. -/
def Busy (sys : Text → Opened) (p : Byte × Byte) : Prop :=
  sys (masterName p) = .other ∨ ∃ m, sys (masterName p) = .fd m ∧ sys (slaveName p) = .other

end Spec.Pty
