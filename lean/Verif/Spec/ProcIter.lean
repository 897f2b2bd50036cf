import Verif.Spec.Split
/- Running processes as `ps ax -o pid,command` lists them, independent of the model. -/
namespace Spec.ProcIter

abbrev Text := List UInt8

/-- A process: its number and its arguments, shown with blanks in between. -/
structure Proc where
  pid : Nat
  command : Text
deriving DecidableEq

/-- The line of a process: blanks up to the width of the column, the number, a blank, the command. -/
def line (pad : Nat) (p : Proc) : Text :=
  List.replicate pad 32 ++ (Nat.toDigits 10 p.pid).map (fun c => UInt8.ofNat c.toNat) ++ [32] ++ p.command

/-- What is listed: numbers of processes are positive ints, control characters are not shown as they are, and the command does not
    start with a blank. -/
def Proper (p : Proc) : Prop :=
  0 < p.pid ∧ p.pid < 2 ^ 31 ∧ (∀ c ∈ p.command, 32 ≤ c) ∧ ∃ c r, p.command = c :: r ∧ c ≠ 32

/-- The program: the command up to the first blank. -/
def program (p : Proc) : Text := p.command.takeWhile (· ≠ 32)

/-- The last part of a path, slashes at its end not counting. -/
def base (path : Text) : Text := ((path.reverse.dropWhile (· = 47)).takeWhile (· ≠ 47)).reverse

/-- The words of a command. -/
def words (p : Proc) : List Text := Spec.Split.words (· == 32) p.command

end Spec.ProcIter
