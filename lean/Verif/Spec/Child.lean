import Verif.Model.Basic
/- What a child process should have. Independent of the model. -/
namespace Spec.Child

abbrev Text := List UInt8

/-- A descriptor: the open file it stands for, and whether `exec` closes it. -/
structure Ent where
  file : Nat
  cloexec : Bool
deriving DecidableEq

/-- The descriptors of a process. -/
abbrev Table := Nat → Option Ent

/-- What a child asked for as standard input, output or errors: the pipe, nothing, or a descriptor of the parent. -/
inductive Want
  | pipe
  | nothing
  | fd (n : Nat)
deriving DecidableEq

/-- The open file it gets; `pipe` is the end of the pipe that is for the child. -/
def Want.file (pipe : Nat) (parent : Table) : Want → Option Nat
  | .pipe => some pipe
  | .nothing => none
  | .fd n => (parent n).map (·.file)

/-- A descriptor that can be given as number `i` whatever the others are: one that is not a standard one, or that has this number already. -/
def Want.plain (parent : Table) (i : Nat) : Want → Prop
  | .fd n => (3 ≤ n ∨ n = i) ∧ parent n ≠ none
  | _ => True

/-- The environment. -/
abbrev Env := Text → Option Text

/-- An entry of the list of changes: up to the first `=` it is the name, the rest the value. -/
def name (e : Text) : Text := e.takeWhile (· ≠ 61)
def value (e : Text) : Text := (e.dropWhile (· ≠ 61)).drop 1

/-- What the entries for a variable make of its value: the last one decides, and an empty value removes it. -/
def plain (old : Option Text) (l : List Text) : Option Text :=
  match l.getLast? with
  | none => old
  | some x => if value x = [] then none else some (value x)

/-- What they make of a path: each is put in front of it, and an empty one changes nothing. -/
def merged (old : Option Text) : List Text → Option Text
  | [] => old
  | x :: l =>
    if value x = [] then merged old l
    else merged (some (match old with
      | none => value x
      | some v => value x ++ 58 :: v)) l

end Spec.Child
