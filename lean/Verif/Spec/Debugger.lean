import Verif.Model.Basic
/- The life of the data a command keeps for an instance of the debugger. -/
namespace Spec.Debugger
open Wv

/-- What happens: `init` makes the data of a command for an instance, `use` is a run of the command or a call by `foreach` with the data, `cleanup` ends the
    data, `gone` the instance. Instances and data are numbered; `none` is no data. -/
inductive Ev where
  | init (d : Nat) (cmd : List Byte) (data : Nat)
  | use (d : Nat) (cmd : List Byte) (data : Option Nat)
  | cleanup (d : Nat) (cmd : List Byte) (data : Option Nat)
  | gone (d : Nat)
  deriving DecidableEq

/-- Has to do with the command in the instance. -/
def Ev.about (d : Nat) (cmd : List Byte) : Ev → Bool
  | .init d' c _ => d' = d ∧ c = cmd
  | .use d' c _ => d' = d ∧ c = cmd
  | .cleanup d' c _ => d' = d ∧ c = cmd
  | .gone d' => d' = d

inductive Phase where
  | fresh
  | has (data : Option Nat)
  | cleaned
  | ended
  deriving DecidableEq

/-- Which of its functions a command has. -/
structure Cmd where
  init : Bool
  cleanup : Bool
  deriving DecidableEq

/-- One step of the life. With `init`: it is called before the first use, once, and every use gets what it returned. With `cleanup`: it is called once, with the
    same data, before the instance goes; there is nothing to clean up if nothing was made. -/
def life (c : Cmd) : Phase → Ev → Option Phase
  | .fresh, .init _ _ x => if c.init then some (.has (some x)) else none
  | .fresh, .use _ _ none => if c.init then none else some (.has none)
  | .fresh, .cleanup _ _ none => if !c.init && c.cleanup then some .cleaned else none
  | .fresh, .gone _ => some .ended
  | .has x, .use _ _ y => if x = y then some (.has x) else none
  | .has x, .cleanup _ _ y => if x = y ∧ c.cleanup then some .cleaned else none
  | .has _, .gone _ => if c.cleanup then none else some .ended
  | .cleaned, .gone _ => some .ended
  | _, _ => none

/-- The life of the command in the instance so far; `none` if there was a step that should not be. -/
def lived (c : Cmd) (d : Nat) (cmd : List Byte) (log : List Ev) : Option Phase := (log.filter (Ev.about d cmd)).foldlM (life c) .fresh

/-- A text cut into lines. -/
def lines : List Byte → List Byte → List (List Byte)
  | _, [] => []
  | acc, c :: s => if c = 10 then acc.reverse :: lines [] s else lines (c :: acc) s

end Spec.Debugger
