import Verif.Model.Basic
import Verif.Spec.Tcl
/- What goes over a UniConf connection, independent of the model of the code. -/
namespace Spec.UniConn
open Wv

/-- A message: the number of the command and its arguments. -/
abbrev Msg := Fin 19 × List (List Byte)

/-- Strings of the program have no NUL in them. -/
def CStrings (m : Msg) : Prop := ∀ a ∈ m.2, (0 : Byte) ∉ a

/-- The last argument, if there is one, does not both have unmatched braces and end with a newline. -/
def GoodEnd (m : Msg) : Prop :=
  ∀ a, m.2.getLast? = some a → ¬ (Spec.Tcl.balanced 0 false a = false ∧ a.getLast? = some 10)

/-- The arguments without the last one if that one has unmatched braces and ends with a newline. -/
def withoutBadEnd (as : List (List Byte)) : List (List Byte) :=
  match as.getLast? with
  | some a => if Spec.Tcl.balanced 0 false a = false ∧ a.getLast? = some 10 then as.dropLast else as
  | none => as

/-- What happens at the receiving end: bytes arrive, or the program asks for a command. -/
inductive Op where
  | arrive (bytes : List Byte)
  | read

/-- All bytes that arrived. -/
def arrived : List Op → List Byte
  | [] => []
  | .arrive b :: ops => b ++ arrived ops
  | .read :: ops => arrived ops

end Spec.UniConn
