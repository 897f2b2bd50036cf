import Verif.Model.Basic
/-!
Which characters are in a mask, for C117, by everything that was done to it.
-/
namespace Spec.StringMask
open Wv

inductive Op where
  | zap
  /-- a character is set to a value -/
  | char (c : Byte) (v : Bool)
  /-- all characters of a string are set to a value -/
  | str (s : List Byte) (v : Bool)
deriving DecidableEq

/-- The value that an operation gives to a character, if it gives one. -/
def gives (c : Byte) : Op → Option Bool
  | .zap => some false
  | .char d v => if d = c then some v else none
  | .str s v => if c ∈ s then some v else none

/-- A character is in the mask if the last operation that gave it a value gave it `true`. -/
def has (ops : List Op) (c : Byte) : Bool := ((ops.filterMap (gives c)).getLast?).getD false

/-- The characters that were set since the mask was last emptied, in order, whatever they were set to. -/
def named : List Op → List Byte
  | [] => []
  | .zap :: os => named os
  | .char c _ :: os => if os.contains .zap then named os else c :: named os
  | .str s _ :: os => if os.contains .zap then named os else s ++ named os

end Spec.StringMask
