import Verif.Model.Basic
/-
The canonical decimal text of an integer, from Lean's own digits of a natural number.
-/
namespace Spec.Num
open Wv

/-- '-' for a negative number, then its digits without leading zeros. -/
def decimal (i : Int) : List Byte := (if i < 0 then [ch '-'] else []) ++ (Nat.toDigits 10 i.natAbs).map ch

end Spec.Num
