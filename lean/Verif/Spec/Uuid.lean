import Verif.Spec.IntText
/- How a UUID is written, independent of the model. -/
namespace Spec.Uuid
open Wv Spec.IntText

/-- A hexadecimal number with a fixed number of digits. -/
def Num (width : Nat) (t : List Byte) (n : Nat) : Prop := t.length = width ∧ Digits 16 t n

/-- The digits of a UUID, in groups of 8, 4, 4, 4 and 12 with dashes between them: three numbers and eight bytes. -/
def Plain (s : List Byte) (a b c : Nat) (bytes : List Byte) : Prop :=
  bytes.length = 8 ∧ ∃ ta tb tc : List Byte, ∃ ps : Fin 8 → List Byte,
    Num 8 ta a ∧ Num 4 tb b ∧ Num 4 tc c ∧ (∀ i : Fin 8, Num 2 (ps i) (bytes.getD i 0).toNat) ∧
    s = ta ++ [ch '-'] ++ tb ++ [ch '-'] ++ tc ++ [ch '-'] ++ ps 0 ++ ps 1 ++ [ch '-'] ++ ps 2 ++ ps 3 ++ ps 4 ++ ps 5 ++ ps 6 ++ ps 7

/-- With or without braces. -/
def Writes (s : List Byte) (a b c : Nat) (bytes : List Byte) : Prop :=
  Plain s a b c bytes ∨ ∃ t, s = [ch '{'] ++ t ++ [ch '}'] ∧ Plain t a b c bytes

/-- Something in groups of 8, 4, 4, 4 and up to 12 bytes, the last of which has `k` pairs, with dashes between them. -/
def Groups (s : List Byte) (k : Nat) : Prop :=
  ∃ ta tb tc td te : List Byte, ta.length = 8 ∧ tb.length = 4 ∧ tc.length = 4 ∧ td.length = 4 ∧ te.length = 2 * k ∧
    s = ta ++ [ch '-'] ++ tb ++ [ch '-'] ++ tc ++ [ch '-'] ++ td ++ [ch '-'] ++ te

/-- With or without braces. -/
def Shape (s : List Byte) (k : Nat) : Prop := Groups s k ∨ ∃ t, s = [ch '{'] ++ t ++ [ch '}'] ∧ Groups t k

end Spec.Uuid
