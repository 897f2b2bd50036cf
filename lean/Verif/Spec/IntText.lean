import Verif.Model.Basic
/- How an integer or a switch is written in a configuration, independent of the model. -/
namespace Spec.IntText
open Wv

/-- The value of a digit: its place in a list of the digits, without regard to case. -/
def digit (base : Nat) (c : Byte) : Option Nat :=
  let small := (str ['0', '1', '2', '3', '4', '5', '6', '7', '8', '9', 'a', 'b', 'c', 'd', 'e', 'f']).take base
  let large := (str ['0', '1', '2', '3', '4', '5', '6', '7', '8', '9', 'A', 'B', 'C', 'D', 'E', 'F']).take base
  match small.findIdx? (· == c) with
  | some i => some i
  | none => large.findIdx? (· == c)

/-- The number that some digits make, the most significant first. -/
inductive Digits (base : Nat) : List Byte → Nat → Prop
  | nil : Digits base [] 0
  | snoc (t : List Byte) (n : Nat) (c : Byte) (v : Nat) : Digits base t n → digit base c = some v → Digits base (t ++ [c]) (n * base + v)

/-- The text does not go on with a digit. -/
def Ends (base : Nat) (rest : List Byte) : Prop := ∀ c r, rest = c :: r → digit base c = none

/-- The natural number that a text begins with, as in C: hexadecimal after 0x, octal after 0, decimal otherwise. -/
inductive Begins : List Byte → Nat → Prop
  | hex (x : Byte) (ds rest : List Byte) (n : Nat) : (x = ch 'x' ∨ x = ch 'X') → ds ≠ [] → Digits 16 ds n → Ends 16 rest →
      Begins (ch '0' :: x :: (ds ++ rest)) n
  | oct (ds rest : List Byte) (n : Nat) : Digits 8 ds n → Ends 8 rest →
      (ds = [] → ∀ x d r, rest = x :: d :: r → x = ch 'x' ∨ x = ch 'X' → digit 16 d = none) →
      Begins (ch '0' :: (ds ++ rest)) n
  | dec (c : Byte) (ds rest : List Byte) (n : Nat) : c ≠ ch '0' → Digits 10 (c :: ds) n → Ends 10 rest →
      Begins (c :: (ds ++ rest)) n

/-- The integer that a text begins with: blanks, a sign or none, a number. -/
inductive Int_ : List Byte → Int → Prop
  | plain (ws t : List Byte) (n : Nat) : (∀ c ∈ ws, isspace c = true) → Begins t n → Int_ (ws ++ t) n
  | plus (ws t : List Byte) (n : Nat) : (∀ c ∈ ws, isspace c = true) → Begins t n → Int_ (ws ++ ch '+' :: t) n
  | minus (ws t : List Byte) (n : Nat) : (∀ c ∈ ws, isspace c = true) → Begins t n → Int_ (ws ++ ch '-' :: t) (-n)

/-- The words for yes and no. -/
def yes : List (List Byte) :=
  [str ['t', 'r', 'u', 'e'], str ['y', 'e', 's'], str ['o', 'n'], str ['e', 'n', 'a', 'b', 'l', 'e', 'd']]
def no : List (List Byte) :=
  [str ['f', 'a', 'l', 's', 'e'], str ['n', 'o'], str ['o', 'f', 'f'], str ['d', 'i', 's', 'a', 'b', 'l', 'e', 'd']]

end Spec.IntText
