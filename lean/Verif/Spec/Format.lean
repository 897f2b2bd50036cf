import Verif.Model.Basic
/-
What formatting means: a format is text with fields in it, each field standing for an argument.
-/
namespace Spec.Format
open Wv

/-- Where the argument goes in its field, and what fills the rest. -/
inductive Fill where
  | right
  | zeros
  | left
  deriving DecidableEq

/-- A field: at least `width` bytes, of which at most `prec` are from the argument (all, if 0); the argument is number
    `num`, counted from 1 (the next one, if 0). -/
structure Field where
  fill : Fill
  width : Nat
  prec : Nat
  num : Nat

/-- A piece of a format. -/
inductive Piece where
  | text (t : List Byte)
  | percent
  | field (f : Field)
  | char (num : Nat)

/-- An argument: a string, perhaps null, or the code of a character. -/
inductive Arg where
  | str (s : Option (List Byte))
  | code (c : Byte)

/-- A number's digits. -/
def digits (n : Nat) : List Byte := (Nat.toDigits 10 n).map ch

/-- `d` and the number, or nothing for 0. -/
def optional (d : List Byte) (n : Nat) : List Byte := if n = 0 then [] else d ++ digits n

/-- How a piece is written in a format string. -/
def Piece.write : Piece → List Byte
  | .text t => t
  | .percent => [ch '%', ch '%']
  | .field f => [ch '%'] ++ (match f.fill with | .right => [] | .zeros => [ch '0'] | .left => [ch '-']) ++
      optional [] f.width ++ optional [ch '.'] f.prec ++ optional [ch '$'] f.num ++ [ch 's']
  | .char n => [ch '%'] ++ optional [ch '$'] n ++ [ch 'c']

/-- The format string. -/
def write (ps : List Piece) : List Byte := ps.flatMap Piece.write

/-- The string given for an argument. -/
def Arg.value : Arg → Option (List Byte)
  | .str s => s
  | .code c => some (digits c.toNat)

/-- The text an argument prints as: a null string, or one not given, prints as "(nil)". -/
def shown (args : List Arg) (i : Nat) : List Byte :=
  match args[i]? with
  | some a => a.value.getD [ch '(', ch 'n', ch 'i', ch 'l', ch ')']
  | none => [ch '(', ch 'n', ch 'i', ch 'l', ch ')']

/-- The part of an argument that its field shows. -/
def cut (prec : Nat) (s : List Byte) : List Byte := if prec = 0 then s else s.take prec

/-- A field filled with a text. -/
def Field.show (f : Field) (s : List Byte) : List Byte :=
  let a := cut f.prec s
  match f.fill with
  | .right => List.replicate (f.width - a.length) (ch ' ') ++ a
  | .zeros => List.replicate (f.width - a.length) (ch '0') ++ a
  | .left => a ++ List.replicate (f.width - a.length) (ch ' ')

/-- The argument a piece with number `num` uses when `k` have been used. -/
def which (k num : Nat) : Nat := if num = 0 then k else num - 1

/-- The number of arguments used after a piece with number `num`. -/
def after (k num : Nat) : Nat := if num = 0 then k + 1 else k

/-- The formatted text, when `k` arguments have been used. -/
def out (args : List Arg) : Nat → List Piece → List Byte
  | _, [] => []
  | k, .text t :: r => t ++ out args k r
  | k, .percent :: r => ch '%' :: out args k r
  | k, .field f :: r => f.show (shown args (which k f.num)) ++ out args (after k f.num) r
  | k, .char n :: r =>
    (match args[which k n]? with
      | some (.code c) => [c]
      | _ => []) ++ out args (after k n) r

/-- The pieces use at most twenty arguments, the texts have no '%', each character has a code. -/
def Good (args : List Arg) : Nat → List Piece → Prop
  | _, [] => True
  | k, .text t :: r => ch '%' ∉ t ∧ Good args k r
  | k, .percent :: r => Good args k r
  | k, .field f :: r => which k f.num < 20 ∧ f.width < 2 ^ 31 ∧ f.prec < 2 ^ 31 ∧ Good args (after k f.num) r
  | k, .char n :: r => which k n < 20 ∧ (∃ c, args[which k n]? = some (.code c)) ∧ Good args (after k n) r

/-- No field is wider than the part of the argument it allows. -/
def Roomy (ps : List Piece) : Prop := ∀ f, Piece.field f ∈ ps → f.prec = 0 ∨ f.width ≤ f.prec

/-- The bytes the formatter reserves for a field: the precision bounds the width as well. -/
def Field.reserved (f : Field) (s : List Byte) : Nat :=
  if f.prec = 0 then max f.width s.length else min f.prec (max f.width s.length)

/-- The bytes the formatter reserves. -/
def reserved (args : List Arg) : Nat → List Piece → Nat
  | _, [] => 0
  | k, .text t :: r => t.length + reserved args k r
  | k, .percent :: r => 1 + reserved args k r
  | k, .field f :: r => f.reserved (shown args (which k f.num)) + reserved args (after k f.num) r
  | k, .char n :: r => 1 + reserved args (after k n) r

end Spec.Format
