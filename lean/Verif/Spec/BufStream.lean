import Verif.Model.Basic
/-!
A stream from which one reads what was written to it, for C122.
-/
namespace Spec.BufStream
open Wv

/-- What a user sees: bytes that a call of `write` took, bytes that `read` gave, a line that `getline` gave, with its newline or as the
    rest without one, or nothing. -/
inductive Ev where
  | took (b : List Byte)
  | gave (b : List Byte)
  | line (b : List Byte)
  | rest (b : List Byte)
  | nothing
deriving DecidableEq, Repr

def sent (l : List Ev) : List Byte := l.flatMap fun | .took b => b | _ => []

def received (l : List Ev) : List Byte := l.flatMap fun | .gave b => b | .line b => b ++ [10] | .rest b => b | _ => []

/-- A text as lines: each one up to a newline; what comes after the last newline, if there is something. -/
inductive Lines : List Byte → List Ev → Prop
  | nil : Lines [] []
  | rest (b : List Byte) (hb : b ≠ []) (h : 10 ∉ b) : Lines b [.rest b]
  | line (b t : List Byte) (l : List Ev) (h : 10 ∉ b) (ht : Lines t l) : Lines (b ++ 10 :: t) (.line b :: l)

end Spec.BufStream
