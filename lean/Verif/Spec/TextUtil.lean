import Verif.Model.Basic
import Verif.Spec.Split
/- Small operations on text, independent of the model. -/
namespace Spec.TextUtil
open Wv

abbrev Text := List Byte

/-- In `pre ++ a`, `a` occurs at the end only; so `pre` is what comes before the first `a` of a text that begins with `pre ++ a`. -/
def First (pre a : Text) : Prop := ∀ x y, pre ++ a = x ++ a ++ y → y = []

/-- `t` is `s` with every `a` replaced by `b`, from the left. -/
def Replaced (a b s t : Text) : Prop :=
  ∃ (pieces : List Text) (last : Text), s = pieces.flatMap (· ++ a) ++ last ∧ t = pieces.flatMap (· ++ b) ++ last ∧
    (∀ p ∈ pieces, First p a) ∧ ¬ a <:+: last

/-- `s` without every `c` that comes after another one. -/
def once (c : Byte) (s : Text) : Text :=
  (((none :: s.map some).zip s).filter fun (before, x) => !(x == c && before == some c)).map Prod.snd

/-- A byte in two hexadecimal digits. -/
def hexByte (b : Byte) : Text :=
  [b.toNat / 16, b.toNat % 16].map fun d => if d < 10 then UInt8.ofNat (48 + d) else UInt8.ofNat (55 + d)

/-- A number in hexadecimal digits, at least three. -/
def hexNumber (n : Nat) : Text := List.leftpad 3 (ch '0') ((Nat.toDigits 16 n).map fun c => toupper (ch c))

/-- The pieces of four bytes; the last one may be shorter. -/
def fours (bytes : Text) : List Text := (List.range ((bytes.length + 3) / 4)).map fun j => (bytes.drop (4 * j)).take 4

/-- A line of a dump: where it is, up to 16 bytes in groups of four, and the characters, with a dot for those that cannot be printed. -/
def dumpLine (chars : Bool) (offset : Nat) (bytes : Text) : Text :=
  str ['['] ++ hexNumber offset ++ str [']', ' '] ++ List.rightpad 35 32 (Spec.Split.join [32] ((fours bytes).map fun g => g.flatMap hexByte)) ++ [32] ++
    (if chars then (fours bytes).flatMap fun g => 32 :: g.map fun c => if isprint c then c else ch '.' else []) ++ [10]

/-- A dump. -/
def dump (chars : Bool) (data : Text) : Text :=
  (List.range ((data.length + 15) / 16)).flatMap fun i => dumpLine chars (16 * i) ((data.drop (16 * i)).take 16)

/-- A host name as it should be. -/
def Nice (t : Text) : Prop :=
  (∃ c, t.head? = some c ∧ isalnum c = true) ∧ (∃ c, t.getLast? = some c ∧ isalnum c = true) ∧
  (∀ c ∈ t, isalnum c = true ∨ c = ch '-' ∨ c = ch '.') ∧ ¬ [ch '-', ch '-'] <:+: t

/-- The characters of a name that a host name may have, with hyphens for underscores, and one hyphen of several in a row. -/
def hostChars (name : Text) : Text :=
  once (ch '-') ((name.map fun c => if c = ch '_' then ch '-' else c).filter fun c => isalnum c || c == ch '-' || c == ch '.')

end Spec.TextUtil
