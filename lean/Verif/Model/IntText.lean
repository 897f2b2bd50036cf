import Verif.Model.Key
import Verif.Model.Num
import Verif.Model.IGen
/-
Model of integers in a configuration: UniConfGen::str2int (uniconf/uniconfgen.cc:126-149), UniConf::getmeint and setmeint
(uniconf/uniconf.cc:78-92), with `strtol` as the C standard has it. A long has 64 bits. A long that is no int is converted by
dropping the high bits, as gcc does.
-/
namespace Wv.IntText
open TempGen (Value)

/-- The value of a digit; no digit has a value below the base. -/
def digitVal (c : Byte) : Nat :=
  if isdigit c then c.toNat - 48
  else if ch 'a' ≤ c && c ≤ ch 'z' then c.toNat - 87
  else if ch 'A' ≤ c && c ≤ ch 'Z' then c.toNat - 55
  else 99

def isDig (base : Nat) (c : Byte) : Bool := digitVal c < base

/-- With base 0 the base comes from the text (C11 7.22.1.4): 0x and a digit, 0, or none of these. -/
def base : List Byte → Nat × List Byte
  | [] => (10, [])
  | z :: r =>
    if z == ch '0' then
      match r with
      | x :: d :: r' => if (x == ch 'x' || x == ch 'X') && isDig 16 d then (16, d :: r') else (8, z :: r)
      | _ => (8, z :: r)
    else (10, z :: r)

/-- The digits; `none` if there are none. -/
def number (s : List Byte) : Option Nat :=
  let b := base s
  let ds := b.2.takeWhile (isDig b.1)
  if ds = [] then none else some (ds.foldl (fun n c => n * b.1 + digitVal c) 0)

/-- A value that does not fit a long becomes the nearest that does. -/
def clamp (v : Int) : Int :=
  if v < -9223372036854775808 then -9223372036854775808 else if 9223372036854775807 < v then 9223372036854775807 else v

/-- `strtol(s, &end, 0)`; `none` if `end` is `s`. -/
def strtol (s : List Byte) : Option Int :=
  let v : Option Int := match s.dropWhile isspace with
    | [] => none
    | c :: r =>
      if c == ch '-' then (number r).map fun n => -(n : Int)
      else if c == ch '+' then (number r).map fun n => (n : Int)
      else (number (c :: r)).map fun n => (n : Int)
  v.map clamp

/-- A long as an int. -/
def toInt (v : Int) : Int := (v + 2147483648) % 4294967296 - 2147483648

/-- The words (uniconf/uniconfgen.cc:129-133). -/
def words : List (List Byte) :=
  [str ['t', 'r', 'u', 'e'], str ['y', 'e', 's'], str ['o', 'n'], str ['e', 'n', 'a', 'b', 'l', 'e', 'd'],
   str ['f', 'a', 'l', 's', 'e'], str ['n', 'o'], str ['o', 'f', 'f'], str ['d', 'i', 's', 'a', 'b', 'l', 'e', 'd']]

/-- The loop over the words (uniconf/uniconfgen.cc:144-146), from the word number `i` on. -/
def word (s : List Byte) : Nat → List (List Byte) → Option Int
  | _, [] => none
  | i, w :: r => if Key.strcasecmp s w = 0 then some (if i < 4 then 1 else 0) else word s (i + 1) r

/-- `str2int(value, defvalue)` (uniconf/uniconfgen.cc:126-149). -/
def str2int (value : Option Value) (defvalue : Int) : Int :=
  match value with
  | none => defvalue
  | some s =>
    match strtol s with
    | some v => toInt v
    | none => (word s 0 words).getD defvalue

/-- `getmeint(defvalue)` (uniconf/uniconf.cc:78-81). -/
def getmeint {σ : Type} (I : IGen σ) (s : σ) (key : Key) (defvalue : Int) : Int := str2int (I.get s key) defvalue

/-- `setmeint(value)` (uniconf/uniconf.cc:90-93); `none` is undefined behaviour in the conversion to text. -/
def setmeint {σ : Type} (I : IGen σ) (s : σ) (key : Key) (value : Int) : Option σ :=
  (Num.ofSigned 32 value).map fun t => I.set s key (some t)

end Wv.IntText
