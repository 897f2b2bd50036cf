import Verif.Spec.Num
import Verif.Spec.Split
/- The arguments of a D-Bus message: what they mean as numbers and as text, independent of the model. -/
namespace Spec.BusArgs
open Wv

/-- An argument. The bits of the integers and of the double are those in the message. `other` is an argument of a type the library does not
    know, by its type letter. -/
inductive Arg where
  | byte (b : BitVec 8)
  | bool (b : Bool)
  | i16 (b : BitVec 16)
  | u16 (b : BitVec 16)
  | i32 (b : BitVec 32)
  | u32 (b : BitVec 32)
  | i64 (b : BitVec 64)
  | u64 (b : BitVec 64)
  | double (b : BitVec 64)
  | str (s : List Byte)
  | variant (a : Arg)
  | struct (l : List Arg)
  | array (l : List Arg)
  | other (t : Byte)

/-- The number an argument stands for. -/
def number : Arg → Option Int
  | .byte b => some b.toNat
  | .bool b => some (if b then 1 else 0)
  | .i16 b => some b.toInt
  | .u16 b => some b.toNat
  | .i32 b => some b.toInt
  | .u32 b => some b.toNat
  | .i64 b => some b.toInt
  | .u64 b => some b.toNat
  | .variant a => number a
  | _ => none

/-- How many values the type of a number has. -/
def size : Arg → Int
  | .byte _ => 256
  | .bool _ => 256
  | .i16 _ | .u16 _ => 65536
  | .i32 _ | .u32 _ => 4294967296
  | .variant a => size a
  | _ => 18446744073709551616

mutual
/-- The text of an argument; `d` gives the texts of doubles. -/
def text (d : BitVec 64 → List Byte) : Arg → List Byte
  | .byte b => Spec.Num.decimal b.toNat
  | .bool b => Spec.Num.decimal (if b then 1 else 0)
  | .i16 b => Spec.Num.decimal b.toInt
  | .u16 b => Spec.Num.decimal b.toNat
  | .i32 b => Spec.Num.decimal b.toInt
  | .u32 b => Spec.Num.decimal b.toNat
  | .i64 b => Spec.Num.decimal b.toInt
  | .u64 b => Spec.Num.decimal b.toNat
  | .double b => d b
  | .str s => s
  | .variant a => ch '{' :: (text d a ++ [ch '}'])
  | .struct l => ch '[' :: (Spec.Split.join [ch ','] (texts d l) ++ [ch ']'])
  | .array l => ch '[' :: (Spec.Split.join [ch ','] (texts d l) ++ [ch ']'])
  | .other t => str ['U', 'N', 'K', 'N', 'O', 'W', 'N', '_', 'T', 'Y', 'P', 'E', '('] ++ [t, ch ')']
def texts (d : BitVec 64 → List Byte) : List Arg → List (List Byte)
  | [] => []
  | a :: l => text d a :: texts d l
end

mutual
/-- No smallest 64-bit number in it, and no container of twenty or more. -/
def Fits : Arg → Prop
  | .i64 b => b.toInt ≠ -9223372036854775808
  | .variant a => Fits a
  | .struct l => l.length < 20 ∧ FitsAll l
  | .array l => l.length < 20 ∧ FitsAll l
  | _ => True
def FitsAll : List Arg → Prop
  | [] => True
  | a :: l => Fits a ∧ FitsAll l
end

/-- The calls that add to a message. -/
inductive Op where
  | bool (b : Bool)
  | schar (c : BitVec 8)
  | uchar (c : BitVec 8)
  | i16 (b : BitVec 16)
  | u16 (b : BitVec 16)
  | i32 (b : BitVec 32)
  | u32 (b : BitVec 32)
  | i64 (b : BitVec 64)
  | u64 (b : BitVec 64)
  | double (b : BitVec 64)
  | str (s : Option (List Byte))
  | variantStart | variantEnd
  | structStart | structEnd
  | arrayStart | arrayEnd
  | varrayStart | varrayEnd

mutual
/-- The calls that add an argument. -/
def calls : Arg → List Op
  | .byte b => [.uchar b]
  | .bool b => [.bool b]
  | .i16 b => [.i16 b]
  | .u16 b => [.u16 b]
  | .i32 b => [.i32 b]
  | .u32 b => [.u32 b]
  | .i64 b => [.i64 b]
  | .u64 b => [.u64 b]
  | .double b => [.double b]
  | .str s => [.str (some s)]
  | .variant a => .variantStart :: (calls a ++ [.variantEnd])
  | .struct l => .structStart :: (callsAll l ++ [.structEnd])
  | .array l => .arrayStart :: (callsAll l ++ [.arrayEnd])
  | .other _ => []
def callsAll : List Arg → List Op
  | [] => []
  | a :: l => calls a ++ callsAll l
end

mutual
/-- Of types the library can write. -/
def Known : Arg → Prop
  | .variant a => Known a
  | .struct l => KnownAll l
  | .array l => KnownAll l
  | .other _ => False
  | _ => True
def KnownAll : List Arg → Prop
  | [] => True
  | a :: l => Known a ∧ KnownAll l
end

/-- How many containers a call opens. -/
def opens : Op → Int
  | .variantStart | .structStart | .arrayStart => 1
  | .varrayStart => 2
  | .variantEnd | .structEnd | .arrayEnd => -1
  | .varrayEnd => -2
  | _ => 0

end Spec.BusArgs
