import Verif.Model.IntText
/-
Model of UUIDs as text: xplc-cxx/strtouuid.cc and xplc-cxx/uuidtostr.cc, with `strtoul` as the C standard has it. An unsigned
long has 64 bits.
-/
namespace Wv.Uuid
open Wv IntText

/-- The structure (include/xplc/uuid.h:53-60). A byte that was never written is `none`. -/
structure Raw where
  d1 : UInt32
  d2 : UInt16
  d3 : UInt16
  d4 : List (Option Byte)
deriving DecidableEq, Repr

/-- `UUID_null` (include/xplc/uuid.h:74). -/
def null : Raw := ⟨0, 0, 0, List.replicate 8 (some 0)⟩

/-- The sign that `strtoul` takes: whether it is a minus, and its length. -/
def sign : List Byte → Bool × Nat
  | c :: _ => if c == ch '-' then (true, 1) else if c == ch '+' then (false, 1) else (false, 0)
  | [] => (false, 0)

/-- The length of a prefix 0x, which must be followed by a digit. -/
def pfx : List Byte → Nat
  | z :: x :: d :: _ => if z == ch '0' && (x == ch 'x' || x == ch 'X') && isDig 16 d then 2 else 0
  | _ => 0

/-- `strtoul(s, &end, 16)`: the value, and how many bytes `end` is after `s` (C11 7.22.1.4). -/
def strtoul16 (s : List Byte) : Nat × Nat :=
  let ws := (s.takeWhile isspace).length
  let s1 := s.drop ws
  let sg := sign s1
  let s2 := s1.drop sg.2
  let px := pfx s2
  let ds := (s2.drop px).takeWhile (isDig 16)
  if ds = [] then (0, 0)
  else
    let n := ds.foldl (fun n c => n * 16 + digitVal c) 0
    let v := if 18446744073709551615 < n then 18446744073709551615
      else if sg.1 then (18446744073709551616 - n) % 18446744073709551616 else n
    (v, ws + sg.2 + px + ds.length)

/-- A number that must be `n` bytes long (xplc-cxx/strtouuid.cc:50-53 and others). -/
def field (n : Nat) (s : List Byte) : Option (Nat × List Byte) :=
  let r := strtoul16 s
  if r.2 = n then some (r.1, s.drop n) else none

/-- `if(*str != c) break; ++str;`. -/
def sep (c : Byte) : List Byte → Option (List Byte)
  | [] => none
  | x :: r => if x == c then some r else none

/-- Two digits, copied out with `strncpy` (xplc-cxx/strtouuid.cc:80-84). -/
def pair (s : List Byte) : Option (Byte × List Byte) :=
  let r := strtoul16 (s.take 2)
  if r.2 = 2 then some (UInt8.ofNat r.1, s.drop 2) else none

/-- The loop over the last bytes (xplc-cxx/strtouuid.cc:96-102). The `break` in it leaves only this loop. -/
def pairs : Nat → List Byte → List (Option Byte) × List Byte
  | 0, s => ([], s)
  | n + 1, s =>
    match pair s with
    | none => (List.replicate (n + 1) none, s)
    | some (b, r) => (some b :: (pairs n r).1, (pairs n r).2)

/-- What is done within `do ... while(0)` (xplc-cxx/strtouuid.cc:44-113); `none` is leaving it before `ok = true`. -/
def body (format1 : Bool) (s : List Byte) : Option Raw :=
  match field 8 s with
  | none => none
  | some (d1, s) =>
  match sep (ch '-') s with
  | none => none
  | some s =>
  match field 4 s with
  | none => none
  | some (d2, s) =>
  match sep (ch '-') s with
  | none => none
  | some s =>
  match field 4 s with
  | none => none
  | some (d3, s) =>
  match sep (ch '-') s with
  | none => none
  | some s =>
  match pair s with
  | none => none
  | some (b0, s) =>
  match pair s with
  | none => none
  | some (b1, s) =>
  match sep (ch '-') s with
  | none => none
  | some s =>
  let p := pairs 6 s
  match if format1 then sep (ch '}') p.2 else some p.2 with
  | none => none
  | some s => if s = [] then some ⟨UInt32.ofNat d1, UInt16.ofNat d2, UInt16.ofNat d3, some b0 :: some b1 :: p.1⟩ else none

/-- `UuidFromString` (xplc-cxx/strtouuid.cc:37-119). -/
def fromString (s : List Byte) : Raw :=
  match s with
  | [] => (body false s).getD null
  | c :: r => (if c == ch '{' then body true r else body false s).getD null

/-- One hexadecimal digit as `%x` has it. -/
def hexDigit (n : Nat) : Byte := if n < 10 then ch '0' + UInt8.ofNat n else ch 'a' + UInt8.ofNat (n - 10)

/-- `%0wx` for a number that fits. -/
def hex : Nat → Nat → List Byte
  | 0, _ => []
  | w + 1, n => hex w (n / 16) ++ [hexDigit (n % 16)]

/-- `UuidToString` (xplc-cxx/uuidtostr.cc:36-44), for a structure that is written completely. -/
def toString (d1 : UInt32) (d2 d3 : UInt16) (d4 : List Byte) : List Byte :=
  ch '{' :: (hex 8 d1.toNat ++ ch '-' :: (hex 4 d2.toNat ++ ch '-' :: (hex 4 d3.toNat ++ ch '-' ::
    ((d4.take 2).flatMap (fun b => hex 2 b.toNat) ++ ch '-' :: ((d4.drop 2).flatMap (fun b => hex 2 b.toNat) ++ [ch '}'])))))

end Wv.Uuid
