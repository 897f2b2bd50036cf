import Verif.Model.Encoder
/-
Model of utils/wvbackslash.cc.

Simplification: the output buffer is unlimited (`Io`), so the branches taken when it is full (lines 58-59, 78-79, 96-97,
125-126, 224-228) are not modelled (they call unget on the wrong buffer, or with the wrong count; see DESIGN.md).
-/
namespace Wv.Backslash

/-- `escapein` (utils/wvbackslash.cc:10). -/
def escapein : List Byte := [7, 8, 12, 10, 13, 9, 11]
/-- `escapeout` (utils/wvbackslash.cc:11). -/
def escapeout : List Byte := str ['a', 'b', 'f', 'n', 'r', 't', 'v']

/-- `strchr(s, c) - s` for a C string (as list of its non-NUL bytes) and `c ≠ 0`. -/
def strchrIdx (s : List Byte) (c : Byte) : Option Nat := s.findIdx? (· == c)

/-- `tohex` (utils/wvbackslash.cc:13-16). -/
def tohex (digit : Nat) : Byte := (if digit < 10 then ch '0' else ch 'a' - 10) + UInt8.ofNat digit

/-- `fromhex` (utils/wvbackslash.cc:18-27); `none` is -1. -/
def fromhex (digit : Byte) : Option Nat :=
  if isdigit digit then some (digit.toNat - 48)
  else if ch 'A' ≤ digit ∧ digit ≤ ch 'F' then some (digit.toNat - 65 + 10)
  else if ch 'a' ≤ digit ∧ digit ≤ ch 'f' then some (digit.toNat - 97 + 10)
  else none

/-- `fromoctal` (utils/wvbackslash.cc:29-34). -/
def fromoctal (digit : Byte) : Option Nat :=
  if ch '0' ≤ digit ∧ digit ≤ ch '7' then some (digit.toNat - 48) else none

/-- The body of the inner loop of `WvBackslashEncoder::_encode` (utils/wvbackslash.cc:53-102): what is put for byte `c`.
    `isprint` is that of the C locale. -/
def encByte (nasties : List Byte) (c : Byte) : List Byte :=
  let foundnasty := if c ≠ 0 then strchrIdx nasties c else none
  let foundspecial := if c ≠ 0 ∧ foundnasty = none then strchrIdx escapein c else none
  if c ≠ 0 ∧ foundnasty = none ∧ foundspecial = none ∧ isprint c then [c]
  else if foundnasty ≠ none then [ch '\\', c]
  else match foundspecial with
    | some k => [ch '\\', escapeout.getD k 0]
    | none => [ch '\\', ch 'x', tohex (c.toNat >>> 4), tohex (c.toNat &&& 15)]

/-- The loops of `WvBackslashEncoder::_encode` (utils/wvbackslash.cc:50-103). -/
def encLoop (nasties : List Byte) : List Byte → List Byte
  | [] => []
  | c :: cs => encByte nasties c ++ encLoop nasties cs

/-- WvBackslashEncoder (utils/wvbackslash.cc:39-111). -/
def encoder (nasties : List Byte) : EncImpl Unit where
  encode' e io _flush := (e, ⟨[], io.out ++ encLoop nasties io.inb⟩, true)
  reset' e := (e, true)

/-- The default set of characters to escape (include/wvbackslash.h:33): backslash and double quote. -/
def defaultNasties : List Byte := str ['\\', '"']

/-- `WvBackslashDecoder::State` (include/wvbackslash.h:67-68). -/
inductive State | Initial | Escape | Hex1 | Hex2 | Octal1 | Octal2 | Octal3
deriving DecidableEq, Repr

/-- Fields of WvBackslashDecoder (include/wvbackslash.h:69-71). `tmpbuf` holds at most 4 bytes in the code:
    `Wv.Backslash.tmp_le` shows the model never has more. `value` = -1 is `none`. -/
structure DSt where
  state : State := .Initial
  tmp : List Byte := []
  value : Option Nat := none
deriving DecidableEq, Repr

/-- `flushtmpbuf` (utils/wvbackslash.cc:252-277) with room in `outbuf`: new state, bytes put out. -/
def flushtmp (s : DSt) : DSt × List Byte :=
  if s.state ≠ .Initial then (s, [])
  else
    let tmp := match s.value with
      | some v => s.tmp ++ [UInt8.ofNat v]
      | none => s.tmp
    ({ s with tmp := [], value := none }, tmp)

/-- The `switch` of the inner loop (utils/wvbackslash.cc:138-221). The boolean tells that `i -= 1` was executed.
    `strchr(escapeout, 0)` finds the final NUL, at which `escapein` also has its NUL: c stays 0. -/
def switch (s : DSt) (c : Byte) : DSt × Bool :=
  match s.state with
  | .Initial =>
    ({ s with state := if c = ch '\\' then .Escape else .Initial, tmp := s.tmp ++ [c] }, false)
  | .Escape =>
    if ch '0' ≤ c ∧ c ≤ ch '3' then
      ({ s with tmp := s.tmp.dropLast, value := some (c.toNat - 48), state := .Octal1 }, false)
    else if c = ch 'x' then ({ s with tmp := s.tmp ++ [c], state := .Hex1 }, false)
    else if c = 10 then ({ s with tmp := s.tmp.dropLast ++ [10], state := .Initial }, false)
    else
      let c' := match strchrIdx escapeout c with
        | some k => escapein.getD k 0
        | none => c
      ({ s with tmp := s.tmp.dropLast ++ [c'], state := .Initial }, false)
  | .Hex1 =>
    match fromhex c with
    | some d => ({ s with tmp := s.tmp.dropLast.dropLast, value := some d, state := .Hex2 }, false)
    | none => ({ s with state := .Initial }, true)
  | .Hex2 =>
    match fromhex c with
    | some d => ({ s with value := some ((s.value.getD 0 <<< 4) ||| d), state := .Initial }, false)
    | none => ({ s with state := .Initial }, true)
  | .Octal1 =>
    match fromoctal c with
    | some d => ({ s with value := some ((s.value.getD 0 <<< 3) ||| d), state := .Octal2 }, false)
    | none => ({ s with state := .Initial }, true)
  | .Octal2 =>
    match fromoctal c with
    | some d => ({ s with value := some ((s.value.getD 0 <<< 3) ||| d), state := .Octal3 }, false)
    | none => ({ s with state := .Initial }, true)
  | .Octal3 =>
    match fromoctal c with
    | some d => ({ s with value := some ((s.value.getD 0 <<< 3) ||| d), state := .Initial }, false)
    | none => ({ s with state := .Initial }, true)

/-- One byte of input: the `switch`, then `flushtmpbuf` (line 223), and once more with the same byte if `i -= 1` was
    executed (the state is then `Initial`, in which that cannot happen again). -/
def decByte (s : DSt) (c : Byte) : DSt × List Byte :=
  let (s1, redo) := switch s c
  let (s1, o1) := flushtmp s1
  if redo then
    let (s2, _) := switch s1 c
    let (s2, o2) := flushtmp s2
    (s2, o1 ++ o2)
  else (s1, o1)

/-- The loops of `WvBackslashDecoder::_encode` (utils/wvbackslash.cc:130-230). -/
def decLoop (s : DSt) : List Byte → DSt × List Byte
  | [] => (s, [])
  | c :: cs =>
    let (s, o) := decByte s c
    let (s, o') := decLoop s cs
    (s, o ++ o')

/-- `WvBackslashDecoder::_encode` (utils/wvbackslash.cc:122-240). -/
def dec_encode (e : Enc DSt) (io : Io) (flush : Bool) : Enc DSt × Io × Bool :=
  let (s, o1) := flushtmp e.st
  let (s, o2) := decLoop s io.inb
  let (s, o3) := if flush then flushtmp { s with state := .Initial } else (s, [])
  ({ e with st := s }, ⟨[], io.out ++ o1 ++ o2 ++ o3⟩, true)

/-- WvBackslashDecoder (utils/wvbackslash.cc:116-277). -/
def decoder : EncImpl DSt where
  encode' := dec_encode
  reset' e := ({ e with st := {} }, true)

def newEncoder : Enc Unit := { st := () }
def newDecoder : Enc DSt := { st := {} }

end Wv.Backslash
