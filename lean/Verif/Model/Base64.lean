import Verif.Model.Encoder
/-
Model of utils/wvbase64.cc.
-/
namespace Wv.Base64

/-- `alphabet` (utils/wvbase64.cc:18-19): 64 digits, then '=' and newline. -/
def alphabet : List Byte := str
  ['A', 'B', 'C', 'D', 'E', 'F', 'G', 'H', 'I', 'J', 'K', 'L', 'M', 'N', 'O', 'P', 'Q', 'R', 'S', 'T', 'U', 'V', 'W',
   'X', 'Y', 'Z', 'a', 'b', 'c', 'd', 'e', 'f', 'g', 'h', 'i', 'j', 'k', 'l', 'm', 'n', 'o', 'p', 'q', 'r', 's', 't',
   'u', 'v', 'w', 'x', 'y', 'z', '0', '1', '2', '3', '4', '5', '6', '7', '8', '9', '+', '/', '=', '\n']

/-- `alphabet[i]`. The code would read outside the array for i > 66; `Wv.Base64.enc_index_lt` shows that the index is
    always below 64. -/
def alphabetAt (i : Nat) : Byte := alphabet.getD i 0

/-- `lookup` (utils/wvbase64.cc:22-40). (The parameter is a signed `char`: bytes of 128 and above are negative there
    and match no range, exactly as here.) -/
def lookup (c : Byte) : Int :=
  if ch 'A' ≤ c ∧ c ≤ ch 'Z' then (c.toNat : Int) - 65
  else if ch 'a' ≤ c ∧ c ≤ ch 'z' then (c.toNat : Int) - 97 + 26
  else if ch '0' ≤ c ∧ c ≤ ch '9' then (c.toNat : Int) - 48 + 52
  else if c = ch '+' then 62
  else if c = ch '/' then 63
  else if c = ch '=' then 64
  else if c = 10 ∨ c = 32 ∨ c = 13 ∨ c = 9 ∨ c = 12 ∨ c = 11 then 65
  else -1

/-- `WvBase64Encoder::State` (include/wvbase64.h:22-24). -/
inductive EState | atbit0 | atbit2 | atbit4
deriving DecidableEq, Repr

/-- Fields of WvBase64Encoder (include/wvbase64.h:25-26). `bits` is `unsigned int`; it never exceeds 12 bits. -/
structure ESt where
  state : EState := .atbit0
  bits : Nat := 0
deriving DecidableEq, Repr

/-- One turn of the loop of `WvBase64Encoder::_encode` (utils/wvbase64.cc:64-84): new state and characters put. -/
def encByte (s : ESt) (next : Byte) : ESt × List Byte :=
  let bits := (s.bits <<< 8) ||| next.toNat
  match s.state with
  | .atbit0 => (⟨.atbit2, bits &&& 0x03⟩, [alphabetAt (bits >>> 2)])
  | .atbit2 => (⟨.atbit4, bits &&& 0x0f⟩, [alphabetAt (bits >>> 4)])
  | .atbit4 => (⟨.atbit0, 0⟩, [alphabetAt (bits >>> 6), alphabetAt (bits &&& 0x3f)])

/-- The loop of `WvBase64Encoder::_encode` (utils/wvbase64.cc:62-85). -/
def encLoop (s : ESt) : List Byte → ESt × List Byte
  | [] => (s, [])
  | c :: cs =>
    let (s, o) := encByte s c
    let (s, o') := encLoop s cs
    (s, o ++ o')

/-- `WvBase64Encoder::_encode` (utils/wvbase64.cc:59-90). -/
def enc_encode (e : Enc ESt) (io : Io) (flush : Bool) : Enc ESt × Io × Bool :=
  let (s, o) := encLoop e.st io.inb
  ({ e with st := s }, ⟨[], io.out ++ o⟩, !(flush && s.state != .atbit0))

/-- `WvBase64Encoder::_finish` (utils/wvbase64.cc:93-111). -/
def enc_finish (e : Enc ESt) (io : Io) : Enc ESt × Io × Bool :=
  let pad := match e.st.state with
    | .atbit2 => [alphabetAt (e.st.bits <<< 4), ch '=', ch '=']
    | .atbit4 => [alphabetAt (e.st.bits <<< 2), ch '=']
    | .atbit0 => []
  (e, { io with out := io.out ++ pad }, true)

/-- WvBase64Encoder (utils/wvbase64.cc:45-111). -/
def encoder : EncImpl ESt where
  encode' := enc_encode
  finish' := enc_finish
  reset' e := ({ e with st := {} }, true)

/-- `WvBase64Decoder::State` (include/wvbase64.h:51-53). -/
inductive DState | atbit0 | atbit2 | atbit4 | atbit6 | pad
deriving DecidableEq, Repr

/-- Fields of WvBase64Decoder (include/wvbase64.h:54-55). -/
structure DSt where
  state : DState := .atbit0
  bits : Nat := 0
deriving DecidableEq, Repr

/-- The loop of `WvBase64Decoder::_encode` (utils/wvbase64.cc:134-184). Returns the encoder, the unread input, the
    characters put and whether the loop ended normally (false: `return false` after `seterror`).
    `putch` truncates its argument to a byte. -/
def decLoop (e : Enc DSt) : List Byte → Enc DSt × List Byte × List Byte × Bool
  | [] => (e, [], [], true)
  | next :: rest =>
    let symbol := lookup next
    if symbol = -1 then (e.seterror, rest, [], false)
    else if symbol = 64 then
      decLoop { e with finished := true, st := { e.st with state := .pad } } rest
    else if symbol = 65 then decLoop e rest
    else
      let bits := (e.st.bits <<< 6) ||| symbol.toNat
      match e.st.state with
      | .atbit0 => decLoop { e with st := ⟨.atbit2, bits⟩ } rest
      | .atbit2 =>
        let (e', r, o, ok) := decLoop { e with st := ⟨.atbit4, bits &&& 0x0f⟩ } rest
        (e', r, UInt8.ofNat (bits >>> 4) :: o, ok)
      | .atbit4 =>
        let (e', r, o, ok) := decLoop { e with st := ⟨.atbit6, bits &&& 0x03⟩ } rest
        (e', r, UInt8.ofNat (bits >>> 2) :: o, ok)
      | .atbit6 =>
        let (e', r, o, ok) := decLoop { e with st := ⟨.atbit0, 0⟩ } rest
        (e', r, UInt8.ofNat bits :: o, ok)
      | .pad => ({ e with okay := false, st := { e.st with bits := bits } }, rest, [], false)

/-- `WvBase64Decoder::_encode` (utils/wvbase64.cc:131-189). -/
def dec_encode (e : Enc DSt) (io : Io) (flush : Bool) : Enc DSt × Io × Bool :=
  let (e, rest, o, ok) := decLoop e io.inb
  (e, ⟨rest, io.out ++ o⟩,
    ok && !(flush && (e.st.state == .atbit2 || e.st.state == .atbit4 || e.st.state == .atbit6)))

/-- WvBase64Decoder (utils/wvbase64.cc:117-189). -/
def decoder : EncImpl DSt where
  encode' := dec_encode
  reset' e := ({ e with st := {} }, true)

/-- A new encoder (utils/wvbase64.cc:45-48 and utils/wvencoder.cc:11-15). -/
def newEncoder : Enc ESt := { st := {} }

/-- A new decoder (utils/wvbase64.cc:117-120 and utils/wvencoder.cc:11-15). -/
def newDecoder : Enc DSt := { st := {} }

end Wv.Base64
