import Verif.Model.Encoder
/-
Model of utils/wvhex.cc.
-/
namespace Wv.Hex

/-- `tohex` with `alphabase = (use_uppercase ? 'A' : 'a') - 10` (utils/wvhex.cc:11-14, 29). -/
def tohex (digit : Nat) (upper : Bool) : Byte :=
  if digit < 10 then ch '0' + UInt8.ofNat digit
  else (if upper then ch 'A' else ch 'a') - 10 + UInt8.ofNat digit

/-- `fromhex` (utils/wvhex.cc:16-23); only called on hex digits. -/
def fromhex (digit : Byte) : Nat :=
  if isdigit digit then digit.toNat - 48
  else if isupper digit then digit.toNat - 65 + 10
  else digit.toNat - 97 + 10

/-- The loop of `WvHexEncoder::_encode` (utils/wvhex.cc:42-47). -/
def encLoop (upper : Bool) : List Byte → List Byte
  | [] => []
  | byte :: rest => tohex (byte.toNat >>> 4) upper :: tohex (byte.toNat &&& 15) upper :: encLoop upper rest

/-- WvHexEncoder (utils/wvhex.cc:27-49). The only field, `alphabase`, is constant: it is the parameter `upper`. -/
def encoder (upper : Bool) : EncImpl Unit where
  encode' e io _flush := (e, ⟨[], io.out ++ encLoop upper io.inb⟩, true)
  reset' e := (e, true)

/-- Fields of WvHexDecoder (utils/wvhex.cc:60-65). -/
structure DSt where
  issecond : Bool := false
  first : Nat := 0
deriving DecidableEq, Repr

/-- The loop of `WvHexDecoder::_encode` (utils/wvhex.cc:70-86). Same result shape as `Base64.decLoop`. -/
def decLoop (e : Enc DSt) : List Byte → Enc DSt × List Byte × List Byte × Bool
  | [] => (e, [], [], true)
  | c :: rest =>
    if isxdigit c then
      let digit := fromhex c
      if !e.st.issecond then decLoop { e with st := ⟨true, digit⟩ } rest
      else
        let (e', r, o, ok) := decLoop { e with st := { e.st with issecond := false } } rest
        (e', r, UInt8.ofNat ((e.st.first <<< 4) ||| digit) :: o, ok)
    else if isspace c then decLoop e rest
    else (e.seterror, rest, [], false)

/-- WvHexDecoder (utils/wvhex.cc:54-90). -/
def decoder : EncImpl DSt where
  encode' e io flush :=
    let (e, rest, o, ok) := decLoop e io.inb
    (e, ⟨rest, io.out ++ o⟩, ok && !(flush && e.st.issecond))
  reset' e := ({ e with st := {} }, true)

def newEncoder : Enc Unit := { st := () }
def newDecoder : Enc DSt := { st := {} }

end Wv.Hex
