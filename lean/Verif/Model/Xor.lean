import Verif.Model.Encoder
/- Model of crypto/wvxor.cc (the encoder). -/
namespace Wv.Xor

/-- The inner loop of `WvXOREncoder::_encode` (crypto/wvxor.cc:35-39). `keyoff` is the only field that changes.
    With an empty key the code computes `keyoff %= 0`, which is undefined: the theorems ask for a non-empty key. -/
def loop (key : List Byte) (keyoff : Nat) : List Byte → Nat × List Byte
  | [] => (keyoff, [])
  | d :: ds =>
    let c := d ^^^ key.getD keyoff 0
    let (k, o) := loop key ((keyoff + 1) % key.length) ds
    (k, c :: o)

/-- WvXOREncoder (crypto/wvxor.cc:12-42). It does not override `_reset`, whose default says "not supported"
    (include/wvencoder.h:498-499). -/
def encoder (key : List Byte) : EncImpl Nat where
  encode' e io _flush :=
    let (k, o) := loop key e.st io.inb
    ({ e with st := k }, ⟨[], io.out ++ o⟩, true)
  reset' e := (e, false)

/-- A new encoder (crypto/wvxor.cc:12-17). -/
def new : Enc Nat := { st := 0 }

end Wv.Xor
