import Verif.Model.Encoder
/-
Model of crypto/wvcountermode.cc.

Simplifications: the underlying encoder `keycrypt` is a function `block` from counters to blocks that never fails. (If it
fails in the flush branch, line 73 computes a negative number of bytes to take back; see DESIGN.md.) The in-place XOR
over the output buffer is done at once (`zipWith`) instead of in contiguous pieces.
-/
namespace Wv.Ctr

/-- `incrcounter` (crypto/wvcountermode.cc:40-43): little-endian increment with wrap-around. -/
def incr : List Byte → List Byte
  | [] => []
  | b :: bs => if b + 1 = 0 then 0 :: incr bs else (b + 1) :: bs

/-- The key stream loop (crypto/wvcountermode.cc:54-61), which runs `avail / countersize` times:
    counter afterwards, key stream bytes. (For `countersize` = 0 the code loops for ever.) -/
def gen (block : List Byte → List Byte) : Nat → List Byte → List Byte × List Byte
  | 0, c => (c, [])
  | k + 1, c =>
    let (c', ks) := gen block k (incr c)
    (c', block c ++ ks)

/-- `WvCounterModeEncoder::_encode` (crypto/wvcountermode.cc:46-101). The state is the counter. -/
def encode' (block : List Byte → List Byte) (e : Enc (List Byte)) (io : Io) (flush : Bool) :
    Enc (List Byte) × Io × Bool :=
  let avail := io.inb.length
  let countersize := e.st.length
  let (c, ks) := gen block (avail / countersize) e.st
  let len := avail % countersize
  let (c, ks, len) :=
    if flush ∧ len ≠ 0 then
      let ks := ks ++ block c
      (incr c, ks.take (ks.length - (countersize - len)), 0)
    else (c, ks, len)
  let avail := avail - len
  ({ e with st := c }, ⟨io.inb.drop avail, io.out ++ List.zipWith (· ^^^ ·) ks (io.inb.take avail)⟩, true)

/-- WvCounterModeEncoder (crypto/wvcountermode.cc). `_reset` is the default: not supported. -/
def encoder (block : List Byte → List Byte) : EncImpl (List Byte) where
  encode' := encode' block
  reset' e := (e, false)

/-- A new encoder (crypto/wvcountermode.cc:10-15, 25-31). -/
def new (counter : List Byte) : Enc (List Byte) := { st := counter }

end Wv.Ctr
