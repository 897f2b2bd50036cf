import Verif.Model.Encoder
import Verif.Spec.Gzip
/-
Model of WvGzipEncoder: utils/wvgzip.cc, include/wvgzip.h. zlib is a parameter (`Zlib`), see Spec/Gzip. `ignore_decompression_errors` is off.
-/
namespace Wv.Gzip
open Spec.Gzip

/-- The fields: zlib's state, `output` (include/wvgzip.h:86). `stuck`: the loop of `process` did not end. -/
structure Gz (σ : Type) where
  z : σ
  output : Nat
  stuck : Bool

/-- The buffer is of this size (utils/wvgzip.cc:11). -/
def zbufsize : Nat := 10240

/-- `out_limit - output`, with unsigned numbers of 64 bits. -/
def sub64 (a b : Nat) : Nat := (a + 2 ^ 64 - b) % 2 ^ 64

/-- The room for the next call (utils/wvgzip.cc:129-132). -/
def room (limit output : Nat) : Nat :=
  if limit = 0 then zbufsize else if zbufsize < sub64 limit output then zbufsize else sub64 limit output

/-- What the loop works on: the fields, what zlib did not take yet, what it wrote. -/
structure Loop (σ : Type) where
  g : Gz σ
  inp : List Byte
  out : List Byte

/-- The loop in `process` (utils/wvgzip.cc:124-151), with the last result; fuel `bound` (see Spec/Gzip) instead of `while`. -/
def loop {σ : Type} (Z : Zlib σ) (limit : Nat) (f : Flush) : Nat → Loop σ → Loop σ × Ret
  | 0, l => ({ l with g := { l.g with stuck := true } }, .err)
  | n + 1, l =>
    let r := Z.call l.g.z f l.inp (room limit l.g.output)
    let l' : Loop σ := ⟨⟨r.st, l.g.output + r.out.length, l.g.stuck⟩, l.inp.drop r.used, l.out ++ r.out⟩
    if r.ret = .ok ∧ (limit = 0 ∨ l'.g.output < limit) then loop Z limit f n l' else (l', r.ret)

/-- `WvGzipEncoder::process` (utils/wvgzip.cc:119-166): the encoder, the output, what zlib did not take, success. `full` is `full_flush`. -/
def process {σ : Type} (Z : Zlib σ) (limit : Nat) (full : Bool) (e : Enc (Gz σ)) (inp out : List Byte) (flush fin : Bool) :
    Enc (Gz σ) × List Byte × List Byte × Bool :=
  let f : Flush := if fin then .finish else if flush then (if full then .full else .sync) else .none
  let (l, r) := loop Z limit f (Z.bound e.st.z f inp + 1) ⟨e.st, inp, out⟩
  let e := { e with st := l.g }
  match r with
  | .fin => (e.setfinished, l.inp, l.out, true)
  | .ok => (e, l.inp, l.out, true)
  | .buf => (e, l.inp, l.out, true)
  | .err => (e.seterror, l.inp, l.out, false)

/-- The loop in `_encode` (utils/wvgzip.cc:69-88), `prepare` (103-116). `opt` says how much of the input lies in one piece (`optgettable`). Fuel: the size of the input. -/
def encLoop {σ : Type} (Z : Zlib σ) (limit : Nat) (full : Bool) (opt : List Byte → Nat) (flush : Bool) : Nat → Enc (Gz σ) → Io → Enc (Gz σ) × Io × Bool
  | 0, e, io => ({ e with st := { e.st with stuck := true } }, io, false)
  | n + 1, e, io =>
    let avail := if io.inb.length ≠ 0 then opt io.inb else 0
    let got := io.inb.take avail
    let rest := io.inb.drop avail
    let alldata := rest.length == 0
    let (e, left, out, success) := process Z limit full e got io.out (flush && alldata) false
    let io' : Io := ⟨left ++ rest, out⟩
    if !success then (e, io', false)
    else if alldata || io.inb.length == io'.inb.length || (limit != 0 && decide (limit ≤ e.st.output)) then (e, io', true)
    else encLoop Z limit full opt flush n e io'

/-- `_encode` (utils/wvgzip.cc:65-89), `_finish` (92-96), `_reset` (99-104). -/
def impl {σ : Type} (Z : Zlib σ) (limit : Nat) (full : Bool) (opt : List Byte → Nat) : EncImpl (Gz σ) where
  encode' e io flush := encLoop Z limit full opt flush (io.inb.length + 1) { e with st := { e.st with output := 0 } } io
  finish' e io :=
    let (e, _, out, success) := process Z limit full e [] io.out false true
    (e, { io with out := out }, success)
  reset' e := ({ e with st := ⟨Z.init, e.st.output, e.st.stuck⟩ }, true)

/-- A new encoder; `output` is not initialised (utils/wvgzip.cc:14-20). -/
def new {σ : Type} (Z : Zlib σ) (junk : Nat) : Enc (Gz σ) := { st := ⟨Z.init, junk, false⟩ }

/-- The user's calls: put something in the input and encode, with or without flush. -/
def feed {σ : Type} (I : EncImpl (Gz σ)) (e : Enc (Gz σ)) (io : Io) : List (List Byte × Bool) → Enc (Gz σ) × Io
  | [] => (e, io)
  | (x, fl) :: l =>
    let r := I.encode e { io with inb := io.inb ++ x } fl false
    feed I r.1 r.2.1 l

end Wv.Gzip
