import Verif.Model.Encoder
/-
Model of WvNullEncoder, WvPassthroughEncoder and WvEncoderChain (utils/wvencoder.cc:165-309).

Not modelled: adding and removing elements (utils/wvencoder.cc:312-360) and `continue_encode` (290-295), which
restarts in the middle of the chain.
-/
namespace Wv

/-- WvNullEncoder (utils/wvencoder.cc:167-177). -/
def nullEncoder : EncImpl Unit where
  encode' e io _flush := (e, { io with inb := [] }, true)
  reset' e := (e, true)

/-- WvPassthroughEncoder (utils/wvencoder.cc:183-201). The state is `total`. -/
def passthrough : EncImpl Nat where
  encode' e io _flush := ({ e with st := e.st + io.inb.length }, ⟨[], io.out ++ io.inb⟩, true)
  reset' e := ({ e with st := 0 }, true)

namespace Chain

/-- `WvEncoderChain::ChainElem` (include/wvencoder.h:573-587): an encoder with its state, and the buffer it writes to. -/
structure Elem where
  {σ : Type}
  I : EncImpl σ
  e : Enc σ
  out : List Byte := []

/-- `do_encode` (utils/wvencoder.cc:254-274) with `start_after` NULL. `t` is the content of `*tmpin`. Returns the
    elements, what is left in `*tmpin`, what the final `out.merge(*tmpin)` moves to `out`, and `success`. -/
def go (flush fin : Bool) : List Elem → List Byte → List Elem × List Byte × List Byte × Bool
  | [], t => ([], [], t, true)
  | x :: xs, t =>
    let (e, io, s1) := x.I.encode x.e ⟨t, x.out⟩ flush false
    let (e, io, s2) := if fin then x.I.finish e io else (e, io, true)
    let (xs', left, o, s3) := go flush fin xs io.out
    ({ I := x.I, e := e, out := left } :: xs', io.inb, o, s1 && s2 && s3)

/-- `_reset` (utils/wvencoder.cc:298-309). -/
def resetAll : List Elem → List Elem × Bool
  | [] => ([], true)
  | x :: xs =>
    let (e, s) := x.I.reset x.e
    let (xs', s') := resetAll xs
    ({ I := x.I, e := e, out := [] } :: xs', s && s')

/-- WvEncoderChain as an encoder (utils/wvencoder.cc:277-309). -/
def chain : EncImpl (List Elem) where
  encode' e io flush :=
    let (xs, left, o, s) := go flush false e.st io.inb
    ({ e with st := xs }, ⟨left, io.out ++ o⟩, s)
  finish' e io :=
    let (xs, _, o, s) := go true true e.st []
    ({ e with st := xs }, { io with out := io.out ++ o }, s)
  reset' e :=
    let (xs, s) := resetAll e.st
    ({ e with st := xs }, s)

/-- `_isok` (utils/wvencoder.cc:218-225), given that each element is a plain encoder. -/
def isok (e : Enc (List Elem)) : Bool := e.okay && e.st.all (fun x => x.e.okay)

end Chain
end Wv
