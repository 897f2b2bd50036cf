import Verif.Model.Basic
/-
Model of utils/wvencoder.cc and include/wvencoder.h: the public face of every encoder.

Simplifications: the two buffers are queues of bytes with unlimited room (`Io`), see C10-C12 for the buffers
themselves; error *texts* are dropped, only the `okay` flag is kept.
-/
namespace Wv
universe u

/-- The two buffers an encoder works on: `inb` is the unread content of `inbuf`,
    `out` everything put so far in `outbuf` (include/wvencoder.h:152). -/
structure Io where
  inb : List Byte := []
  out : List Byte := []
deriving DecidableEq, Repr

/-- The fields of WvEncoder (include/wvencoder.h:70-72) and of the concrete class (`st`). -/
structure Enc (σ : Type u) where
  okay : Bool := true
  finished : Bool := false
  st : σ
deriving DecidableEq, Repr

/-- The virtual methods a concrete encoder provides (include/wvencoder.h:459-505). -/
structure EncImpl (σ : Type u) where
  /-- `_encode(inbuf, outbuf, flush)` -/
  encode' : Enc σ → Io → Bool → Enc σ × Io × Bool
  /-- `_finish(outbuf)`; the default implementation just returns true. -/
  finish' : Enc σ → Io → Enc σ × Io × Bool := fun e io => (e, io, true)
  /-- `_reset()` -/
  reset' : Enc σ → Enc σ × Bool

variable {σ : Type u}

/-- `seterror` / `setnotok` (include/wvencoder.h:371-376). -/
def Enc.seterror (e : Enc σ) : Enc σ := { e with okay := false }

/-- `setfinished` (include/wvencoder.h:383-384). -/
def Enc.setfinished (e : Enc σ) : Enc σ := { e with finished := true }

/-- `WvEncoder::finish` (utils/wvencoder.cc:49-57). -/
def EncImpl.finish (I : EncImpl σ) (e : Enc σ) (io : Io) : Enc σ × Io × Bool :=
  let success := e.okay && !e.finished
  let (e, io, success) := if success then I.finish' e io else (e, io, false)
  (e.setfinished, io, success)

/-- `WvEncoder::encode` (utils/wvencoder.cc:36-46). -/
def EncImpl.encode (I : EncImpl σ) (e : Enc σ) (io : Io) (flush fin : Bool) : Enc σ × Io × Bool :=
  let success := e.okay && !e.finished && (!io.inb.isEmpty || flush)
  let (e, io, success) := if success then I.encode' e io flush else (e, io, false)
  if fin then
    let (e, io, s) := I.finish e io
    (e, io, s && success)
  else (e, io, success)

/-- `WvEncoder::reset` (utils/wvencoder.cc:60-74). -/
def EncImpl.reset (I : EncImpl σ) (e : Enc σ) : Enc σ × Bool :=
  let (e, success) := I.reset' { e with okay := true, finished := false }
  if success then (e, true) else (e.seterror, false)

/-- What a user does with an encoder: put `chunk` at the end of the input buffer and call `encode(in, out, flush)`,
    for each element of the list in order. Returns also the values `encode` returned. -/
def EncImpl.feed (I : EncImpl σ) : Enc σ → Io → List (List Byte × Bool) → Enc σ × Io × List Bool
  | e, io, [] => (e, io, [])
  | e, io, (chunk, flush) :: rest =>
    let (e, io, r) := I.encode e { io with inb := io.inb ++ chunk } flush false
    let (e, io, rs) := I.feed e io rest
    (e, io, r :: rs)

/-- `feed` followed by `finish(out)`. -/
def EncImpl.run (I : EncImpl σ) (e : Enc σ) (chunks : List (List Byte × Bool)) : Enc σ × Io × List Bool × Bool :=
  let (e, io, rs) := I.feed e {} chunks
  let (e, io, r) := I.finish e io
  (e, io, rs, r)

end Wv
