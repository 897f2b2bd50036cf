import Verif.Spec.Coder
/-!
`WvEncoderStream` (streams/wvencoderstream.cc) with those parts of `WvStreamClone` (streams/wvstreamclone.cc) and `WvStream`
(streams/wvstream.cc) that move its bytes. The stream below answers as it likes: the answers are a sequence `dev`. The chains are any
machines (Spec/Coder); no encoders are added while the stream is in use, so that `continue_encode` (utils/wvencoder.cc:290-295) moves
its input to its output.

Not modelled: callbacks, limits of the output buffer, `flush_then_close`, `setclone`, the timing of `select`.
-/
namespace Wv.EncStream
open Spec.Coder (Coder)

/-- What the stream below answers: the bytes that it has to read, whether it is ok and has an error after the call, how many of so many
    bytes it takes in `write`, whether its `flush` says that all is written, and, for `alloc`, what is in memory that nobody wrote. -/
structure Ans where
  data : List Byte
  ok : Bool
  err : Bool
  take : Nat → Nat
  yes : Bool
  chunk : Nat
  junk : Byte

/-- The members that are used. Not in the code: `tick`, the number of answers used; `lowStop`, `lowClosed`: `nowrite` and `close` were
    called for the stream below; `got`, `below`: what the stream below gave and took; `returned`, `accepted`: what `read` returned and
    `write` took. -/
structure St (σ τ : Type) where
  inbuf : List Byte
  outbuf : List Byte
  readin : List Byte
  readout : List Byte
  writein : List Byte
  rc : σ
  wc : τ
  queueMin : Nat
  minRead : Nat
  closed : Bool
  err : Bool
  lowErr : Bool
  isClosing : Bool
  flushing : Bool
  stopRead : Bool
  stopWrite : Bool
  delayed : Bool
  autoFlush : Bool
  wantFlush : Bool
  lowStop : Bool
  lowClosed : Bool
  tick : Nat
  got : List Byte
  returned : List Byte
  accepted : List Byte
  below : List Byte

/-- The constructors (streams/wvencoderstream.cc:11-15, streams/wvstreamclone.cc:43-50, streams/wvstream.cc:235-253). -/
def new {σ τ : Type} (a : σ) (b : τ) : St σ τ :=
  ⟨[], [], [], [], [], a, b, 0, 0, false, false, false, false, false, false, false, false, true, true, false, false, 0, [], [], [], []⟩

section
variable {σ τ : Type} (R : Coder σ) (W : Coder τ) (dev : Nat → Ans)

/-- `isok` (streams/wvencoderstream.cc:43-60). -/
def isok (s : St σ τ) : Bool := !s.closed && !s.err && !s.lowErr

/-- `readchain.encode(readinbuf, readoutbuf, true)` or `readchain.flush`. -/
def encR (s : St σ τ) : St σ τ :=
  let r := R.encode s.rc true s.readin
  { s with rc := r.1, readin := s.readin.drop r.2.1, readout := s.readout ++ r.2.2 }

/-- `readchain.finish(readoutbuf)`. -/
def finR (s : St σ τ) : St σ τ :=
  let r := R.finish s.rc
  { s with rc := r.1, readout := s.readout ++ r.2 }

/-- `seterr` (streams/wvstream.cc:453-460) while the stream is being closed, so that `close` returns at once; `geterr` is that of
    `WvStreamClone` (streams/wvstreamclone.cc:147-154). -/
def setErr (s : St σ τ) : St σ τ := if s.err || s.lowErr then s else { s with err := true }

/-- `checkreadisok` (streams/wvencoderstream.cc:232-239) while the stream is being closed. -/
def checkR0 (s : St σ τ) : St σ τ := if R.ok s.rc then s else { setErr s with stopRead := true }

/-- `checkwriteisok` (streams/wvencoderstream.cc:242-246) while the stream is being closed. -/
def checkW0 (s : St σ τ) : St σ τ := if W.ok s.wc then s else setErr s

/-- `finish_read` (streams/wvencoderstream.cc:86-95) in `close`. -/
def finishRead (s : St σ τ) : St σ τ :=
  let s := checkR0 R (finR R (encR R s))
  { s with inbuf := s.inbuf ++ s.readout, readout := [] }

/-- The encoding in `push` (streams/wvencoderstream.cc:150-156): the state, and `writeoutbuf`. -/
def encW (flush fin : Bool) (s : St σ τ) : St σ τ × List Byte :=
  let s := if flush then { s with writein := s.writein ++ s.outbuf, outbuf := [] } else s
  let r := W.encode s.wc flush s.writein
  let s := { s with wc := r.1, writein := s.writein.drop r.2.1 }
  if fin then
    let f := W.finish s.wc
    ({ s with wc := f.1 }, r.2.2 ++ f.2)
  else (s, r.2.2)

/-- `cloned->write(writeoutbuf, ...)` (streams/wvencoderstream.cc:169-170). What is not taken is gone with `writeoutbuf`. -/
def lowWrite (b : List Byte) (s : St σ τ) : St σ τ :=
  let a := dev s.tick
  let k := if s.lowStop || s.lowClosed then 0 else min (a.take b.length) b.length
  { s with tick := s.tick + 1, below := s.below ++ b.take k, lowErr := a.err }

/-- `push` (streams/wvencoderstream.cc:145-173) while the stream is being closed. -/
def push0 (flush fin : Bool) (s : St σ τ) : St σ τ :=
  let r := encW W flush fin s
  lowWrite dev r.2 (checkW0 W r.1)

/-- `WvStreamClone::flush_internal` (streams/wvstreamclone.cc:93-103): whether the stream below is flushed. -/
def cloneFlush (s : St σ τ) : St σ τ × Bool :=
  let s := if s.stopWrite && s.outbuf.isEmpty then { s with lowStop := true } else s
  let a := dev s.tick
  ({ s with tick := s.tick + 1, lowErr := a.err }, a.yes)

/-- `flush(2000)` in `WvStream::close` (streams/wvstream.cc:345, 709-723), when the output buffer is empty because `push` took it. -/
def closeFlush (s : St σ τ) : St σ τ :=
  if s.flushing then s
  else
    let r := cloneFlush dev (push0 W dev true false { s with wantFlush := true })
    if r.2 && r.1.delayed then { r.1 with wantFlush := false } else r.1

/-- `close` (streams/wvencoderstream.cc:24-40, streams/wvstreamclone.cc:82-90, streams/wvstream.cc:343-361). -/
def close (s : St σ τ) : St σ τ :=
  if s.isClosing then s
  else
    let s := push0 W dev true true (finishRead R { s with isClosing := true })
    { closeFlush W dev s with closed := true, lowClosed := true }

/-- `maybe_autoclose` (streams/wvstream.cc:585-589). -/
def autoclose (s : St σ τ) : St σ τ :=
  if s.stopRead && s.stopWrite && s.outbuf.isEmpty && s.inbuf.isEmpty && !s.closed then close R W dev s else s

/-- `seterr` (streams/wvstream.cc:453-460). -/
def seterr (s : St σ τ) : St σ τ := if s.err || s.lowErr then s else close R W dev { s with err := true }

/-- `checkreadisok` (streams/wvencoderstream.cc:232-239). -/
def checkR (s : St σ τ) : St σ τ := if R.ok s.rc then s else autoclose R W dev { seterr R W dev s with stopRead := true }

/-- `checkwriteisok` (streams/wvencoderstream.cc:242-246). -/
def checkW (s : St σ τ) : St σ τ := if W.ok s.wc then s else seterr R W dev s

/-- `push` (streams/wvencoderstream.cc:145-173). -/
def push (flush fin : Bool) (s : St σ τ) : St σ τ :=
  let r := encW W flush fin s
  lowWrite dev r.2 (checkW R W dev r.1)

/-- The first part of `pull` (streams/wvencoderstream.cc:108-117): what is read from below, and `finish`. -/
def lowRead (size : Nat) (s : St σ τ) : St σ τ × Bool :=
  let a := dev s.tick
  let d := if s.lowClosed || size == 0 then [] else a.data.take size
  ({ s with tick := s.tick + 1, readin := s.readin ++ d, got := s.got ++ d, lowErr := a.err }, s.lowClosed || !a.ok)

/-- `pull` (streams/wvencoderstream.cc:104-142). -/
def pull (size : Nat) (s : St σ τ) : St σ τ :=
  let r := lowRead dev size s
  let s := encR R r.1
  checkR R W dev (
    if r.2 then close R W dev (finR R s)
    else if s.readout.isEmpty && s.inbuf.isEmpty && R.finished s.rc then close R W dev s
    else s)

/-- `uread` (streams/wvencoderstream.cc:176-186). -/
def uread (size : Nat) (s : St σ τ) : St σ τ × List Byte :=
  let s := if size ≠ 0 ∧ s.readout = [] then pull R W dev (if s.minRead > size then s.minRead else size) s else s
  ({ s with readout := s.readout.drop size }, s.readout.take size)

/-- The part of `read` that fills the buffer (streams/wvstream.cc:500-507): `alloc` appends memory that nobody wrote, `uread` writes to
    its front, and `unalloc` takes away from the end of the buffer. -/
def fill (s : St σ τ) : St σ τ :=
  if s.inbuf.length < s.queueMin then
    let d := s.queueMin - s.inbuf.length
    let u := uread R W dev d { s with inbuf := s.inbuf ++ List.replicate d (dev s.tick).junk }
    let b := u.1.inbuf.take s.inbuf.length ++ u.2 ++ u.1.inbuf.drop (s.inbuf.length + u.2.length)
    { u.1 with inbuf := b.take (b.length - (d - u.2.length)) }
  else s

/-- `read` (streams/wvstream.cc:492-531). -/
def read (count : Nat) (s : St σ τ) : St σ τ :=
  let s := fill R W dev s
  if s.inbuf.length < s.queueMin then autoclose R W dev s
  else if s.inbuf.isEmpty then
    let u := uread R W dev count s
    autoclose R W dev { u.1 with returned := u.1.returned ++ u.2 }
  else autoclose R W dev { s with inbuf := s.inbuf.drop count, returned := s.returned ++ s.inbuf.take count }

/-- `uwrite` (streams/wvencoderstream.cc:189-194); it takes everything. -/
def uwrite (b : List Byte) (s : St σ τ) : St σ τ := push R W dev false false { s with writein := s.writein ++ b }

/-- `flush_outbuf(0)` (streams/wvstream.cc:732-807): one round of its loop, if there is something. -/
def flushOutbuf (s : St σ τ) : St σ τ :=
  if s.outbuf.isEmpty then autoclose R W dev (if s.delayed then { s with wantFlush := false } else s)
  else
    let n := max 1 (dev s.tick).chunk
    let s := if isok s then uwrite R W dev (s.outbuf.take n) { s with outbuf := s.outbuf.drop n } else s
    autoclose R W dev (if isok s then s else { s with outbuf := [] })

/-- `flush` (streams/wvstream.cc:709-723) with `flush_internal` (streams/wvencoderstream.cc:63-67); after `push` the output buffer is
    empty, so that the time does not matter to `flush_outbuf`. -/
def flush (s : St σ τ) : St σ τ :=
  if s.flushing then s
  else
    let r := cloneFlush dev (push R W dev true false { s with flushing := true, wantFlush := true })
    { (if r.2 then flushOutbuf R W dev r.1 else r.1) with flushing := false }

/-- `write` (streams/wvstream.cc:534-568). -/
def write (b : List Byte) (s : St σ τ) : St σ τ :=
  if !isok s || b.isEmpty || s.stopWrite then s
  else
    let s := { s with accepted := s.accepted ++ b }
    let s := if !s.delayed && s.outbuf.isEmpty then uwrite R W dev b s else { s with outbuf := s.outbuf ++ b }
    if s.wantFlush then (if s.autoFlush then flush R W dev s else flushOutbuf R W dev s) else s

/-- `noread` (streams/wvstreamclone.cc:60-68, streams/wvstream.cc:571-575). -/
def noread (s : St σ τ) : St σ τ := autoclose R W dev { s with stopRead := true }

/-- `nowrite` (streams/wvstreamclone.cc:71-79, streams/wvstream.cc:578-582). -/
def nowrite (s : St σ τ) : St σ τ :=
  autoclose R W dev { s with lowStop := s.lowStop || s.outbuf.isEmpty, stopWrite := true }

/-- `post_select` (streams/wvencoderstream.cc:206-229) when the caller waits to read; it flushes if something is to be flushed
    (streams/wvstreamclone.cc:216-217, streams/wvstream.cc:892-893). -/
def poll (s : St σ τ) : St σ τ :=
  let s := if s.readout = [] then s else pull R W dev 0 s
  let s := push R W dev false false s
  if s.wantFlush then flush R W dev s else s

/-- What the user of the stream calls. -/
inductive Op where
  | read (n : Nat)
  | write (b : List Byte)
  | flush
  | close
  | noread
  | nowrite
  | poll
  | delay (on : Bool)
  | autoFlush (on : Bool)
  | queuemin (n : Nat)
  | minRead (n : Nat)

/-- One call. `delay_output`, `auto_flush`, `queuemin`: include/wvstream.h:129-130, 232-259. -/
def step (s : St σ τ) : Op → St σ τ
  | .read n => read R W dev n s
  | .write b => write R W dev b s
  | .flush => flush R W dev s
  | .close => close R W dev s
  | .noread => noread R W dev s
  | .nowrite => nowrite R W dev s
  | .poll => poll R W dev s
  | .delay on => { s with delayed := on, wantFlush := !on }
  | .autoFlush on => { s with autoFlush := on }
  | .queuemin n => { s with queueMin := n }
  | .minRead n => { s with minRead := n }

/-- A history. -/
def run (s : St σ τ) (l : List Op) : St σ τ := l.foldl (step R W dev) s

end
end Wv.EncStream
