import Verif.Model.Stream
/-!
`WvSSLStream` (crypto/wvsslstream.cc) with the parts of `WvStreamClone` and `WvStream` that it uses.

The SSL library and the stream below are answers `dev 0`, `dev 1`, …, which may be any. A call of `SSL_write` takes all that it is given, as
it is given no more than one record (the code asserts that), or nothing. Nothing else is called while a function runs, other than what
the code calls. `flush` with a timeout is as many calls of `flush(0)` with polls between them. `flush_then_close`, alarms and the copies
of `select` requests are left out; so is `maybe_autoclose` in `pre_select`, as it was called at every change. When the stream below closes,
`nowrite` and `noread` are called, which are calls as others here; that it has an error without being closed is left out. When the stream below
is not flushed in time, `close` leaves the output buffer as it was; as it is not used after that, it is empty here.
-/
namespace Wv.SslStream
open Wv.Stream (subSize)

/-- What `SSL_write` answers: everything is taken; wait (`SSL_ERROR_WANT_READ`, `SSL_ERROR_WANT_WRITE`, `SSL_ERROR_NONE`); end of file; or
    an error. -/
inductive Wr where
  | all | wait | eof | fail
deriving DecidableEq

/-- What `SSL_read` answers: data; wait; end of file; or an error. -/
inductive Rd where
  | data (b : Byte) (t : List Byte)
  | wait | eof | fail
deriving DecidableEq

/-- What `SSL_accept` or `SSL_connect` answers: -1 with `EAGAIN`; -1 with another error; 0, that is, it failed and was shut down; 1. -/
inductive Hs where
  | again | fail | zero | done
deriving DecidableEq

/-- The answers: of the SSL library; the size of the piece that the output buffer gives (`optgettable`); whether the stream below is
    flushed, and wants to be; what `WvStreamClone::post_select` gives; whether the certificate of the peer is valid, and accepted by
    the callback of the user. -/
structure Ans where
  wr : Wr
  rd : Rd
  chunk : Nat
  flushed : Bool
  lowWant : Bool
  ready : Bool
  hs : Hs
  cert : Bool
  accept : Bool

/-- The members (include/wvsslstream.h:84-125, include/wvstream.h:57, 618-637): `live`: `ssl` is not NULL; `wb`, `wbIdx`: what is in
    `write_bouncebuf` and where it begins; `rb`: `read_bouncebuf`; `vcb`: there is a callback for certificates. Not in the code: `tick`, the number of
    answers used; `taken`, what `write` took; `sent`, what `SSL_write` took; `retry`, what `SSL_write` must be called with the next time,
    because it told to wait; `bad`: it was called with something else; `got`: what `SSL_read` gave; `given`: what `read` gave. -/
structure St where
  live : Bool
  vcb : Bool
  conn : Bool
  err : Bool
  closed : Bool
  stopRead : Bool
  stopWrite : Bool
  sslStopRead : Bool
  sslStopWrite : Bool
  outbuf : List Byte
  inbuf : List Byte
  delayed : Bool
  want : Bool
  auto : Bool
  max : Nat
  queueMin : Nat
  unconn : List Byte
  wb : List Byte
  wbIdx : Nat
  eat : Nat
  rb : List Byte
  pending : Bool
  tick : Nat
  taken : List Byte
  sent : List Byte
  retry : Option (Nat × List Byte)
  bad : Bool
  got : List Byte
  given : List Byte

/-- The constructor (crypto/wvsslstream.cc:169-280), when nothing goes wrong. -/
def new (vcb : Bool) : St :=
  ⟨true, vcb, false, false, false, false, false, false, false, [], [], false, true, true, 0, 0, [], [], 0, 0, [], false, 0, [], [], none, false, [], []⟩

/-- `isok` (crypto/wvsslstream.cc:577-580, streams/wvstreamclone.cc:136-146). -/
def isok (s : St) : Bool := s.live && !s.err && !s.closed

/-- `close` (crypto/wvsslstream.cc:553-574, streams/wvstreamclone.cc:83-91, streams/wvstream.cc:343-361): as `ssl` is NULL when
    `flush` is called, nothing is written and the output buffer is emptied. -/
def close (s : St) : St := { s with live := false, conn := false, closed := true, outbuf := [] }

/-- `seterr` (streams/wvstream.cc:453-460). -/
def seterr (s : St) : St := if s.err then s else close { s with err := true }

/-- `maybe_autoclose` (streams/wvstream.cc:585-589). -/
def autoclose (s : St) : St := if s.stopRead && s.stopWrite && s.outbuf.isEmpty && s.inbuf.isEmpty && !s.closed then close s else s

/-- `noread` (crypto/wvsslstream.cc:583-596, streams/wvstreamclone.cc:61-80), without `maybe_autoclose`. -/
def noread (s : St) : St :=
  let s := { s with sslStopRead := true }
  if s.sslStopWrite then { s with stopRead := true, stopWrite := true } else s

/-- `nowrite` (crypto/wvsslstream.cc:599-608), without `maybe_autoclose`. -/
def nowrite (s : St) : St :=
  let s := { s with sslStopWrite := true }
  if s.sslStopRead then { s with stopRead := true, stopWrite := true } else s

/-- `MAX_BOUNCE_AMOUNT` (crypto/wvsslstream.cc:156). -/
def bounceSize : Nat := 16384

variable (dev : Nat → Ans)

/-- Not what `SSL_write` must be called with. -/
def differs (r : Option (Nat × List Byte)) (x : Nat × List Byte) : Bool :=
  match r with
  | some y => y != x
  | none => false

/-- The answer to a call of `SSL_write`; it has to be given the same bytes, in the same place, as the last time if it told to wait. -/
def sslWrite (s : St) : St × Wr :=
  let s := { s with tick := s.tick + 1, bad := s.bad || differs s.retry (s.wbIdx, s.wb) }
  match (dev (s.tick - 1)).wr with
  | .all => ({ s with sent := s.sent ++ s.wb, retry := none }, .all)
  | .wait => ({ s with retry := some (s.wbIdx, s.wb) }, .wait)
  | a => ({ s with retry := none }, a)

/-- The loop of `uwrite` (crypto/wvsslstream.cc:460-547), with the bytes that are left and how many are written; the number is
    more than the rounds. -/
def uwriteLoop : Nat → List Byte → Nat → St → St × Nat
  | 0, _, total, s => (s, total)
  | n + 1, b, total, s =>
    if s.wb.isEmpty && b.isEmpty then (s, total)
    else
      let s := if s.wb.isEmpty then { s with wb := b.take (bounceSize - s.wbIdx) } else s
      match sslWrite dev s with
      | (s, .all) =>
        let used := s.wb.length
        let s := { s with wb := [], wbIdx := 0 }
        if used ≥ b.length then ({ s with eat := used - b.length }, total + b.length)
        else uwriteLoop n (b.drop used) (total + used) s
      | (s, .wait) => (s, total)
      | (s, .eof) => (close s, total)
      | (s, .fail) => (seterr s, total)

/-- `uwrite` (crypto/wvsslstream.cc:430-551). -/
def uwrite (b : List Byte) (s : St) : St × Nat :=
  if !s.conn then ({ s with unconn := s.unconn ++ b }, b.length)
  else if b.isEmpty then (s, 0)
  else if s.eat ≥ b.length then uwriteLoop dev (b.length + 2) [] b.length { s with eat := s.eat - b.length }
  else uwriteLoop dev (b.length + 2) (b.drop s.eat) s.eat { s with eat := 0 }

/-- `flush_outbuf(0)` (streams/wvstream.cc:732-807). -/
def flushOutbuf (s : St) : St :=
  if s.outbuf.isEmpty then autoclose { s with want := s.want && !s.delayed }
  else if isok s then
    let n := max 1 (min (dev s.tick).chunk s.outbuf.length)
    let (s, real) := uwrite dev (s.outbuf.take n) { s with tick := s.tick + 1 }
    let s := if isok s then { s with outbuf := s.outbuf.drop real } else { s with outbuf := [] }
    autoclose s
  else autoclose { s with outbuf := [] }

/-- `flush(0)` (streams/wvstream.cc:709-723), `flush_internal` (streams/wvstreamclone.cc:94-104). -/
def flush (s : St) : St :=
  let s := { s with want := true, tick := s.tick + 1 }
  if (dev (s.tick - 1)).flushed then flushOutbuf dev s else s

/-- The end of `write` (streams/wvstream.cc:559-565). -/
def wflush (s : St) : St := if s.want then (if s.auto then flush dev s else flushOutbuf dev s) else s

/-- `write` (streams/wvstream.cc:534-568). -/
def write (b : List Byte) (s : St) : St × Nat :=
  if !isok s || b.isEmpty || s.stopWrite then (s, 0)
  else
    let r := if !s.delayed && s.outbuf.isEmpty then uwrite dev b s else (s, 0)
    let s := r.1
    let rest := b.drop r.2
    let n := if s.max ≠ 0 then min rest.length (subSize s.max s.outbuf.length) else rest.length
    (wflush dev { s with outbuf := s.outbuf ++ rest.take n }, r.2 + n)

/-- `setconnected(true)` (crypto/wvsslstream.cc:745-749), `write` of a buffer (streams/wvstream.cc:479-489). -/
def setConnected (s : St) : St :=
  let s := { s with conn := true }
  let (s, n) := write dev s.unconn s
  { s with unconn := s.unconn.drop n }

/-- The handshake in `post_select` (crypto/wvsslstream.cc:657-735). -/
def handshake (s : St) : St :=
  let a := dev s.tick
  let s := { s with tick := s.tick + 1 }
  match a.hs with
  | .again => s
  | .fail => seterr s
  | _ => if s.vcb then (if a.cert && a.accept then setConnected dev s else seterr s) else setConnected dev s

/-- `post_select` (crypto/wvsslstream.cc:638-742, streams/wvstreamclone.cc:222-261, streams/wvstream.cc:877-900), when the caller waits
    for something to read or not: whether there is. When the stream is closed, the stream below is. -/
def poll (readable : Bool) (s : St) : St × Bool :=
  let s := if s.want then flush dev s else s
  let a := dev s.tick
  let s := { s with tick := s.tick + 1 }
  let s := if a.lowWant then flush dev s else s
  if !s.conn && s.live && a.ready then (handshake dev s, false)
  else (s, (readable && (s.pending || !s.rb.isEmpty)) || a.ready)

/-- `pre_select` (crypto/wvsslstream.cc:611-635): whether it asks not to wait at all. -/
def noWait (s : St) : Bool := s.pending || !s.rb.isEmpty

/-- `uread` (crypto/wvsslstream.cc:310-427): its loop has one or two rounds. -/
def uread (n : Nat) (s : St) : St × List Byte :=
  if !s.conn || n == 0 then (s, [])
  else
    let s := { s with pending := true }
    if !s.rb.isEmpty then
      ({ s with rb := s.rb.drop n, pending := !(n ≤ s.rb.length) }, s.rb.take n)
    else
      let a := dev s.tick
      let s := { s with tick := s.tick + 1 }
      match a.rd with
      | .data b t =>
        let d := (b :: t).take bounceSize
        ({ s with got := s.got ++ d, rb := d.drop n, pending := !(n ≤ d.length) }, d.take n)
      | .wait => ({ s with pending := false }, [])
      | .eof => ({ nowrite (noread s) with pending := false }, [])
      | .fail => ({ seterr s with pending := false }, [])

/-- `read` (streams/wvstream.cc:492-531). -/
def read (count : Nat) (s : St) : St × List Byte :=
  let s := if s.inbuf.length < s.queueMin then
    let (s, b) := uread dev (s.queueMin - s.inbuf.length) s
    { s with inbuf := s.inbuf ++ b }
    else s
  if s.inbuf.length < s.queueMin then (autoclose s, [])
  else if s.inbuf.isEmpty then
    let (s, b) := uread dev count s
    (autoclose s, b)
  else (autoclose { s with inbuf := s.inbuf.drop count }, s.inbuf.take count)

/-- What the user of the stream calls. -/
inductive Op where
  | write (b : List Byte)
  | flush
  | poll (readable : Bool)
  | read (n : Nat)
  | noread | nowrite | close
  | delay (b : Bool)
  | auto (b : Bool)
  | limit (n : Nat)
  | queuemin (n : Nat)
deriving DecidableEq

/-- One call. -/
def step (s : St) : Op → St
  | .write b => let (s, n) := write dev b s; { s with taken := s.taken ++ b.take n }
  | .flush => flush dev s
  | .poll r => (poll dev r s).1
  | .read n => let (s, b) := read dev n s; { s with given := s.given ++ b }
  | .noread => autoclose (noread s)
  | .nowrite => autoclose (nowrite s)
  | .close => close s
  | .delay b => { s with delayed := b, want := !b }
  | .auto b => { s with auto := b }
  | .limit n => { s with max := n }
  | .queuemin n => { s with queueMin := n }

/-- A history. -/
def run (s : St) (l : List Op) : St := l.foldl (step dev) s

end Wv.SslStream
