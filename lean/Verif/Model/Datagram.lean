import Verif.Spec.Datagram
/-
Datagram sockets: ipstreams/wvunixdgsocket.cc, include/wvunixdgsocket.h, ipstreams/wvudp.cc, include/wvudp.h, and what they use of WvFdStream and WvStream. A `write` or `sendto` of
the system takes a datagram as a whole or not at all, as the sockets are datagram sockets. Not modelled: the constructors, which name a Unix socket has, what is read,
`max_outbuf_size`, `noread`, `nowrite`, `autoclose`, callbacks.
-/
namespace Wv.Datagram
open Spec.Datagram
open Spec.Addr (Addr)

/-- What the system does with a datagram: it takes it; ENOBUFS or EAGAIN; another error. -/
inductive W where
  | taken
  | again
  | fail (e : Nat)
  deriving DecidableEq

/-- A Unix datagram socket (include/wvunixdgsocket.h:14-43). `open_` is `isok`. `delayed` is `outbuf_delayed_flush`. `alarms` are the times that were given to
    `alarm`, and `sent` what the system took; both only grow. -/
structure Unix where
  open_ : Bool
  delayed : Bool
  outbuf : Data
  bufs : List Data
  bufsize : Nat
  backoff : Nat
  alarms : List Nat
  sent : List Data

/-- As the constructor leaves it, without errors (ipstreams/wvunixdgsocket.cc:7-66). -/
def Unix.new : Unix := ⟨true, false, [], [], 0, 10, [], []⟩

/-- `WvFdStream::uwrite` (streams/wvfdstream.cc:162-183). An error closes; `outbuf` is dropped then (streams/wvstream.cc:453-460, 799-801). -/
def Unix.fdWrite (c : Unix) (d : Data) (w : W) : Unix × Nat :=
  if d.isEmpty || !c.open_ then (c, 0)
  else
    match w with
    | .taken => ({ c with sent := c.sent ++ [d] }, d.length)
    | .again => (c, 0)
    | .fail _ => ({ c with open_ := false, outbuf := [] }, 0)

/-- `uwrite` (ipstreams/wvunixdgsocket.cc:75-88). -/
def Unix.uwrite (c : Unix) (d : Data) (w : W) : Unix × Nat :=
  let r := if c.bufs.isEmpty then c.fdWrite d w else (c, 0)
  if r.2 < d.length then ({ r.1 with bufs := r.1.bufs ++ [d], bufsize := r.1.bufsize + d.length }, d.length)
  else (r.1, d.length)

/-- One attempt of `flush_outbuf` (streams/wvstream.cc:749-764, 799-801); `n + 1` is how much is contiguous in the buffer. -/
def Unix.flushOnce (c : Unix) (n : Nat) (w : W) : Unix :=
  if c.outbuf.isEmpty then c
  else if !c.open_ then { c with outbuf := [] }
  else
    let a := c.outbuf.take (n + 1)
    let r := c.uwrite a w
    if r.1.open_ then { r.1 with outbuf := c.outbuf.drop r.2 } else { r.1 with outbuf := [] }

/-- `write` (streams/wvstream.cc:534-570), and how much it took. -/
def Unix.write (c : Unix) (d : Data) (w : W) (n : Nat) (w2 : W) : Unix × Nat :=
  if !c.open_ || d.isEmpty then (c, 0)
  else
    let r := if !c.delayed && c.outbuf.isEmpty then c.uwrite d w else (c, 0)
    let c := { r.1 with outbuf := r.1.outbuf ++ d.drop r.2 }
    (if c.delayed then c else c.flushOnce n w2, d.length)

/-- The loop of `post_select` (ipstreams/wvunixdgsocket.cc:124-147). After the answers that are given, the system has no more room. -/
def Unix.flushBufs (c : Unix) : List Data → List W → Unix
  | [], _ => c
  | d :: l, ws =>
    let r := c.fdWrite d (ws.headD .again)
    if r.2 < d.length then
      let b := r.1.backoff * 2
      { r.1 with alarms := r.1.alarms ++ [b], backoff := if b > 1000 then 1000 else b }
    else flushBufs { r.1 with bufsize := r.1.bufsize - d.length, bufs := l, backoff := 10 } l ws.tail

/-- `post_select` (ipstreams/wvunixdgsocket.cc:112-150): `sure` is what WvFdStream::post_select says, which also flushes `outbuf`. -/
def Unix.postSelect (c : Unix) (outs : List (Nat × W)) (sure : Bool) (ws : List W) : Unix :=
  let c := outs.foldl (fun c x => c.flushOnce x.1 x.2) c
  if sure then c.flushBufs c.bufs ws else c

/-- Whether `pre_select` asks when it can be written, and the latest time to wake up (ipstreams/wvunixdgsocket.cc:90-110); `remaining` is `alarm_remaining()`, `timeout` is in
    milliseconds, negative: for ever. -/
def Unix.preSelect (c : Unix) (remaining timeout : Int) : Bool × Int :=
  if c.bufs.isEmpty then (!c.outbuf.isEmpty, timeout)
  else if remaining ≤ 0 then (true, timeout)
  else (!c.outbuf.isEmpty, if timeout < 0 ∨ timeout > remaining then remaining else timeout)

/-- `flush` (streams/wvstream.cc:709-723, 732-810): attempts as long as there is time, and whether it says that all is done. -/
def Unix.flush (c : Unix) (outs : List (Nat × W)) : Unix × Bool :=
  let r := outs.foldl (fun c x => c.flushOnce x.1 x.2) c
  (r, r.outbuf.isEmpty)

/-- `close` (streams/wvfdstream.cc:117-131, streams/wvstream.cc:343-361). -/
def Unix.close (c : Unix) (outs : List (Nat × W)) : Unix := if c.open_ then { (c.flush outs).1 with open_ := false } else c

inductive UOp where
  | write (d : Data) (w : W) (n : Nat) (w2 : W)
  | select (outs : List (Nat × W)) (sure : Bool) (ws : List W)
  | flush (outs : List (Nat × W))
  | close (outs : List (Nat × W))

/-- A call, with the datagrams that `write` took. -/
def Unix.step (s : Unix × List Data) : UOp → Unix × List Data
  | .write d w n w2 =>
    let r := s.1.write d w n w2
    (r.1, if r.2 = 0 then s.2 else s.2 ++ [d.take r.2])
  | .select o b ws => (s.1.postSelect o b ws, s.2)
  | .flush o => ((s.1.flush o).1, s.2)
  | .close o => (s.1.close o, s.2)

def Unix.run (c : Unix) (ops : List UOp) : Unix × List Data := ops.foldl Unix.step (c, [])

/-- A UDP socket (include/wvudp.h:24-60). -/
structure Udp where
  open_ : Bool
  remaddr : Peer
  outbuf : Data
  sent : List (Peer × Data)

/-- As the constructor leaves it, without errors (ipstreams/wvudp.cc:29-67). -/
def Udp.new (p : Peer) : Udp := ⟨true, p, [], []⟩

/-- What `sendto` does. -/
inductive S where
  | sent
  | fail (e : Nat)
  deriving DecidableEq

/-- `uwrite` (ipstreams/wvudp.cc:105-129). 13 is EACCES, the one error that counts. -/
def Udp.uwrite (c : Udp) (d : Data) (s : S) : Udp × Nat :=
  if !c.open_ || d.isEmpty then (c, 0)
  else if c.remaddr.1 = ⟨0, 0, 0, 0⟩ then (c, d.length)
  else
    match s with
    | .sent => ({ c with sent := c.sent ++ [(c.remaddr, d)] }, d.length)
    | .fail e => (if e = 13 then { c with open_ := false, outbuf := [] } else c, 0)

/-- One attempt of `flush_outbuf` (streams/wvstream.cc:749-764, 799-801). -/
def Udp.flushOnce (c : Udp) (n : Nat) (s : S) : Udp :=
  if c.outbuf.isEmpty then c
  else if !c.open_ then { c with outbuf := [] }
  else
    let r := c.uwrite (c.outbuf.take (n + 1)) s
    if r.1.open_ then { r.1 with outbuf := c.outbuf.drop r.2 } else { r.1 with outbuf := [] }

/-- `write` (streams/wvstream.cc:534-570). -/
def Udp.write (c : Udp) (d : Data) (s : S) (n : Nat) (s2 : S) : Udp × Nat :=
  if !c.open_ || d.isEmpty then (c, 0)
  else
    let r := if c.outbuf.isEmpty then c.uwrite d s else (c, 0)
    (Udp.flushOnce { r.1 with outbuf := r.1.outbuf ++ d.drop r.2 } n s2, d.length)

/-- `uread` (ipstreams/wvudp.cc:88-102): `none` is an error. -/
def Udp.uread (c : Udp) (r : Option Peer) : Udp :=
  if !c.open_ then c
  else
    match r with
    | none => c
    | some p => { c with remaddr := p }

inductive Op where
  | write (d : Data) (s : S) (n : Nat) (s2 : S)
  /-- attempts to flush: `post_select`, `flush` -/
  | flush (outs : List (Nat × S))
  | read (r : Option Peer)
  | setdest (p : Peer)
  | close (outs : List (Nat × S))

/-- A call, with the bytes that `write` took. -/
def Udp.step (s : Udp × Data) : Op → Udp × Data
  | .write d a n b =>
    let r := s.1.write d a n b
    (r.1, s.2 ++ d.take r.2)
  | .flush o => (o.foldl (fun c x => c.flushOnce x.1 x.2) s.1, s.2)
  | .read r => (s.1.uread r, s.2)
  | .setdest p => ({ s.1 with remaddr := p }, s.2)
  | .close o => ({ o.foldl (fun c x => c.flushOnce x.1 x.2) s.1 with open_ := false }, s.2)

def Udp.run (c : Udp) (ops : List Op) : Udp × Data := ops.foldl Udp.step (c, [])

/-- `src` (ipstreams/wvudp.cc:76-79). -/
def Udp.src (c : Udp) : Peer := c.remaddr

end Wv.Datagram
