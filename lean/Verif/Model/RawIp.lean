import Verif.Spec.RawIp
/-!
`WvIPRawStream` (ipstreams/wvipraw.cc), and what it uses of WvStream. `sendto` takes a packet as a whole or not at all. Not modelled: the constructor, what is read, `max_outbuf_size`, `noread`, `nowrite`, delayed flushing, callbacks.
-/
namespace Wv.RawIp
open Spec.Addr (Addr)

/-- `open_` is `isok`; `sent` is what the system took, and to where. -/
structure Raw where
  open_ : Bool
  remaddr : Addr
  outbuf : List Byte
  sent : List (Addr × List Byte)
deriving DecidableEq

/-- As the constructor leaves it, without errors (ipstreams/wvipraw.cc:16-62). -/
def new (p : Addr) : Raw := ⟨true, p, [], []⟩

/-- What `sendto` does. -/
inductive Sent where
  | ok
  | fail (e : Nat)
deriving DecidableEq

/-- `uwrite` (ipstreams/wvipraw.cc:98-118). 13 is EACCES; an error closes, and drops `outbuf` (streams/wvstream.cc:799-801). -/
def uwrite (c : Raw) (d : List Byte) (s : Sent) : Raw × Nat :=
  if !c.open_ || d.isEmpty then (c, 0)
  else
    match s with
    | .ok => ({ c with sent := c.sent ++ [(c.remaddr, d)] }, d.length)
    | .fail e => (if e = 13 then { c with open_ := false, outbuf := [] } else c, 0)

/-- One attempt of `flush_outbuf` (streams/wvstream.cc:749-764, 799-801); `n + 1` is how much is contiguous in the buffer. -/
def flushOnce (c : Raw) (n : Nat) (s : Sent) : Raw :=
  if c.outbuf.isEmpty then c
  else if !c.open_ then { c with outbuf := [] }
  else
    let r := uwrite c (c.outbuf.take (n + 1)) s
    if r.1.open_ then { r.1 with outbuf := c.outbuf.drop r.2 } else { r.1 with outbuf := [] }

/-- `write` (streams/wvstream.cc:534-570). -/
def write (c : Raw) (d : List Byte) (s : Sent) (n : Nat) (s2 : Sent) : Raw × Nat :=
  if !c.open_ || d.isEmpty then (c, 0)
  else
    let r := if c.outbuf.isEmpty then uwrite c d s else (c, 0)
    (flushOnce { r.1 with outbuf := r.1.outbuf ++ d.drop r.2 } n s2, d.length)

/-- `uread` (ipstreams/wvipraw.cc:82-95): `none` is an error. -/
def uread (c : Raw) (r : Option Addr) : Raw :=
  if !c.open_ then c
  else
    match r with
    | none => c
    | some p => { c with remaddr := p }

inductive Op where
  | write (d : List Byte) (s : Sent) (n : Nat) (s2 : Sent)
  /-- an attempt to flush: `post_select`, `flush` -/
  | flush (n : Nat) (s : Sent)
  | read (r : Option Addr)

/-- A call, with the bytes that `write` took. -/
def step (s : Raw × List Byte) : Op → Raw × List Byte
  | .write d a n b =>
    let r := write s.1 d a n b
    (r.1, s.2 ++ d.take r.2)
  | .flush n a => (flushOnce s.1 n a, s.2)
  | .read r => (uread s.1 r, s.2)

def run (c : Raw) (ops : List Op) : Raw × List Byte := ops.foldl step (c, [])

/-- `src` (ipstreams/wvipraw.cc:70-73). -/
def src (c : Raw) : Addr := c.remaddr

end Wv.RawIp
