import Verif.Model.Addr
import Verif.Spec.Tcp
/-
Outgoing connections: ipstreams/wvtcp.cc, include/wvtcp.h, and what it uses of WvFdStream and WvStream (streams/wvfdstream.cc, streams/wvstream.cc). What the resolver,
the system and `select` answer is given to each call. Not modelled: callbacks, alarms, `noread`, `nowrite`, `flush_then_close`, `delay_output`, `outbuf_limit`, what is read; what the
destructor still writes; connections that come in.
-/
namespace Wv.Tcp
open Spec.Tcp
open Spec.Addr (Addr)

/-- The object. `next` is the number of the next socket; `log` is what was asked of the system. -/
structure Conn where
  hostname : Text
  resolved : Bool
  connected : Bool
  addr : Addr
  port : Nat
  fd : Option Nat
  err : Option Err
  closed : Bool
  outbuf : List Byte
  next : Nat
  log : List Ev

/-- `WvStream::isok` (streams/wvstream.cc:447-450), `WvFdStream::isok` (streams/wvfdstream.cc:134-137). -/
def fdok (c : Conn) : Bool := (!c.closed && c.err.isNone) && c.fd.isSome

/-- `WvTCPConn::isok` (ipstreams/wvtcp.cc:375-378). -/
def isok (c : Conn) : Bool := !c.resolved || fdok c

/-- What `write` of the system does: it takes some, or cannot at the moment, or fails. -/
inductive W where
  | took (more : Nat)
  | again
  | fail (e : Nat)

inductive So where
  | fails (e : Nat)
  | value (e : Nat)

/-- The answers for one turn of `select`: whether the resolver is ready and what it finds (`none`: -1), `socket`, `connect`, whether `WvFdStream::post_select` is true,
    SO_ERROR, and the writes in between. -/
structure In where
  dnsReady : Bool
  dns : Option (List Addr)
  sock : Option Nat
  conn : Option Nat
  sel : Bool
  so : So
  writes : List W

/-- The descriptor is closed (streams/wvfdstream.cc:124-128). -/
def shut (c : Conn) : Conn := match c.fd with
  | none => c
  | some n => { c with fd := none, log := c.log ++ [.shut n] }

/-- `WvStream::seterr` (streams/wvstream.cc:453-460) after the name is resolved: the close that follows drops the output, as the stream is not ok any more
    (streams/wvstream.cc:799-801, streams/wvfdstream.cc:117-131). -/
def seterr (c : Conn) (e : Err) : Conn :=
  if c.err.isSome then c
  else
    let c := { c with err := some e }
    if c.closed then c else shut { c with closed := true, outbuf := [] }

/-- After the socket is there (ipstreams/wvtcp.cc:204-236). -/
def tryConnect (c : Conn) (n : Nat) (res : Option Nat) : Conn :=
  let c := { c with log := c.log ++ [.connect n c.addr c.port res] }
  match res with
  | none => { c with connected := true }
  | some e =>
    if e = 106 then { c with connected := true }
    else if e ≠ 115 ∧ e ≠ 11 ∧ e ≠ 114 ∧ e ≠ 22 then seterr { c with connected := true } (.errno e)
    else c

/-- `do_connect` (ipstreams/wvtcp.cc:189-236). -/
def doConnect (c : Conn) (i : In) : Conn :=
  match c.fd with
  | some n => tryConnect c n i.conn
  | none =>
    match i.sock with
    | some e => seterr { c with log := c.log ++ [.nosocket e] } (.errno e)
    | none => tryConnect { c with fd := some c.next, next := c.next + 1, log := c.log ++ [.opened c.next] } c.next i.conn

/-- `check_resolver` (ipstreams/wvtcp.cc:239-257). -/
def checkResolver (c : Conn) (i : In) : Conn :=
  match i.dns with
  | none => c
  | some [] => seterr { c with resolved := true, log := c.log ++ [.nohost c.hostname] } (.host c.hostname)
  | some (a :: _) => doConnect { c with addr := a, resolved := true } i

/-- `uwrite` (ipstreams/wvtcp.cc:389-395), `WvFdStream::uwrite` (streams/wvfdstream.cc:162-183): how much was written. -/
def uwrite (c : Conn) (d : List Byte) (w : W) : Conn × Nat :=
  if !c.connected then (c, 0)
  else
    match c.fd with
    | none => (c, 0)
    | some fd =>
      if !fdok c || d.isEmpty then (c, 0)
      else
        match w with
        | .took n => ({ c with log := c.log ++ [.wrote fd (d.take (n + 1))] }, (d.take (n + 1)).length)
        | .again => (c, 0)
        | .fail e => (seterr { c with log := c.log ++ [.wfail e] } (.errno e), 0)

/-- `flush_outbuf(0)` (streams/wvstream.cc:732-810). -/
def flush (c : Conn) (w : W) : Conn :=
  if c.outbuf.isEmpty then c
  else if !isok c then { c with outbuf := [] }
  else
    let r := uwrite c c.outbuf w
    if isok r.1 then { r.1 with outbuf := c.outbuf.drop r.2 } else { r.1 with outbuf := [] }

/-- `post_select` (ipstreams/wvtcp.cc:313-372). -/
def postSelect (c : Conn) (i : In) : Conn :=
  if !c.resolved then (if i.dnsReady then checkResolver c i else c)
  else
    let c := i.writes.foldl flush c
    if i.sel && !c.connected then
      match c.fd with
      | none => { seterr { c with log := c.log ++ [.sockerr 9] } (.errno 9) with connected := true }
      | some _ =>
        match i.so with
        | .fails e => { seterr { c with log := c.log ++ [.sockerr e] } (.errno e) with connected := true }
        | .value e =>
          if e ≠ 0 then { seterr { c with log := c.log ++ [.sockerr e] } (.errno e) with connected := true }
          else doConnect c i
    else c

/-- `write` (streams/wvstream.cc:534-570): the connection, and how much was taken. -/
def write (c : Conn) (d : List Byte) (w1 w2 : W) : Conn × Nat :=
  if !isok c || d.isEmpty then (c, 0)
  else
    let r := if c.outbuf.isEmpty then uwrite c d w1 else (c, 0)
    (flush { r.1 with outbuf := r.1.outbuf ++ d.drop r.2 } w2, d.length)

/-- The loop of `flush(2000)`: an attempt, then `select` (streams/wvstream.cc:748-772), as often as there is time. -/
def flushLoop (c : Conn) : List (W × In) → Conn
  | [] => if c.outbuf.isEmpty || isok c then c else { c with outbuf := [] }
  | (w, i) :: l =>
    if c.outbuf.isEmpty then c
    else if !isok c then { c with outbuf := [] }
    else flushLoop (postSelect (flush c w) i) l

/-- `close` (streams/wvfdstream.cc:117-131, streams/wvstream.cc:343-357). -/
def close (c : Conn) (l : List (W × In)) : Conn :=
  if c.closed then c
  else shut { flushLoop c l with closed := true }

/-- What `read` of the system does. -/
inductive R where
  | data
  | again
  | eof
  | fail (e : Nat)

/-- `uread` (ipstreams/wvtcp.cc:381-386, streams/wvfdstream.cc:140-159). The end of the file is `seterr(0)`: no error is set, the stream is closed. -/
def read (c : Conn) (r : R) (l : List (W × In)) : Conn :=
  if !c.connected then c
  else if !fdok c then c
  else
    match r with
    | .data => c
    | .again => c
    | .eof => close c l
    | .fail e => seterr { c with log := c.log ++ [.rfail e] } (.errno e)

/-- `~WvFdStream` (streams/wvfdstream.cc:67-70). -/
def destroy (c : Conn) : Conn := if c.closed then c else shut { c with closed := true }

/-- What the constructor takes the text for (ipstreams/wvtcp.cc:126-142): the name and the port. `serv` is `getservbyname`; no port if `atoi` is undefined. -/
def target (serv : Text → Option Nat) (s : Text) (port : Nat) : Option (Text × Nat) :=
  let cut (sep : Byte) : Option (Text × Text) := (Addr.after sep s).map fun r => (s.takeWhile (· ≠ sep), r)
  let r := match cut (ch ':') with
    | some r => some r
    | none =>
      match cut 9 with
      | some r => some r
      | none => cut (ch ' ')
  match r with
  | none => some (s, port)
  | some (h, p) =>
    if port ≠ 0 then some (h, port)
    else
      match serv p with
      | some n => some (h, n)
      | none => (Num.num p).map fun n => (h, (n % 65536).toNat)

/-- A new object; `WvIPAddr()` is 0.0.0.0. -/
def fresh (hostname : Text) (a : Addr) (port : Nat) (resolved : Bool) : Conn := ⟨hostname, resolved, false, a, port, none, none, false, [], 0, []⟩

/-- `WvTCPConn(_hostname, _port)` (ipstreams/wvtcp.cc:121-156). -/
def new (serv : Text → Option Nat) (s : Text) (port : Nat) (i : In) : Option Conn :=
  (target serv s port).map fun t =>
    let x := Addr.parse t.1
    if x ≠ ⟨0, 0, 0, 0⟩ then doConnect (fresh t.1 x t.2 true) i
    else checkResolver (fresh t.1 x t.2 false) i

/-- `WvTCPConn(_remaddr)` (ipstreams/wvtcp.cc:98-107). -/
def newAddr (a : Addr) (port : Nat) (i : In) : Conn := doConnect (fresh [] a port true) i

inductive Op where
  | select (i : In)
  | write (d : List Byte) (w1 w2 : W)
  | read (r : R) (l : List (W × In))
  | close (l : List (W × In))

/-- A call, with the bytes that `write` said it took so far. -/
def step (s : Conn × List Byte) : Op → Conn × List Byte
  | .select i => (postSelect s.1 i, s.2)
  | .write d w1 w2 => let r := write s.1 d w1 w2; (r.1, s.2 ++ d.take r.2)
  | .read r l => (read s.1 r l, s.2)
  | .close l => (close s.1 l, s.2)

def run (c : Conn) (ops : List Op) : Conn × List Byte := ops.foldl step (c, [])

end Wv.Tcp
