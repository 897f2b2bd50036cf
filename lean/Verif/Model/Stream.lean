import Verif.Spec.Stream
/-
`WvStream` (streams/wvstream.cc, include/wvstream.h): buffered writing, buffered reading, closing, errors.

The device below the stream (`uread`, `uwrite`, `select`, the clock) answers as it likes: the answers are a sequence `dev`. While it answers, a device may
call `seterr`, `close`, `noread` or `nowrite` of the stream, as `WvFdStream` does (streams/wvfdstream.cc:140-183). The code of close callbacks is `cb`: any list
of operations, which may depend on the state; it does not read from the stream. Functions call each other in circles (`close` flushes, the device closes, ...), so
there is one function `exec` with a bound on the depth of calls; results hold for each bound.

Not modelled: callbacks other than the close callback, alarms, continue_select, `WvErrorBase::onerror`, the global stream. `time_t` and byte counts are unbounded
numbers, other than where `write` subtracts.
-/
namespace Wv.Stream
open Spec.Stream (Ev)

/-- What a device may call while it answers. -/
inductive Act where
  | seterr (e : Nat)
  | noread
  | nowrite
  | close
  deriving DecidableEq

/-- An answer of the device: how many bytes `uwrite` takes, in how large a piece they are offered (`optgettable`), what `uread` gives, what it calls, whether
`select` says yes or a time is over, whether `post_select` of the device flushes as well (streams/wvfdstream.cc:260-263). -/
structure Ans where
  n : Nat
  chunk : Nat
  data : List Byte
  acts : List Act
  yes : Bool
  again : Bool

/-- What the user of a stream calls, other than for reading. Callbacks are known by number. -/
inductive Op where
  | write (b : List Byte)
  | flush (ms : Int)
  | close
  | seterr (e : Nat)
  | noread
  | nowrite
  | onclose (id : Option Nat)
  | delay (on : Bool)
  | autoFlush (on : Bool)
  | limit (n : Nat)
  | queuemin (n : Nat)
  | flushThenClose
  | select
  deriving DecidableEq

/-- The members of `WvStream` (include/wvstream.h:540-640). Not in the code: `tick`, the number of answers used; `sent`, what the device took; `io`, what happened on
the reading side; `reg`, `called` and `replaced`, the close callbacks that were set, run, and given back by `setclosecallback` unused. -/
structure St where
  inbuf : List Byte
  outbuf : List Byte
  closed : Bool
  err : Nat
  stopRead : Bool
  stopWrite : Bool
  closecb : Option Nat
  max : Nat
  delayed : Bool
  autoFlush : Bool
  wantFlush : Bool
  flushing : Bool
  queueMin : Nat
  autoclose : Bool
  tick : Nat
  sent : List Byte
  io : List Ev
  reg : List Nat
  called : List Nat
  replaced : List Nat
  deriving DecidableEq

/-- The constructor (streams/wvstream.cc:251-270). -/
def new : St := ⟨[], [], false, 0, false, false, none, 0, false, true, true, false, 0, false, 0, [], [], [], [], []⟩

/-- `isok` (streams/wvstream.cc:447-450, include/wverror.h:53-54). -/
def isok (s : St) : Bool := !s.closed && s.err == 0

/-- The functions, for calls among them. -/
inductive Call where
  | write (b : List Byte)
  | flush (ms : Int)
  | flushOutbuf (ms : Int)
  | loop (ms : Int)
  | close
  | seterr (e : Nat)
  | autoclose
  | select
  | acts (l : List Act)
  | ops (l : List Op)
  | op (o : Op)

section
variable (dev : Nat → Ans) (cb : St → Nat → List Op)

/-- `uwrite`: the device takes some of these bytes, and calls what it likes. -/
def uwrite (rec : Call → St → St × Nat) (b : List Byte) (s : St) : St × Nat :=
  let a := dev s.tick
  let k := min a.n b.length
  ((rec (.acts a.acts) { s with tick := s.tick + 1, sent := s.sent ++ b.take k }).1, k)

/-- `max_outbuf_size - outbuf.used()` for `size_t`. -/
def subSize (a b : Nat) : Nat := (a + 2 ^ 64 - b) % 2 ^ 64

/-- How many of `n` bytes `write` puts in the buffer (streams/wvstream.cc:547-552). -/
def canBuffer (s : St) (n : Nat) : Nat := if s.max ≠ 0 then min n (subSize s.max s.outbuf.length) else n

/-- The buffered part of `write` (streams/wvstream.cc:547-567), when `w` bytes have been written already. -/
def writeRest (rec : Call → St → St × Nat) (b : List Byte) (s : St) (w : Nat) : St × Nat :=
  let cnt := canBuffer s (b.length - w)
  let s := { s with outbuf := s.outbuf ++ (b.drop w).take cnt }
  (if s.wantFlush then (rec (if s.autoFlush then .flush 0 else .flushOutbuf 0) s).1 else s, w + cnt)

/-- `write` (streams/wvstream.cc:534-568). -/
def write (rec : Call → St → St × Nat) (b : List Byte) (s : St) : St × Nat :=
  if !isok s || b.isEmpty || s.stopWrite then (s, 0)
  else if !s.delayed && s.outbuf.isEmpty then
    let u := uwrite dev rec b s
    writeRest rec b u.1 u.2
  else writeRest rec b s 0

/-- `flush` (streams/wvstream.cc:709-723); `flush_internal` has nothing to do (streams/wvstream.cc:810-814). -/
def flush (rec : Call → St → St × Nat) (ms : Int) (s : St) : St × Nat :=
  if s.flushing then (s, 0)
  else
    let r := rec (.flushOutbuf ms) { s with flushing := true, wantFlush := true }
    ({ r.1 with flushing := false }, r.2)

/-- What `flush_outbuf` does after its loop (streams/wvstream.cc:780-806). `done` is `!outbuf_was_used`. -/
def flushEnd (rec : Call → St → St × Nat) (s : St) (done : Bool) : St × Nat :=
  let s := if s.autoclose && isok s then
      let a := dev s.tick
      let s := { s with tick := s.tick + 1 }
      if s.outbuf.isEmpty || a.yes then (rec .close { s with autoclose := false }).1 else s
    else s
  let s := if s.delayed && done then { s with wantFlush := false } else s
  let s := if !done && !isok s then { s with outbuf := [] } else s
  ((rec .autoclose s).1, if done then 1 else 0)

/-- `flush_outbuf` (streams/wvstream.cc:732-807). -/
def flushOutbuf (rec : Call → St → St × Nat) (ms : Int) (s : St) : St × Nat :=
  if s.outbuf.isEmpty then
    if !s.autoclose && !s.delayed then ((rec .autoclose s).1, 1)
    else flushEnd dev rec s true
  else
    let r := rec (.loop ms) s
    flushEnd dev rec r.1 (r.2 == 1)

/-- How much of the buffer is offered to the device at once: some of it, if there is any. -/
def attempt (s : St) : Nat := max 1 (min (dev s.tick).chunk s.outbuf.length)

/-- One round of the loop up to the `unget` (streams/wvstream.cc:754-765). -/
def loopWrite (rec : Call → St → St × Nat) (s : St) : St :=
  let n := attempt dev s
  let u := uwrite dev rec (s.outbuf.take n) { s with outbuf := s.outbuf.drop n }
  if isok u.1 && u.2 < n then { u.1 with outbuf := (s.outbuf.take n).drop u.2 ++ u.1.outbuf } else u.1

/-- The rest of the round and the rounds that follow (streams/wvstream.cc:771-778). -/
def loopNext (rec : Call → St → St × Nat) (ms : Int) (s : St) : St × Nat :=
  if s.outbuf.isEmpty then (s, 1) else rec (.loop ms) s

/-- The loop of `flush_outbuf` (streams/wvstream.cc:749-778), entered with something in the buffer; 1 if it ends because there is nothing more. -/
def loop (rec : Call → St → St × Nat) (ms : Int) (s : St) : St × Nat :=
  if !isok s then (s, 0)
  else
    let s := loopWrite dev rec s
    if ms == 0 then (s, 0)
    else if ms < 0 then loopNext rec ms s
    else
      let a := dev s.tick
      let s := { s with tick := s.tick + 1 }
      if a.yes then (s, 0)
      else
        let r := rec .select s
        if r.2 == 1 then loopNext rec ms r.1 else (r.1, 0)

/-- `close` (streams/wvstream.cc:343-361). -/
def close (rec : Call → St → St × Nat) (s : St) : St × Nat :=
  let s := { (rec (.flush 2000) s).1 with closed := true }
  match s.closecb with
  | none => (s, 0)
  | some id =>
    let s := { s with closecb := none, called := s.called ++ [id] }
    ((rec (.ops (cb s id)) s).1, 0)

/-- `seterr` (streams/wvstream.cc:453-460). -/
def seterr (rec : Call → St → St × Nat) (e : Nat) (s : St) : St × Nat :=
  if s.err == 0 then ((rec .close { s with err := e }).1, 0) else (s, 0)

/-- `maybe_autoclose` (streams/wvstream.cc:585-589). -/
def maybeAutoclose (rec : Call → St → St × Nat) (s : St) : St × Nat :=
  if s.stopRead && s.stopWrite && s.outbuf.isEmpty && s.inbuf.isEmpty && !s.closed then ((rec .close s).1, 0) else (s, 0)

/-- `select` (streams/wvstream.cc:1006-1024): `pre_select` (846-848), the system call, `post_select` (892-893) and that of the device. -/
def select (rec : Call → St → St × Nat) (s : St) : St × Nat :=
  let s := (rec .autoclose s).1
  let a := dev s.tick
  let s := (rec (.acts a.acts) { s with tick := s.tick + 1 }).1
  let s := if s.wantFlush then (rec (.flush 0) s).1 else s
  let s := if a.again && (!s.outbuf.isEmpty || s.autoclose) && s.wantFlush then (rec (.flushOutbuf 0) s).1 else s
  (s, if a.yes then 1 else 0)

/-- What a device calls. -/
def act (rec : Call → St → St × Nat) (s : St) : Act → St
  | .seterr e => (rec (.seterr e) s).1
  | .noread => (rec .autoclose { s with stopRead := true }).1
  | .nowrite => (rec .autoclose { s with stopWrite := true }).1
  | .close => (rec .close s).1

/-- `setclosecallback` (streams/wvstream.cc:1181-1194). -/
def onclose (rec : Call → St → St × Nat) (id : Option Nat) (s : St) : St :=
  let s := { s with reg := s.reg ++ id.toList }
  if isok s then { s with closecb := id, replaced := s.replaced ++ s.closecb.toList }
  else
    let s := { s with closecb := none, replaced := s.replaced ++ s.closecb.toList }
    match id with
    | none => s
    | some id =>
      let s := { s with called := s.called ++ [id] }
      (rec (.ops (cb s id)) s).1

/-- The public functions: `noread`, `nowrite` (streams/wvstream.cc:571-582), `flush_then_close` (829-843), `delay_output`, `auto_flush`, `outbuf_limit`, `queuemin`
(include/wvstream.h:129-130, 232-259). -/
def op (rec : Call → St → St × Nat) (s : St) : Op → St × Nat
  | .write b => rec (.write b) s
  | .flush ms => rec (.flush ms) s
  | .close => rec .close s
  | .seterr e => rec (.seterr e) s
  | .noread => rec .autoclose { s with stopRead := true }
  | .nowrite => rec .autoclose { s with stopWrite := true }
  | .onclose id => (onclose cb rec id s, 0)
  | .delay on => ({ s with delayed := on, wantFlush := !on }, 0)
  | .autoFlush on => ({ s with autoFlush := on }, 0)
  | .limit n => ({ s with max := n }, 0)
  | .queuemin n => ({ s with queueMin := n }, 0)
  | .flushThenClose => rec (.flush 0) { s with autoclose := true }
  | .select => rec .select s

/-- The function called. -/
def body (rec : Call → St → St × Nat) : Call → St → St × Nat
  | .write b, s => write dev rec b s
  | .flush ms, s => flush rec ms s
  | .flushOutbuf ms, s => flushOutbuf dev rec ms s
  | .loop ms, s => loop dev rec ms s
  | .close, s => close cb rec s
  | .seterr e, s => seterr rec e s
  | .autoclose, s => maybeAutoclose rec s
  | .select, s => select dev rec s
  | .acts l, s => (l.foldl (act rec) s, 0)
  | .ops l, s => (l.foldl (fun s o => (rec (.op o) s).1) s, 0)
  | .op o, s => op cb rec s o

/-- A call with no more than so many calls inside each other; those deeper do nothing. -/
def exec : Nat → Call → St → St × Nat
  | 0, _, s => (s, 0)
  | f + 1, c, s => body dev cb (exec f) c s

/-- `uread` of at most `n` bytes. -/
def uread (rec : Call → St → St × Nat) (n : Nat) (s : St) : St × List Byte :=
  let a := dev s.tick
  let d := a.data.take n
  ((rec (.acts a.acts) { s with tick := s.tick + 1, io := s.io ++ [.produced d] }).1, d)

/-- `read` (streams/wvstream.cc:492-531). -/
def read (rec : Call → St → St × Nat) (count : Nat) (s : St) : St × List Byte :=
  let s := if s.inbuf.length < s.queueMin then
      let u := uread dev rec (s.queueMin - s.inbuf.length) s
      { u.1 with inbuf := u.1.inbuf ++ u.2 }
    else s
  if s.inbuf.length < s.queueMin then ((rec .autoclose s).1, [])
  else if s.inbuf.isEmpty then
    let u := uread dev rec count s
    ((rec .autoclose { u.1 with io := u.1.io ++ [.returned u.2] }).1, u.2)
  else
    let d := s.inbuf.take count
    ((rec .autoclose { s with inbuf := s.inbuf.drop count, io := s.io ++ [.returned d] }).1, d)

/-- The end of `blocking_getline` (streams/wvstream.cc:671-688). -/
def takeLine (sep : Byte) (s : St) : St × Option (List Byte) :=
  if s.inbuf.isEmpty then (s, none)
  else if s.inbuf.contains sep then
    let l := s.inbuf.takeWhile (· != sep)
    ({ s with inbuf := s.inbuf.drop (l.length + 1), io := s.io ++ [.returned (l ++ [sep])] }, some l)
  else ({ s with inbuf := [], io := s.io ++ [.returned s.inbuf] }, some s.inbuf)

/-- The loop of `blocking_getline` (streams/wvstream.cc:620-670), at most so many rounds. `wait`: there is time left to wait. -/
def getlineLoop (rec : Call → St → St × Nat) (sep : Byte) (ahead : Nat) : Nat → Bool → St → St × Option (List Byte)
  | 0, _, s => (s, none)
  | f + 1, wait, s =>
    if !isok s then takeLine sep s
    else
      let s := { s with queueMin := 0 }
      if s.inbuf.contains sep || s.stopRead then takeLine sep s
      else
        let s := { s with queueMin := s.inbuf.length + 1 }
        let a := dev s.tick
        let wait := wait && !a.yes
        let r := rec .select { s with tick := s.tick + 1 }
        if !isok r.1 then takeLine sep r.1
        else if r.2 == 1 then
          let u := uread dev rec ahead r.1
          let s := { u.1 with inbuf := u.1.inbuf ++ u.2 }
          if !isok s then takeLine sep s
          else if u.2.isEmpty && !wait then (s, none)
          else getlineLoop rec sep ahead f wait s
        else if !wait then (r.1, none)
        else getlineLoop rec sep ahead f wait r.1

/-- `blocking_getline` (streams/wvstream.cc:604-689). The line is what is before the separator. -/
def getline (rec : Call → St → St × Nat) (rounds : Nat) (wait : Bool) (sep : Byte) (ahead : Nat) (s : St) : St × Option (List Byte) :=
  getlineLoop dev rec sep ahead rounds wait (rec .autoclose s).1

/-- `unread` (streams/wvstream.cc:1197-1204). -/
def unread (b : List Byte) (s : St) : St := { s with inbuf := b ++ s.inbuf, io := s.io ++ [.unread b] }

/-- What the user calls, with reading. -/
inductive TOp where
  | op (o : Op)
  | read (n : Nat)
  | getline (rounds : Nat) (wait : Bool) (sep : Byte) (ahead : Nat)
  | unread (b : List Byte)

/-- A call by the user; the number is the result of the operations other than for reading. -/
def step (fuel : Nat) (s : St) : TOp → St × Nat
  | .op o => exec dev cb fuel (.op o) s
  | .read n => ((read dev (exec dev cb fuel) n s).1, 0)
  | .getline rounds wait sep ahead => ((getline dev (exec dev cb fuel) rounds wait sep ahead s).1, 0)
  | .unread b => (unread b s, 0)

/-- A history: the state at the end and the results. -/
def run (fuel : Nat) (s : St) : List TOp → St × List Nat
  | [] => (s, [])
  | o :: h =>
    let r := step dev cb fuel s o
    let t := run fuel r.1 h
    (t.1, r.2 :: t.2)

end
end Wv.Stream
