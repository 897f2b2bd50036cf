import Verif.Spec.FdStream
/-!
`WvFdStream` (streams/wvfdstream.cc) and `WvFile` (streams/wvfile.cc) with the parts of `WvStream` (streams/wvstream.cc) that decide what happens to their descriptors. For the data that go through a `WvStream` see Model/Stream.

The system answers as it likes: the answers are a sequence. Functions call each other in circles (`close` flushes, writing may fail and close, ...), so there is one function `exec` with a bound on the depth
of calls; results hold for each bound. Left out: delayed flushing, limits of buffers, `flush_then_close`, and what `select` does while a flush waits, other than its answer. A close callback does nothing to the stream, or opens another file.
-/
namespace Wv.FdStream
open Spec.FdStream (Ev)

/-- What `read(2)` and `write(2)` answer: bytes (how many of those given), or an error, or to try again; and whether `select` waits successfully. -/
structure Ans where
  n : Nat
  data : List Byte
  err : Option Nat
  yes : Bool

/-- A close callback. -/
inductive Code where
  | nothing
  | reopen (d : Nat) (mode : Nat)
deriving DecidableEq

/-- The members of the classes. Not in the code: `tick`, the number of answers used; `log`, what was done to descriptors; `readcb`, whether there is a callback for reading (`force_select`), and so `writecb`. -/
structure St where
  rfd : Option Nat := none
  wfd : Option Nat := none
  shutR : Bool := false
  shutW : Bool := false
  closed : Bool := false
  stopR : Bool := false
  stopW : Bool := false
  flushing : Bool := false
  err : Nat := 0
  inbuf : List Byte := []
  outbuf : List Byte := []
  closecb : Option Code := none
  readable : Bool := false
  writable : Bool := false
  readcb : Bool := true
  writecb : Bool := false
  tick : Nat := 0
  log : List Ev := []
deriving DecidableEq

/-- `isok` (streams/wvfdstream.cc:134-137, streams/wvstream.cc:447-450). -/
def St.isok (s : St) : Bool := !s.closed && s.err == 0 && (s.rfd != none || s.wfd != none)

/-- A system call for a descriptor; for -1 it fails and does nothing. -/
def St.sys (s : St) (d : Option Nat) (e : Nat → Ev) : St :=
  match d with
  | some d => { s with log := s.log ++ [e d] }
  | none => s

/-- `setfd` of a new descriptor. -/
def St.setfd (s : St) (d : Nat) : St := { s with rfd := some d, wfd := some d, log := s.log ++ [.took d] }

/-- The mode of `open` (streams/wvfile.cc:71-79). -/
def St.mode (s : St) (mode : Nat) : St :=
  let x := mode % 4
  let s := { s with readable := x == 0 || x == 2, writable := x == 1 || x == 2 }
  if s.readable then s else { s with readcb := false }

/-- `open` (streams/wvfile.cc:64-97) when the stream is closed already, so that `close` does nothing. -/
def St.openClosed (s : St) (d mode : Nat) : St :=
  { ({ s with err := 0 }.mode mode).setfd d with closed := false, stopR := false, stopW := false }

/-- The close callback is called (streams/wvstream.cc:351-356). -/
def St.callback (s : St) : St :=
  match s.closecb with
  | none => s
  | some .nothing => { s with closecb := none, log := s.log ++ [.callback] }
  | some (.reopen d m) => St.openClosed { s with closecb := none, log := s.log ++ [.callback] } d m

/-- The descriptors are closed (streams/wvfdstream.cc:124-128). -/
def St.closeFds (s : St) : St :=
  let t := s.sys s.rfd .closed
  let t := if s.wfd ≠ s.rfd then t.sys s.wfd .closed else t
  { t with rfd := none, wfd := none }

/-- The writing side of `maybe_autoclose` (streams/wvfdstream.cc:188-198), and whether it goes on. -/
def St.autoW (s : St) : St × Bool :=
  if s.stopW && !s.shutW && s.outbuf.isEmpty then
    let t := { s with shutW := true }
    if s.wfd = none then (t, false)
    else
      let t := if s.rfd ≠ s.wfd then t.sys s.wfd .closed else t.sys s.wfd .shutW
      ({ t with wfd := none }, true)
  else (s, true)

/-- The reading side of `maybe_autoclose` (streams/wvfdstream.cc:200-208). -/
def St.autoR (s : St) : St :=
  if s.stopR && !s.shutR && s.inbuf.isEmpty then
    let t := { s with shutR := true }
    let t := if s.rfd ≠ s.wfd then t.sys s.rfd .closed else t.sys s.rfd .shutR
    { t with rfd := none }
  else s

inductive Call where
  | close
  | seterr (e : Nat)
  /-- `flush`, waiting or not -/
  | flush (wait : Bool)
  /-- `flush_outbuf` -/
  | flushOut (wait : Bool)
  /-- the loop in it -/
  | loop (wait : Bool)
  /-- what comes after the loop, with `outbuf_was_used` -/
  | after (used : Bool)
  | auto
  | uwrite (b : List Byte)
  | uread (n : Nat)

/-- The result of a call: how many bytes were written, or those read. -/
abbrev Res := St × Nat × List Byte

/-- The functions that call each other: `close` (streams/wvfdstream.cc:117-131, streams/wvstream.cc:343-361), `seterr` (streams/wvstream.cc:453-460), `flush` (streams/wvstream.cc:708-723), `flush_outbuf`
    (streams/wvstream.cc:731-807), `maybe_autoclose` (streams/wvfdstream.cc:186-212, streams/wvstream.cc:585-589), `uwrite` (streams/wvfdstream.cc:162-183) and `uread` (streams/wvfdstream.cc:140-159). `flush_outbuf` offers all its bytes at once. -/
def exec (dev : Nat → Ans) : Nat → Call → St → Option Res
  | 0, _, _ => none
  | f + 1, .close, s =>
    if s.closed then some (s, 0, [])
    else (exec dev f (.flush true) s).map fun r => ({ r.1 with closed := true }.callback.closeFds, 0, [])
  | f + 1, .seterr e, s => if s.err ≠ 0 then some (s, 0, []) else exec dev f .close { s with err := e }
  | f + 1, .flush w, s =>
    if s.flushing then some (s, 0, [])
    else (exec dev f (.flushOut w) { s with flushing := true }).map fun r => ({ r.1 with flushing := false }, 0, [])
  | f + 1, .flushOut w, s => if s.outbuf.isEmpty then exec dev f .auto s else exec dev f (.loop w) s
  | f + 1, .loop w, s =>
    if !s.isok then exec dev f (.after true) s
    else (exec dev f (.uwrite s.outbuf) { s with outbuf := [] }).bind fun r =>
      let t := if r.1.isok && decide (r.2.1 < s.outbuf.length) then { r.1 with outbuf := s.outbuf.drop r.2.1 ++ r.1.outbuf } else r.1
      if !w then exec dev f (.after true) t
      else
        let a := dev t.tick
        let t := { t with tick := t.tick + 1 }
        if !a.yes then exec dev f (.after true) t
        else if t.outbuf.isEmpty then exec dev f (.after false) t
        else exec dev f (.loop w) t
  | f + 1, .after used, s => exec dev f .auto (if used && !s.isok then { s with outbuf := [] } else s)
  | f + 1, .auto, s =>
    let (t, on) := s.autoW
    if !on then some (t, 0, [])
    else
      let t := t.autoR
      if t.stopR && t.stopW && t.outbuf.isEmpty && t.inbuf.isEmpty && !t.closed then exec dev f .close t else some (t, 0, [])
  | f + 1, .uwrite b, s =>
    if b.isEmpty || !s.isok then some (s, 0, [])
    else
      let a := dev s.tick
      let s := { s with tick := s.tick + 1 }
      match s.wfd with
      | none => (exec dev f (.seterr 9) s).map fun r => (r.1, 0, [])
      | some d =>
        if 0 < a.n then
          let k := min a.n b.length
          some ({ s with log := s.log ++ [.wrote d (b.take k)] }, k, [])
        else match a.err with
          | none => some ({ s with log := s.log ++ [.wrote d []] }, 0, [])
          | some e => (exec dev f (.seterr e) { s with log := s.log ++ [.wrote d []] }).map fun r => (r.1, 0, [])
  | f + 1, .uread n, s =>
    if n = 0 || !s.isok then some (s, 0, [])
    else
      let a := dev s.tick
      let s := { s with tick := s.tick + 1 }
      match s.rfd with
      | none => (exec dev f (.seterr 9) s).map fun r => (r.1, 0, [])
      | some d =>
        if !a.data.isEmpty then some ({ s with log := s.log ++ [.got d (a.data.take n)] }, 0, a.data.take n)
        else match a.err with
          | none => some ({ s with log := s.log ++ [.got d []] }, 0, [])
          | some e => (exec dev f (.seterr e) { s with log := s.log ++ [.got d []] }).map fun r => (r.1, 0, [])

/-- What a program does with a stream. `auto` is the beginning of each `select` (streams/wvstream.cc:848). -/
inductive Op where
  | write (b : List Byte)
  | read (n : Nat)
  | unread (b : List Byte)
  | flush (wait : Bool)
  | close
  | noread
  | nowrite
  | seterr (e : Nat)
  | auto
  | onclose (c : Option Code)
  | force (r w : Bool)
  /-- `WvFile::open`, which gets a descriptor or an error -/
  | opens (d : Nat) (mode : Nat)
  | openFails (e : Nat) (mode : Nat)

/-- `write` (streams/wvstream.cc:534-568), `read` (streams/wvstream.cc:480-531), `unread` (streams/wvstream.cc:1197-1204), `noread` and `nowrite` (streams/wvstream.cc:571-582), `setclosecallback` (streams/wvstream.cc:1181-1194),
    `force_select` (streams/wvstream.cc:1034-1042) and `open` (streams/wvfile.cc:64-97). The result is what is read. -/
def St.step (dev : Nat → Ans) (f : Nat) (s : St) : Op → Option (St × List Byte)
  | .write b =>
    if !s.isok || b.isEmpty || s.stopW then some (s, [])
    else
      (if s.outbuf.isEmpty then exec dev f (.uwrite b) s else some (s, 0, [])).bind fun r =>
        (exec dev f (.flush false) { r.1 with outbuf := r.1.outbuf ++ b.drop r.2.1 }).map fun r => (r.1, [])
  | .read n =>
    if s.inbuf.isEmpty then (exec dev f (.uread n) s).bind fun r => (exec dev f .auto r.1).map fun q => (q.1, r.2.2)
    else (exec dev f .auto { s with inbuf := s.inbuf.drop n }).map fun q => (q.1, s.inbuf.take n)
  | .unread b => some ({ s with inbuf := b ++ s.inbuf }, [])
  | .flush w => (exec dev f (.flush w) s).map fun r => (r.1, [])
  | .close => (exec dev f .close s).map fun r => (r.1, [])
  | .noread => (exec dev f .auto { s with stopR := true }).map fun r => (r.1, [])
  | .nowrite => (exec dev f .auto { s with stopW := true }).map fun r => (r.1, [])
  | .seterr e => (exec dev f (.seterr e) s).map fun r => (r.1, [])
  | .auto => (exec dev f .auto s).map fun r => (r.1, [])
  | .onclose c =>
    if s.isok then some ({ s with closecb := c }, [])
    else match c with
      | none => some ({ s with closecb := none }, [])
      | some .nothing => some ({ s with closecb := none, log := s.log ++ [.callback] }, [])
      | some (.reopen d mode) =>
        (exec dev f .close (St.mode { s with closecb := none, log := s.log ++ [Ev.callback], err := 0 } mode)).map fun r =>
          ({ r.1.setfd d with closed := false, stopR := false, stopW := false }, [])
  | .force r w => some ({ s with readcb := s.readcb || r, writecb := s.writecb || w }, [])
  | .opens d mode =>
    (exec dev f .close ({ s with err := 0 }.mode mode)).map fun r => ({ r.1.setfd d with closed := false, stopR := false, stopW := false }, [])
  | .openFails e mode =>
    (exec dev f .close ({ s with err := 0 }.mode mode)).bind fun r => (exec dev f (.seterr e) r.1).map fun r => (r.1, [])

def St.run (dev : Nat → Ans) (f : Nat) : List Op → St → Option (St × List Byte)
  | [], s => some (s, [])
  | o :: os, s => (s.step dev f o).bind fun r => (St.run dev f os r.1).map fun q => (q.1, r.2 ++ q.2)

/-- The constructors (streams/wvfdstream.cc:55-65). -/
def make (r w : Option Nat) : St :=
  { rfd := r, wfd := w, log := (match r with | some d => [.took d] | none => []) ++ (if w = r then [] else match w with | some d => [.took d] | none => []) }

/-- `pre_select` of a file that asks for no other reasons (streams/wvfile.cc:131-143, streams/wvfdstream.cc:215-250, streams/wvstream.cc:846-874), with the buffer for reading empty and no alarm: which descriptors `select(2)` is asked about, for
    reading and writing. `own` is `!inherit_request`. -/
def St.preSelect (s : St) (wantR wantW own : Bool) : Option Nat × Option Nat :=
  let r := wantR && s.readable
  let w := wantW && s.writable
  let r := r || (own && s.isok && s.readcb)
  let w := w || (own && s.isok && s.writecb)
  (if r then s.rfd else none, if w || !s.outbuf.isEmpty then s.wfd else none)

end Wv.FdStream
