import Verif.Spec.BufStream
/-!
`WvBufStream` (streams/wvbufstream.cc) on `WvStream` (streams/wvstream.cc). Not modelled: callbacks, alarms, `flush_then_close`, `auto_flush(false)`, `continue_select`.
-/
namespace Wv.BufStream
open Spec.BufStream (Ev)

/-- The fields of `WvBufStream` (include/wvbufstream.h:36-37) and those of `WvStream` that are used (include/wvstream.h:540-640). -/
structure St where
  inbuf : List Byte
  outbuf : List Byte
  dead : Bool
  eof : Bool
  closed : Bool
  err : Nat
  stopR : Bool
  stopW : Bool
  delayed : Bool
  want : Bool
  max : Nat
  qmin : Nat
deriving DecidableEq, Repr

/-- The constructors (streams/wvbufstream.cc:13-16, streams/wvstream.cc:251-270). -/
def new : St := ⟨[], [], false, false, false, 0, false, false, false, true, 0, 0⟩

/-- `isok` (streams/wvbufstream.cc:48-51). -/
def St.isok (s : St) : Bool := !s.dead

/-- How flushing goes, which depends on time and on the buffer: how much is moved, and whether it stops before it knows that nothing is left. -/
structure Flow where
  n : Nat
  still : Bool
deriving DecidableEq, Repr

/-- The condition in `maybe_autoclose` (streams/wvstream.cc:588-589). -/
def St.ended (s : St) : Bool := s.stopR && s.stopW && s.outbuf.isEmpty && s.inbuf.isEmpty && !s.closed

/-- `close` (streams/wvbufstream.cc:25-29, streams/wvstream.cc:341-360), called in `flush`: there, flushing does nothing. -/
def St.closeIn (s : St) : St := { s with dead := true, closed := true }

/-- `maybe_autoclose` (streams/wvstream.cc:586-590), called in `flush`. -/
def St.autoIn (s : St) : St := if s.ended then s.closeIn else s

/-- The loop in `flush_outbuf` (streams/wvstream.cc:727-755): each piece is taken whole by `uwrite` (streams/wvbufstream.cc:42-46); at least one piece is moved. -/
def St.move (s : St) (f : Flow) : St × Bool :=
  if s.outbuf.isEmpty || !s.isok then (s, !s.outbuf.isEmpty)
  else
    let k := f.n.max 1
    ({ s with inbuf := s.inbuf ++ s.outbuf.take k, outbuf := s.outbuf.drop k }, f.still || !(s.outbuf.drop k).isEmpty)

/-- `flush_outbuf` (streams/wvstream.cc:709-787), called in `flush`. -/
def St.flushOutbuf (s : St) (f : Flow) : St :=
  if s.outbuf.isEmpty && !s.delayed then s.autoIn
  else
    let r := s.move f
    let s := if r.1.delayed && !r.2 then { r.1 with want := false } else r.1
    let s := if r.2 && !s.isok then { s with outbuf := [] } else s
    s.autoIn

/-- `flush` (streams/wvstream.cc:685-699). -/
def St.flush (s : St) (f : Flow) : St := { s with want := true }.flushOutbuf f

/-- `close` (streams/wvbufstream.cc:25-29, streams/wvstream.cc:341-360). -/
def St.close (s : St) : St := { ({ s with dead := true }.flush ⟨0, false⟩) with closed := true }

/-- `maybe_autoclose` (streams/wvstream.cc:586-590). -/
def St.auto (s : St) : St := if s.ended then s.close else s

/-- `uread` (streams/wvbufstream.cc:34-39) gives nothing. -/
def St.uread (s : St) : St := if s.eof then s.close else s

/-- `read` (streams/wvstream.cc:495-531). -/
def St.read (s : St) (n : Nat) : St × List Byte :=
  if s.inbuf.length < s.qmin then (s.uread.auto, [])
  else if s.inbuf.isEmpty then (s.uread.auto, [])
  else ({ s with inbuf := s.inbuf.drop n }.auto, s.inbuf.take n)

/-- `max_outbuf_size - outbuf.used()` for `size_t`. -/
def subSize (a b : Nat) : Nat := (a + 2 ^ 64 - b) % 2 ^ 64

/-- `write` (streams/wvstream.cc:534-568): what it took. -/
def St.write (s : St) (b : List Byte) (f : Flow) : St × List Byte :=
  if !s.isok || b.isEmpty || s.stopW then (s, [])
  else if !s.delayed && s.outbuf.isEmpty then
    let s := { s with inbuf := s.inbuf ++ b }
    (if s.want then s.flush f else s, b)
  else
    let k := if s.max ≠ 0 then min b.length (subSize s.max s.outbuf.length) else b.length
    let s := { s with outbuf := s.outbuf ++ b.take k }
    (if s.want then s.flush f else s, b.take k)

/-- `select` with no time to wait (streams/wvstream.cc:1006-1024; 830-880, streams/wvbufstream.cc:54-66). -/
def St.select (s : St) (readable writable : Bool) (f : Flow) : St × Bool :=
  let s := s.auto
  let s := if s.want then s.flush f else s
  (s, (readable && !s.inbuf.isEmpty && s.inbuf.length ≥ s.qmin) || writable || s.eof)

/-- `isreadable` (streams/wvstream.cc:593-596). -/
def St.isreadable (s : St) (f : Flow) : St × Bool := if s.isok then s.select true false f else (s, false)

/-- `iswritable` (streams/wvstream.cc:599-602). -/
def St.iswritable (s : St) (f : Flow) : St × Bool := if !s.stopW && s.isok then s.select false true f else (s, false)

/-- The end of `blocking_getline` (streams/wvstream.cc:667-687): a line, or what is there. The character that follows in memory is set to 0, and the length is not told: a text with NUL in it seems to end there. -/
def St.take (s : St) : St × Ev :=
  if s.inbuf.isEmpty then (s, .nothing)
  else if s.inbuf.contains 10 then
    ({ s with inbuf := (s.inbuf.dropWhile (· != 10)).drop 1 }, .line (s.inbuf.takeWhile (· != 10)))
  else ({ s with inbuf := [] }, .rest s.inbuf)

/-- `getline` without waiting (streams/wvstream.cc:605-687): with no time to wait, the loop ends in its first round, since `uread` gives nothing. -/
def St.getline (s : St) (f : Flow) : St × Ev :=
  let s := s.auto
  if !s.isok then s.take
  else
    let s := { s with qmin := 0 }
    if s.inbuf.contains 10 || s.stopR then s.take
    else
      let s := { s with qmin := s.inbuf.length + 1 }
      let r := s.select true false f
      if !r.1.isok then r.1.take
      else
        let s := if r.2 then r.1.uread else r.1
        if !s.isok then s.take else (s, .nothing)

inductive Op where
  | write (b : List Byte) (f : Flow)
  | read (n : Nat)
  | getline (f : Flow)
  | flush (f : Flow)
  | isreadable (f : Flow)
  | iswritable (f : Flow)
  | close
  | seterr (e : Nat)
  | noread
  | nowrite
  | delay (on : Bool)
  | limit (n : Nat)
  | queuemin (n : Nat)
  | seteof
deriving DecidableEq, Repr

/-- What a user does. `seterr` is streams/wvstream.cc:453-460, `noread` and `nowrite` :571-583, `delay_output` include/wvstream.h:246-250, `outbuf_limit` :129-130, `queuemin` :232-233, `seteof` include/wvbufstream.h:50. -/
def St.step (s : St) : Op → St × List Ev
  | .write b f => let r := s.write b f; (r.1, [.took r.2])
  | .read n => let r := s.read n; (r.1, [.gave r.2])
  | .getline f => let r := s.getline f; (r.1, [r.2])
  | .flush f => (s.flush f, [])
  | .isreadable f => ((s.isreadable f).1, [])
  | .iswritable f => ((s.iswritable f).1, [])
  | .close => (s.close, [])
  | .seterr e => if s.err = 0 then ({ s with err := e }.close, []) else (s, [])
  | .noread => ({ s with stopR := true }.auto, [])
  | .nowrite => ({ s with stopW := true }.auto, [])
  | .delay on => ({ s with delayed := on, want := !on }, [])
  | .limit n => ({ s with max := n }, [])
  | .queuemin n => ({ s with qmin := n }, [])
  | .seteof => ({ s with eof := true }, [])

def run : List Op → St → St × List Ev
  | [], s => (s, [])
  | o :: os, s =>
    let r := s.step o
    let q := run os r.1
    (q.1, r.2 ++ q.2)

end Wv.BufStream
