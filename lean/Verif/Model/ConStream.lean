import Verif.Model.FdStream
import Verif.Spec.ConStream
/-!
The console streams `wvin`, `wvout`, `wverr` and `wvcon` (streams/wvconstream.cc) over `WvFdStream` as in Model/FdStream, with the same parts left out. As `close` and `isok` are virtual, the functions that call each other are here
once more with those of the console streams.
-/
namespace Wv.ConStream
open Wv Wv.FdStream
open Spec.FdStream (Ev)

/-- `_WvConStream` (streams/wvconstream.cc:14-23): a `WvFDStream` and `isopen`. -/
structure Con where
  fd : St
  isopen : Bool
deriving DecidableEq

/-- The constructor (streams/wvconstream.cc:26-33). -/
def make (r w : Option Nat) : Con := ⟨FdStream.make r w, true⟩

/-- A close callback, which does nothing to the stream (streams/wvstream.cc:351-356). -/
def callback (s : St) : St :=
  match s.closecb with
  | none => s
  | some _ => { s with closecb := none, log := s.log ++ [.callback] }

/-- After writing `n` of the bytes `b` from the buffer the rest is put back (streams/wvstream.cc:731-807). -/
def putBack (c : Con) (b : List Byte) (n : Nat) : St :=
  if c.isopen && decide (n < b.length) then { c.fd with outbuf := b.drop n ++ c.fd.outbuf } else c.fd

/-- The functions that call each other: `close` (streams/wvconstream.cc:42-47, then streams/wvfdstream.cc:117-131 and streams/wvstream.cc:343-361); `isok` is `isopen` (streams/wvconstream.cc:50-53); the others are those of `FdStream.exec`. -/
def exec (dev : Nat → Ans) : Nat → Call → Con → Option (Con × Nat × List Byte)
  | 0, _, _ => none
  | f + 1, .close, c =>
    let c : Con := ⟨{ c.fd with rfd := none, wfd := none }, false⟩
    if c.fd.closed then some (c, 0, [])
    else (exec dev f (.flush true) c).map fun r => (⟨St.closeFds (callback { r.1.fd with closed := true }), r.1.isopen⟩, 0, [])
  | f + 1, .seterr e, c => if c.fd.err ≠ 0 then some (c, 0, []) else exec dev f .close ⟨{ c.fd with err := e }, c.isopen⟩
  | f + 1, .flush w, c =>
    if c.fd.flushing then some (c, 0, [])
    else (exec dev f (.flushOut w) ⟨{ c.fd with flushing := true }, c.isopen⟩).map fun r => (⟨{ r.1.fd with flushing := false }, r.1.isopen⟩, 0, [])
  | f + 1, .flushOut w, c => if c.fd.outbuf.isEmpty then exec dev f .auto c else exec dev f (.loop w) c
  | f + 1, .loop w, c =>
    if !c.isopen then exec dev f (.after true) c
    else (exec dev f (.uwrite c.fd.outbuf) ⟨{ c.fd with outbuf := [] }, c.isopen⟩).bind fun r =>
      let t := putBack r.1 c.fd.outbuf r.2.1
      if !w then exec dev f (.after true) ⟨t, r.1.isopen⟩
      else
        let a := dev t.tick
        let t := { t with tick := t.tick + 1 }
        if !a.yes then exec dev f (.after true) ⟨t, r.1.isopen⟩
        else if t.outbuf.isEmpty then exec dev f (.after false) ⟨t, r.1.isopen⟩
        else exec dev f (.loop w) ⟨t, r.1.isopen⟩
  | f + 1, .after used, c => exec dev f .auto (if used && !c.isopen then ⟨{ c.fd with outbuf := [] }, c.isopen⟩ else c)
  | f + 1, .auto, c =>
    let r := c.fd.autoW
    if !r.2 then some (⟨r.1, c.isopen⟩, 0, [])
    else
      let t := r.1.autoR
      if t.stopR && t.stopW && t.outbuf.isEmpty && t.inbuf.isEmpty && !t.closed then exec dev f .close ⟨t, c.isopen⟩ else some (⟨t, c.isopen⟩, 0, [])
  | f + 1, .uwrite b, c =>
    if b.isEmpty || !c.isopen then some (c, 0, [])
    else
      let a := dev c.fd.tick
      let s := { c.fd with tick := c.fd.tick + 1 }
      match s.wfd with
      | none => (exec dev f (.seterr 9) ⟨s, c.isopen⟩).map fun r => (r.1, 0, [])
      | some d =>
        if 0 < a.n then some (⟨{ s with log := s.log ++ [.wrote d (b.take (min a.n b.length))] }, c.isopen⟩, min a.n b.length, [])
        else match a.err with
          | none => some (⟨{ s with log := s.log ++ [.wrote d []] }, c.isopen⟩, 0, [])
          | some e => (exec dev f (.seterr e) ⟨{ s with log := s.log ++ [.wrote d []] }, c.isopen⟩).map fun r => (r.1, 0, [])
  | f + 1, .uread n, c =>
    if n = 0 || !c.isopen then some (c, 0, [])
    else
      let a := dev c.fd.tick
      let s := { c.fd with tick := c.fd.tick + 1 }
      match s.rfd with
      | none => (exec dev f (.seterr 9) ⟨s, c.isopen⟩).map fun r => (r.1, 0, [])
      | some d =>
        if !a.data.isEmpty then some (⟨{ s with log := s.log ++ [.got d (a.data.take n)] }, c.isopen⟩, 0, a.data.take n)
        else match a.err with
          | none => some (⟨{ s with log := s.log ++ [.got d []] }, c.isopen⟩, 0, [])
          | some e => (exec dev f (.seterr e) ⟨{ s with log := s.log ++ [.got d []] }, c.isopen⟩).map fun r => (r.1, 0, [])

/-- What a program does with a console stream. The destructor is `close` (streams/wvconstream.cc:36-39). -/
inductive Op where
  | write (b : List Byte)
  | read (n : Nat)
  | unread (b : List Byte)
  | flush (wait : Bool)
  | close
  | noread
  | nowrite
  | seterr (e : Nat)
  | auto
  | onclose

/-- `write`, `read` and so on, as in `FdStream.St.step`. -/
def step (dev : Nat → Ans) (f : Nat) (c : Con) : Op → Option (Con × List Byte)
  | .write b =>
    if !c.isopen || b.isEmpty || c.fd.stopW then some (c, [])
    else
      (if c.fd.outbuf.isEmpty then exec dev f (.uwrite b) c else some (c, 0, [])).bind fun r =>
        (exec dev f (.flush false) ⟨{ r.1.fd with outbuf := r.1.fd.outbuf ++ b.drop r.2.1 }, r.1.isopen⟩).map fun r => (r.1, [])
  | .read n =>
    if c.fd.inbuf.isEmpty then (exec dev f (.uread n) c).bind fun r => (exec dev f .auto r.1).map fun q => (q.1, r.2.2)
    else (exec dev f .auto ⟨{ c.fd with inbuf := c.fd.inbuf.drop n }, c.isopen⟩).map fun q => (q.1, c.fd.inbuf.take n)
  | .unread b => some (⟨{ c.fd with inbuf := b ++ c.fd.inbuf }, c.isopen⟩, [])
  | .flush w => (exec dev f (.flush w) c).map fun r => (r.1, [])
  | .close => (exec dev f .close c).map fun r => (r.1, [])
  | .noread => (exec dev f .auto ⟨{ c.fd with stopR := true }, c.isopen⟩).map fun r => (r.1, [])
  | .nowrite => (exec dev f .auto ⟨{ c.fd with stopW := true }, c.isopen⟩).map fun r => (r.1, [])
  | .seterr e => (exec dev f (.seterr e) c).map fun r => (r.1, [])
  | .auto => (exec dev f .auto c).map fun r => (r.1, [])
  | .onclose =>
    if c.isopen then some (⟨{ c.fd with closecb := some .nothing }, c.isopen⟩, [])
    else some (⟨{ c.fd with closecb := none, log := c.fd.log ++ [.callback] }, c.isopen⟩, [])

def run (dev : Nat → Ans) (f : Nat) : List Op → Con → Option (Con × List Byte)
  | [], c => some (c, [])
  | o :: os, c => (step dev f c o).bind fun r => (run dev f os r.1).map fun q => (q.1, r.2 ++ q.2)

end Wv.ConStream
