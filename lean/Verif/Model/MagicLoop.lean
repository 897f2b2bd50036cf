import Verif.Spec.MagicLoop
/-!
`WvMagicLoopback` (streams/wvmagicloopback.cc) when one process writes and another one, forked from it, reads. The circle (utils/wvmagiccircle.cc) is the queue of its bytes, of a capacity: for what it does itself, also with two
processes, see Model/MagicCircle. The loopback stream inside is the number of bytes in its socket, which has a capacity. Each step takes effect at once. The buffers that `WvStream` has around `uread` and `uwrite` are left out, and so are errors.
-/
namespace Wv.MagicLoop
open Spec.MagicLoop (Act)

/-- Where the reader is: between calls, in `pre_select` after `drain`, waiting in `select(2)`, after `select` with the answer that there are data. -/
inductive Reader where
  | idle
  | drained
  | sleeping
  | ready
deriving DecidableEq

/-- `data` are the bytes in the circle, `wake` is the number of those in the socket; `putting` tells that the writer is in `uwrite` between `put` and waking. Not in the code: `given` and `got`, all bytes put and read. -/
structure S where
  data : List Byte
  wake : Nat
  rd : Reader
  putting : Bool
  given : List Byte
  got : List Byte
deriving DecidableEq

/-- The constructor (streams/wvmagicloopback.cc:8-12). -/
def new : S := ⟨[], 0, .idle, false, [], []⟩

/-- `post_select` (streams/wvmagicloopback.cc:27-36) for reading. -/
def post (s : S) : S := { s with rd := if s.data.length > 0 then .ready else .idle }

/-- One step; `none` if it cannot be taken now. `cap` and `sock` are the capacities.
    `drain` and `look` are `pre_select` (streams/wvmagicloopback.cc:15-24): with data `select` does not wait. `wakes`: the socket is readable. `read` is `uread` (streams/wvmagicloopback.cc:39-42). `put` and `signal` are `uwrite`
    (streams/wvmagicloopback.cc:45-53): bytes for which there is no room are not taken; a full socket does not take a byte more. -/
def step (cap sock : Nat) (s : S) : Act → Option S
  | .drain => if s.rd = .idle then some { s with wake := 0, rd := .drained } else none
  | .look => if s.rd = .drained then (if s.data.length > 0 then some (post s) else some { s with rd := .sleeping }) else none
  | .wakes => if s.rd = .sleeping ∧ s.wake > 0 then some (post s) else none
  | .read n => if s.rd = .ready ∨ s.rd = .idle then some { s with data := s.data.drop n, got := s.got ++ s.data.take n, rd := .idle } else none
  | .put b =>
    if s.putting then none
    else
      let b := b.take (cap - s.data.length)
      if b.length > 0 then some { s with data := s.data ++ b, given := s.given ++ b, putting := true } else some s
  | .signal => if s.putting then some { s with wake := min (s.wake + 1) sock, putting := false } else none
  | .writerDrain => if s.putting then none else some { s with wake := 0 }

/-- Some steps. -/
def run (cap sock : Nat) : S → List Act → Option S
  | s, [] => some s
  | s, a :: l => (step cap sock s a).bind fun t => run cap sock t l

end Wv.MagicLoop
