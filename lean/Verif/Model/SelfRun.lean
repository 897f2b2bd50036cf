import Verif.Model.ProcQueue
import Verif.Spec.SelfRun
/-!
`WvSubProcQueueStream` (streams/wvsubprocqueuestream.cc) over the queue of Model/ProcQueue, and `WvTimeoutStream` (streams/wvtimeoutstream.cc). Time is in milliseconds and does not go backwards; for the alarm with a clock
that does, see C77. The list of streams calls `callback` of a stream whose alarm has rung (streams/wvstream.cc:894-895, 403-414); these streams are ready for no other reason. The log messages are left out.
-/
namespace Wv.SelfRun
open Wv
open Spec.SelfRun (Ev)
open Spec.ProcQueue (Event)

/-- The queue, and when the alarm rings; `looks` counts the calls of `go` and is not in the code. -/
structure S where
  q : ProcQueue.State
  alarm : Option Nat
  looks : Nat

/-- The constructor (streams/wvsubprocqueuestream.cc:10-14). -/
def new (max now : Nat) : S := ⟨ProcQueue.new max, some now, 0⟩

/-- How many were started: `started` of `go` (utils/wvsubprocqueue.cc:74, 122). -/
def starts : List Event → Nat
  | [] => 0
  | .start _ _ :: l => starts l + 1
  | _ :: l => starts l

/-- `WvSubProcQueue::remaining` (utils/wvsubprocqueue.cc:140-143). -/
def remaining (q : ProcQueue.State) : Nat := q.runq.length + q.waitq.length

/-- `execute` (streams/wvsubprocqueuestream.cc:22-36). -/
def execute (s : S) (now : Nat) (done : Nat → Bool) : S :=
  let q := ProcQueue.go done s.q
  let started := starts q.trace - starts s.q.trace
  let ms := if remaining q = 0 then 1000 else if started ≠ 0 then 0 else 100
  ⟨q, some (now + ms), s.looks + 1⟩

/-- The alarm has rung (`alarm_remaining() == 0`). -/
def due (alarm : Option Nat) (now : Nat) : Bool :=
  match alarm with
  | none => false
  | some a => decide (a ≤ now)

/-- A process is added, or the list is run. -/
def step (s : S) : Ev → S
  | .add c => { s with q := ProcQueue.add s.q c }
  | .run t done => if due s.alarm t then execute { s with alarm := none } t done else s

def after (s : S) (l : List Ev) : S := l.foldl step s

/-- `WvTimeoutStream`: `ok` and the alarm. -/
structure Timeout where
  ok : Bool
  alarm : Option Nat
deriving DecidableEq

/-- The constructor (streams/wvtimeoutstream.cc:9-13). -/
def newTimeout (now ms : Nat) : Timeout := ⟨true, some (now + ms)⟩

/-- `callback` (streams/wvstream.cc:403-414), which calls `execute` (streams/wvtimeoutstream.cc:15-21). -/
def callback (s : Timeout) (now : Nat) : Timeout :=
  let ticking := due s.alarm now
  let s := if ticking then { s with alarm := none } else s
  if ticking then { s with ok := false } else s

end Wv.SelfRun
