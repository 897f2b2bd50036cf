import Verif.Spec.StreamsDaemon
/-!
`WvStreamsDaemon` (streams/wvstreamsdaemon.cc), with the loop of `WvDaemon` (C97) and the list of all streams (streams/wvistreamlist.cc) as far as they are used.
Signals and the pid file are in Model/Daemon; what streams do when they are called is in the acts.
-/
namespace Wv.StreamsDaemon
open Spec.StreamsDaemon (Kind Act)

/-- A stream: whether it is ok, and its close callback, if that is one of a daemon. -/
structure Strm where
  ok : Bool
  cb : Option Kind
deriving DecidableEq, Repr

inductive Pc where
  | idle
  | running
  | ended
deriving DecidableEq, Repr

/-- The daemon (include/wvstreamsdaemon.h:36-41, include/wvdaemon.h), the list of all streams, with what is to be freed, and the streams there are. -/
structure World where
  pc : Pc
  die : Bool
  restart : Bool
  full : Bool
  own : List Nat
  glob : List (Nat × Bool)
  objs : Nat → Option Strm

def begin : World := ⟨.idle, false, false, false, [], [], fun _ => none⟩

def upd {β : Type} (f : Nat → β) (a : Nat) (b : β) : Nat → β := fun x => if x = a then b else f x

/-- `should_run` (include/wvdaemon.h:197-202). -/
def World.should (w : World) : Bool := !w.die && !w.restart

/-- `restart_close_cb`, `die_close_cb` (streams/wvstreamsdaemon.cc:84-105). -/
def World.fire (w : World) (k : Kind) : World :=
  if w.should then
    match k with
    | .restart => { w with restart := true }
    | .die => { w with die := true }
    | .plain => w
  else w

/-- `WvStream::close` (streams/wvstream.cc:341-360): the callback is called once. -/
def World.close (w : World) (a : Nat) : World :=
  match w.objs a with
  | some s =>
    let w := { w with objs := upd w.objs a (some ⟨false, none⟩) }
    match s.cb with
    | some k => w.fire k
    | none => w
  | none => w

/-- Freeing a stream: the destructor closes it. -/
def World.free (w : World) (a : Nat) : World :=
  let w := w.close a
  { w with objs := upd w.objs a none }

/-- `unlink` (include/wvlinklist.h:303-304): all elements with this address are removed. A stream that is to be freed is there once. -/
def World.unlink (w : World) (a : Nat) : World :=
  let own := w.glob.any fun x => x.1 == a && x.2
  let w := { w with glob := w.glob.filter fun x => x.1 != a }
  if own then w.free a else w

/-- `setclosecallback` (streams/wvstream.cc:1181-1194). -/
def World.onclose (w : World) (a : Nat) (k : Kind) : World :=
  match w.objs a with
  | some s => if s.ok then { w with objs := upd w.objs a (some ⟨true, some k⟩) } else World.fire { w with objs := upd w.objs a (some ⟨false, none⟩) } k
  | none => w

/-- `add_stream`, `add_restart_stream`, `add_die_stream` (streams/wvstreamsdaemon.cc:56-82). -/
def World.add (w : World) (a : Nat) (free : Bool) (k : Kind) : World :=
  let w := { w with own := w.own ++ [a], glob := w.glob ++ [(a, free)] }
  match k with
  | .plain => w
  | k => w.onclose a k

/-- What happens in callbacks. A stream can be put only at an address that is free; streams can be added only if they are there. -/
def World.act (w : World) : Act → World
  | .new a ok => match w.objs a with
    | none => { w with objs := upd w.objs a (some ⟨ok, none⟩) }
    | some _ => w
  | .add a free k => if (w.objs a).isSome then w.add a free k else w
  | .append a free => if (w.objs a).isSome then { w with glob := w.glob ++ [(a, free)] } else w
  | .close a => w.close a
  | .restart => { w with restart := true }
  | .die => { w with die := true }
  | .full => { w with full := true }

/-- Some streams are freed. -/
def World.freeAll (w : World) (l : List (Nat × Bool)) : World := l.foldl (fun w x => if x.2 then w.free x.1 else w) w

/-- Whether a stream is not ok. -/
def World.bad (w : World) (a : Nat) : Bool :=
  match w.objs a with
  | some s => !s.ok
  | none => false

/-- Streams that are not ok are removed (streams/wvistreamlist.cc:191-196), in one go. -/
def World.prune (w : World) : World :=
  World.freeAll { w with glob := w.glob.filter fun x => !w.bad x.1 } (w.glob.filter fun x => w.bad x.1)

/-- `zap` of the list of all streams (include/wvlinklist.h:228-232). -/
def World.zap (w : World) : World := World.freeAll { w with glob := [] } w.glob

/-- `do_stop` (streams/wvstreamsdaemon.cc:44-54). -/
def World.stop (w : World) : World :=
  let w := w.own.foldl World.unlink w
  let w := { w with own := [] }
  if w.full || w.die then w.zap else w

/-- One round of the loops in `_run` (streams/wvdaemon.cc:222-236) and `do_run` (streams/wvstreamsdaemon.cc:28-41), with what happens in it. That there are streams is checked
    before the first round only, but there cannot be fewer later. -/
def World.tick (w : World) (acts : List Act) : World :=
  match w.pc with
  | .idle => if w.die then { w with pc := .ended } else acts.foldl World.act { w with restart := false, pc := .running }
  | .running =>
    if w.should then
      if w.own.isEmpty then { w with die := true }
      else
        (acts.foldl World.act w).prune
    else { w.stop with pc := .idle }
  | .ended => w

def run (w : World) (l : List (List Act)) : World := l.foldl World.tick w

end Wv.StreamsDaemon
