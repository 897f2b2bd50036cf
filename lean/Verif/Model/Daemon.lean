import Verif.Spec.Daemon
/-
Model of WvDaemon: streams/wvdaemon.cc, include/wvdaemon.h, from the moment in which the process has gone to the background, if it does. Logging and files other than the pid file
are not modelled; the number in the pid file is taken as it is (`none` if there is no file, or no number in it).
-/
namespace Wv.Daemon
open Spec.Daemon (Cb)

/-- What happens while a callback runs: `die`, `restart` (include/wvdaemon.h:181-191), signals. -/
inductive Req where
  | die (status : Int)
  | restart
  | hup
  | term
  | quit
  deriving DecidableEq

/-- Where the program is: in `do_load`, before the pid file is read, or written; before `while (!want_to_die())`; before `while (should_run())`; it returned; it was
    killed, or left by `exit`. -/
inductive Pc where
  | check
  | write
  | top
  | inner
  | ended
  | killed
  deriving DecidableEq

/-- The object, and which callbacks were called. `handlers`: the signal handlers are installed. -/
structure St where
  pc : Pc
  die : Bool
  restart : Bool
  status : Int
  handlers : Bool
  hupIgnored : Bool
  termDefault : Bool
  trace : List Cb
  deriving DecidableEq

/-- The beginning of `_run` (streams/wvdaemon.cc:205-219); the status is what was in memory. -/
def begin (junk : Int) : St := ⟨.check, false, false, junk, false, false, false, []⟩

/-- Requests, and the signal handlers (streams/wvdaemon.cc:46-71). A signal without a handler, or SIGTERM for the second time, ends the process. -/
def req (s : St) (r : Req) : St :=
  if s.pc = .killed then s
  else
    match r with
    | .die st => { s with die := true, status := st }
    | .restart => { s with restart := true }
    | .hup =>
      if !s.handlers then { s with pc := .killed }
      else if s.hupIgnored then s
      else { s with restart := true, hupIgnored := true }
    | .term =>
      if !s.handlers || s.termDefault then { s with pc := .killed }
      else { s with die := true, status := 0, termDefault := true }
    | .quit => { s with pc := .killed }

/-- A callback, and what happens while it runs. -/
def call (s : St) (c : Cb) (rs : List Req) : St := rs.foldl req { s with trace := s.trace ++ [c] }

/-- What one step finds: the pid file, which processes there are, what happens during the callback. -/
structure In where
  file : Option Nat
  alive : Nat → Bool
  reqs : List Req

/-- One step of `_run` (streams/wvdaemon.cc:220-241), `do_load` (244-297), `do_unload` (321-338): the object and the pid file afterwards. `me` is `getpid()`, `bg`: `daemonize`, and a pid file is set.
    Writing the pid file does not fail. -/
def step (bg : Bool) (me : Nat) (s : St) (i : In) : St × Option Nat :=
  match s.pc with
  | .check =>
    if bg then
      match i.file with
      | some q => if 0 < q && i.alive q then ({ s with die := true, status := 0, pc := .top }, i.file) else ({ s with pc := .write }, i.file)
      | none => ({ s with pc := .write }, i.file)
    else (call { s with handlers := true, pc := .top } .load i.reqs, i.file)
  | .write => (call { s with handlers := true, pc := .top } .load i.reqs, some me)
  | .top =>
    if s.die then
      let u := call s .unload i.reqs
      if u.pc = .killed then (u, i.file) else ({ u with pc := .ended, handlers := false }, if bg then none else i.file)
    else (call { s with restart := false, pc := .inner } .start i.reqs, i.file)
  | .inner =>
    if !s.die && !s.restart then (call s .run i.reqs, i.file)
    else (call { s with pc := .top } .stop i.reqs, i.file)
  | .ended => (s, i.file)
  | .killed => (s, i.file)

/-- Some steps; what each finds is given. -/
def run (bg : Bool) (me : Nat) (s : St) (l : List In) : St := l.foldl (fun s i => (step bg me s i).1) s

/-! ### Several daemons with one pid file -/

structure World where
  file : Option Nat
  procs : Nat → Option St

def aliveIn (w : World) (n : Nat) : Bool :=
  match w.procs n with
  | some s => s.pc ≠ .ended ∧ s.pc ≠ .killed
  | none => false

inductive Ev where
  | begin (n : Nat)
  | step (n : Nat) (rs : List Req)

/-- Something happens: a daemon is started in the background as process `n`; process `n` makes a step. -/
def wstep (w : World) : Ev → World
  | .begin n => { w with procs := fun m => if m = n then some (begin 0) else w.procs m }
  | .step n rs =>
    match w.procs n with
    | none => w
    | some s =>
      let r := step true n s ⟨w.file, aliveIn w, rs⟩
      ⟨r.2, fun m => if m = n then some r.1 else w.procs m⟩

def wrun (l : List Ev) : World := l.foldl wstep ⟨none, fun _ => none⟩

end Wv.Daemon
