import Verif.Spec.Child
import Verif.Model.Split
/-
What a child process has: its descriptors after `WvPipe::setup` (streams/wvpipe.cc:98-217) and `WvSystem::fork` (utils/wvsystem.cc:25-56), and
its environment after `WvSubProc::fork` (utils/wvsubproc.cc:163-229). The kernel has open files, known by numbers, which processes share, with
the flag O_NONBLOCK; and for each process a table of descriptors. That the child becomes the leader of a session, and its limits, are left out.
-/
namespace Wv.Child
open Spec.Child

/-- A process, and the flag of all open files, which is shared. -/
structure Proc where
  table : Table
  nonblock : Nat → Bool

def Proc.set (p : Proc) (n : Nat) (e : Option Ent) : Proc := { p with table := fun m => if m = n then e else p.table m }

/-- `close`. -/
def Proc.close (p : Proc) (n : Nat) : Proc := p.set n none

/-- `dup2(n, m)`. -/
def Proc.dup2 (p : Proc) (n m : Nat) : Proc :=
  match p.table n with
  | none => p
  | some e => if n = m then p else p.set m (some ⟨e.file, false⟩)

/-- `fcntl(n, F_SETFD, b)`. -/
def Proc.setfd (p : Proc) (n : Nat) (b : Bool) : Proc :=
  match p.table n with
  | none => p
  | some e => p.set n (some ⟨e.file, b⟩)

/-- `fcntl(n, F_SETFL, …)`, as far as O_NONBLOCK is concerned. -/
def Proc.setfl (p : Proc) (n : Nat) (b : Bool) : Proc :=
  match p.table n with
  | none => p
  | some e => { p with nonblock := fun f => if f = e.file then b else p.nonblock f }

/-- `exec`. -/
def Proc.exec (p : Proc) : Proc :=
  { p with table := fun n => match p.table n with
    | some e => if e.cloexec then none else some e
    | none => none }

/-- What the kernel gives: the descriptors and open files of the socket pair, and the descriptors of the pipe of `wvfork_start` with its files. -/
structure Given where
  s0 : Nat
  s1 : Nat
  f0 : Nat
  f1 : Nat
  w0 : Nat
  w1 : Nat
  g0 : Nat
  g1 : Nat
deriving DecidableEq

/-- The kernel gives descriptors that are free, and open files that are new. -/
structure Given.Fresh (g : Given) (p : Proc) : Prop where
  fds : [g.s0, g.s1, g.w0, g.w1].Nodup
  free : p.table g.s0 = none ∧ p.table g.s1 = none ∧ p.table g.w0 = none ∧ p.table g.w1 = none
  files : [g.f0, g.f1, g.g0, g.g1].Nodup
  new : ∀ n e, p.table n = some e → e.file ≠ g.f0 ∧ e.file ≠ g.f1 ∧ e.file ≠ g.g0 ∧ e.file ≠ g.g1

/-- `socketpair`, `fcntl(socks[0], F_SETFL, …)` (streams/wvpipe.cc:114-121). -/
def pair (p : Proc) (g : Given) : Proc := ((p.set g.s0 (some ⟨g.f0, false⟩)).set g.s1 (some ⟨g.f1, false⟩)).setfl g.s0 true

/-- One of the three choices (streams/wvpipe.cc:138-155); `dup2` of -2 or less fails, which is left out. -/
def give (g : Given) (i : Nat) (w : Want) (p : Proc) : Proc :=
  match w with
  | .pipe => p.dup2 g.s1 i
  | .nothing => p.close i
  | .fd n => p.dup2 n i

/-- The child (streams/wvpipe.cc:133-203, utils/wvfork.cc:111-115) after `exec`. -/
def child (g : Given) (w0 w1 w2 : Want) (p : Proc) : Proc :=
  let p := (p.set g.w0 (some ⟨g.g0, false⟩)).set g.w1 (some ⟨g.g1, false⟩)
  let p := p.close g.w0
  let p := p.close g.s0
  let p := give g 2 w2 (give g 1 w1 (give g 0 w0 p))
  let p := ((p.setfd 0 false).setfd 1 false).setfd 2 false
  let p := ((p.setfl 0 false).setfl 1 false).setfl 2 false
  let p := if w0 ≠ .pipe ∧ w1 ≠ .pipe ∧ w2 ≠ .pipe then p.setfd g.s1 false else p.close g.s1
  (p.close g.w1).exec

/-- The parent afterwards (streams/wvpipe.cc:204-210); the flags are those that the child left. -/
def parent (g : Given) (p c : Proc) : Proc :=
  let p := (p.setfd g.s0 true).close g.s1
  { p with nonblock := c.nonblock }

/-- `WvPipe::setup`: the child and the parent. -/
def setup (g : Given) (w0 w1 w2 : Want) (p : Proc) : Proc × Proc :=
  let p := pair p g
  let c := child g w0 w1 w2 p
  (c, parent g p c)

/-- `WvPipe::setup` when `fork` fails (streams/wvpipe.cc:211-216, utils/wvfork.cc:82-97): the parent, in which the pipe of `wvfork_start` stays,
    and the descriptor the stream has. -/
def setupFails (g : Given) (p : Proc) : Proc × Nat :=
  (((((pair p g).set g.w0 (some ⟨g.g0, false⟩)).set g.w1 (some ⟨g.g1, false⟩)).close g.s0).close g.s1, g.s0)

/-- `fd_open` (utils/wvsystem.cc:27-38); the kernel gives a descriptor and the open file, or `none` if it cannot open it. -/
def fdOpen (fd : Nat) (got : Option (Nat × Nat)) (p : Proc) : Proc :=
  let p := p.close fd
  match got with
  | none => p
  | some (n, f) =>
    let p := p.set n (some ⟨f, false⟩)
    if n ≠ fd then (p.dup2 n fd).close n else p

/-- One of the three in `WvSystem::fork` (utils/wvsystem.cc:47-52); `none`: no file was named. -/
def redirect1 (fd : Nat) (r : Option (Option (Nat × Nat))) (p : Proc) : Proc :=
  match r with
  | none => p
  | some got => fdOpen fd got p

/-- The three in `WvSystem::fork` (utils/wvsystem.cc:42-56). -/
def redirect (r0 r1 r2 : Option (Option (Nat × Nat))) (p : Proc) : Proc := redirect1 2 r2 (redirect1 1 r1 (redirect1 0 r0 p))

/-- What is in a file that had `old` in it and was opened with `O_WRONLY|O_CREAT` (utils/wvsystem.cc:50) when `new` has been written. -/
def written (old new : Text) : Text := new ++ old.drop new.length

/-- `WvSystem`: whether it was started, how often the command was run, and `estatus`. -/
structure System where
  started : Bool := false
  runs : Nat := 0
  estatus : Nat := 0
deriving DecidableEq

/-- `go` (utils/wvsystem.cc:59-68); `status`: that of the command, `none` if `fork` fails, for which `estatus` stays what
    `WvSubProc::fork` made it (utils/wvsubproc.cc:168). -/
def System.go (s : System) (status : Option Nat) : System :=
  if s.started then s
  else match status with
    | none => { started := true, runs := s.runs, estatus := 0 }
    | some e => { started := true, runs := s.runs + 1, estatus := e }

def ldLibrary : Text := str ['L', 'D', '_', 'L', 'I', 'B', 'R', 'A', 'R', 'Y', '_', 'P', 'A', 'T', 'H']
def ldPreload : Text := str ['L', 'D', '_', 'P', 'R', 'E', 'L', 'O', 'A', 'D']

def setenv (e : Env) (n : Text) (v : Option Text) : Env := fun m => if m = n then v else e m

/-- The environment, and whether it has the text of `ldlibrary` or `ldpreload` in it, which `putenv` does not copy. -/
structure EnvSt where
  env : Env
  lib : Bool := false
  pre : Bool := false

/-- An element of `env` (utils/wvsubproc.cc:183-218); `none` is undefined behaviour: when `ldlibrary` changes, its old text is freed while it is
    in the environment, and `putenv` looks for the variable there. That both were set by an earlier child of which this one is a child is left out, and so is
    that a variable without a name cannot be unset. -/
def envStep (s : EnvSt) (x : Text) : Option EnvSt :=
  let words := Split.strict [ch '='] 0 x
  let n := words.headD []
  let v := Split.join [ch '='] (words.drop 1)
  if n = ldLibrary ∧ (s.env n).isSome then
    if v ≠ [] then
      if s.lib then none else some { s with env := setenv s.env n (some (v ++ ch ':' :: (s.env n).getD [])), lib := true }
    else some s
  else if n = ldPreload ∧ (s.env n).isSome then
    if v ≠ [] then
      if s.pre then none else some { s with env := setenv s.env n (some (v ++ ch ':' :: (s.env n).getD [])), pre := true }
    else some s
  else if v = [] then some { s with env := setenv s.env n none }
  else some { s with env := setenv s.env n (some v) }

/-- The loop. -/
def environment (e : Env) (l : List Text) : Option Env := (l.foldlM envStep { env := e }).map (·.env)

end Wv.Child
