import Verif.Model.Basic
/-
`WvLockFile` (streams/wvlockfile.cc): any number of processes using one lock file. Each system call is a step, and steps of processes may come in any order.

The content of a lock file is one number, or nothing. The directory is writable and the file readable (`readpid` does not return -1), and the process id is written with one system call (streams/wvlockfile.cc:36 prints
one short line). Not modelled: ids of new processes that are the same as those of old ones; open files of a process that does not run.
-/
namespace Wv.LockFile

/-- Why `readpid` is called: from `lock`, from `unlock` before the removal, and from `unlock` after it. -/
inductive Goal where
  | lock
  | unlock
  | check
  deriving DecidableEq

/-- What a process will do next. -/
inductive PC where
  | idle
  | opening (g : Goal)
  | reading (g : Goal) (inode : Nat)
  | cleaning (g : Goal)
  | creating
  | printing (inode : Nat)
  | removing
  deriving DecidableEq

/-- The world: which file has the name of the lock, the content of each file, who is dead, what each process is about to do, and whether it believes that it has the lock: `lock` returned
true, and `unlock` was not called since. -/
structure W where
  name : Option Nat
  files : List (Option Nat)
  dead : List Nat
  pc : Nat → PC
  held : Nat → Bool

def setPc (w : W) (p : Nat) (c : PC) : W := { w with pc := fun q => if q = p then c else w.pc q }

def setHeld (w : W) (p : Nat) (b : Bool) : W := { w with held := fun q => if q = p then b else w.held q }

/-- What follows when `isok` holds (streams/wvlockfile.cc:29-32, 41-44): `lock` creates the file, `unlock` removes it; after that `readpid` is the last. -/
def proceed : Goal → PC
  | .lock => .creating
  | .unlock => .removing
  | .check => .idle

/-- The next system call of a process (streams/wvlockfile.cc). `readpid` (52-84): the file is opened (63); the line is read (64), with `kill` (68) in the same step; a file that is blank, or could not be opened, or
whose owner is dead, is removed (71, 78). `isok` (20-24): nobody has the lock, or we do. `lock` (27-38): the file is created, and must not exist (32); then the number is written (36). `unlock` (41-49). -/
def step (w : W) (p : Nat) : W :=
  match w.pc p with
  | .idle => w
  | .opening g =>
    match w.name with
    | none => setPc w p (.cleaning g)
    | some i => setPc w p (.reading g i)
  | .reading g i =>
    match (w.files[i]?).join with
    | none => setPc w p (.cleaning g)
    | some q => if q ≠ 0 ∧ q ∈ w.dead then setPc w p (.cleaning g) else if q = 0 ∨ q = p then setPc w p (proceed g) else setPc w p .idle
  | .cleaning g => setPc { w with name := none } p (proceed g)
  | .creating =>
    match w.name with
    | some _ => setPc w p .idle
    | none => setPc { w with name := some w.files.length, files := w.files ++ [none] } p (.printing w.files.length)
  | .printing i => setHeld (setPc { w with files := w.files.set i (some p) } p .idle) p true
  | .removing => setPc { w with name := none } p (.opening .check)

/-- What may happen: a process that is not busy calls `lock` or `unlock`, a process does its next system call, a process dies. -/
inductive Ev where
  | lock (p : Nat)
  | unlock (p : Nat)
  | step (p : Nat)
  | die (p : Nat)
  deriving DecidableEq

def event (w : W) : Ev → W
  | .lock p => if w.pc p = .idle ∧ p ∉ w.dead then setPc w p (.opening .lock) else w
  | .unlock p => if w.pc p = .idle ∧ p ∉ w.dead then setHeld (setPc w p (.opening .unlock)) p false else w
  | .step p => if p ∈ w.dead then w else step w p
  | .die p => setHeld (setPc { w with dead := p :: w.dead } p .idle) p false

def run (w : W) (l : List Ev) : W := l.foldl event w

/-- No lock file, and nobody does anything. -/
def new : W := ⟨none, [], [], fun _ => .idle, fun _ => false⟩

/-- A call during which no other process does anything: `lock` and `unlock` are at most eight system calls. -/
inductive Call where
  | lock (p : Nat)
  | unlock (p : Nat)
  | die (p : Nat)
  deriving DecidableEq

/-- Such a call as events. -/
def Call.events : Call → List Ev
  | .lock p => .lock p :: List.replicate 8 (.step p)
  | .unlock p => .unlock p :: List.replicate 8 (.step p)
  | .die p => [.die p]

end Wv.LockFile
