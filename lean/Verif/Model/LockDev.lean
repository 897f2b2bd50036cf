import Verif.Spec.LockDev
import Verif.Model.Num
import Verif.Model.Log
/-
`WvLockDev` without liblockdev (streams/wvlockdev.cc:71-145): any number of processes, each with one object for the same device. Each system
call is a step, and steps of processes may come in any order.

The directory is writable and files can be read and written; the line with the number of the process is written with one system call
(streams/wvlockdev.cc:94, 122). Not modelled: numbers of new processes that are those of old ones.
-/
namespace Wv.LockDev
open Wv

/-- The name of the lock file (streams/wvlockdev.cc:17-28): `strrchr` finds the last slash. -/
def afterSlash (device : List Byte) : List Byte := (device.reverse.takeWhile (· ≠ ch '/')).reverse

def filename (device : List Byte) : List Byte :=
  str ['/', 'v', 'a', 'r', '/', 'l', 'o', 'c', 'k', '/', 'L', 'C', 'K', '.', '.'] ++ afterSlash device

/-- What is written into a lock file: `"%10s\n"` with the number of the process (streams/wvlockdev.cc:94, 122). -/
def text (pid : Nat) : List Byte := List.leftpad 10 (ch ' ') (Num.ofUnsigned pid) ++ [10]

/-- The number in a lock file (streams/wvlockdev.cc:105-111): of a file without a line `blocking_getline` gives NULL. A number that does not fit in an
    int is undefined in `atoi`; it is taken for 0. -/
def pidOf (content : List Byte) : Int :=
  if content = [] then 0 else (Num.num (trimString ((content.takeWhile (· ≠ 10)).takeWhile (· ≠ 0)))).getD 0

/-- What a process will do next; numbers of files are those of inodes. -/
inductive PC where
  | idle
  | creating
  | printing (inode : Nat)
  | opening
  | reading (inode : Nat)
  | testing (pid : Int)
  | removing
  | recreating
  | reprinting (inode : Option Nat)
  | unlinking
  deriving DecidableEq

/-- The world: which file has the name of the lock, the content of each file, which numbers are not those of processes, what each process is about to
    do, and its `lock_count`. -/
structure W where
  name : Option Nat
  files : List (List Byte)
  dead : List Int
  pc : Nat → PC
  count : Nat → Nat

def setPc (w : W) (p : Nat) (c : PC) : W := { w with pc := fun q => if q = p then c else w.pc q }
def setCount (w : W) (p : Nat) (n : Nat) : W := { w with count := fun q => if q = p then n else w.count q }

/-- A new file with the name of the lock. -/
def create (w : W) : W := { w with name := some w.files.length, files := w.files ++ [[]] }

/-- The next system call of a process. `lock` (streams/wvlockdev.cc:79-132) returns true exactly if the count is not 0 afterwards: the file is created,
    which must not exist (89), and the number is written (94). If it exists, it is opened (103) and read (105); if there is no process of that number (115) it is
    removed (119), created again (121), and the number is written (122); that this succeeded is not checked. `unlock` (136-142) removes the file. -/
def step (w : W) (p : Nat) : W :=
  match w.pc p with
  | .idle => w
  | .creating =>
    match w.name with
    | none => setPc (create w) p (.printing w.files.length)
    | some _ => setPc w p .opening
  | .printing i => setCount (setPc { w with files := w.files.set i (text p) } p .idle) p 1
  | .opening =>
    match w.name with
    | none => setPc w p (.testing 0)
    | some i => setPc w p (.reading i)
  | .reading i => setPc w p (.testing (pidOf (w.files.getD i [])))
  | .testing q => if q ≠ 0 ∧ q ≠ -1 ∧ q ∈ w.dead then setPc w p .removing else setPc w p .idle
  | .removing =>
    match w.name with
    | none => setPc w p .idle
    | some _ => setPc { w with name := none } p .recreating
  | .recreating =>
    match w.name with
    | none => setPc (create w) p (.reprinting (some w.files.length))
    | some _ => setPc w p (.reprinting none)
  | .reprinting (some i) => setCount (setPc { w with files := w.files.set i (text p) } p .idle) p 1
  | .reprinting none => setCount (setPc w p .idle) p 1
  | .unlinking => setPc { w with name := none } p .idle

/-- What may happen: a process that is not busy calls `lock` or `unlock` or deletes its object, a process does its next system call, a process dies. -/
inductive Ev where
  | lock (p : Nat)
  | unlock (p : Nat)
  | destroy (p : Nat)
  | step (p : Nat)
  | die (p : Nat)
  deriving DecidableEq

def Ev.pid : Ev → Nat
  | .lock p => p
  | .unlock p => p
  | .destroy p => p
  | .step p => p
  | .die p => p

/-- `lock` (streams/wvlockdev.cc:83-87), `unlock` (138-141), the destructor (31-38). -/
def event (w : W) (e : Ev) : W :=
  if (e.pid : Int) ∈ w.dead then w
  else
    match e with
    | .lock p => if w.pc p = .idle then (if 0 < w.count p then setCount w p (w.count p + 1) else setPc w p .creating) else w
    | .unlock p =>
      if w.pc p = .idle then
        (if w.count p = 0 then w
         else if w.count p - 1 = 0 then setPc (setCount w p 0) p .unlinking
         else setCount w p (w.count p - 1))
      else w
    | .destroy p => if w.pc p = .idle ∧ 0 < w.count p then setPc (setCount w p 0) p .unlinking else w
    | .step p => step w p
    | .die p => setCount (setPc { w with dead := p :: w.dead } p .idle) p 0

def run (w : W) (l : List Ev) : W := l.foldl event w

/-- Nobody does anything, and nobody has the lock; there may be a lock file. -/
def start (file : Option (List Byte)) (dead : List Int) : W :=
  ⟨file.map fun _ => 0, file.toList, dead, fun _ => .idle, fun _ => 0⟩

/-- A call during which no other process does anything: `lock` is at most seven system calls. A process may die in the middle of a call. -/
inductive Call where
  | lock (p : Nat)
  | unlock (p : Nat)
  | destroy (p : Nat)
  | die (p : Nat)
  | unlockDie (p : Nat)
  | lockDie (p : Nat) (steps : Nat)
  deriving DecidableEq

/-- Such a call as events. -/
def Call.events : Call → List Ev
  | .lock p => .lock p :: List.replicate 8 (.step p)
  | .unlock p => .unlock p :: List.replicate 8 (.step p)
  | .destroy p => .destroy p :: List.replicate 8 (.step p)
  | .die p => [.die p]
  | .unlockDie p => [.unlock p, .die p]
  | .lockDie p n => .lock p :: (List.replicate n (.step p) ++ [.die p])

end Wv.LockDev
