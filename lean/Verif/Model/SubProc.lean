import Verif.Spec.SubProc
/-
Model of WvSubProc: utils/wvsubproc.cc, include/wvsubproc.h. There is no pid file. The kernel is a list of processes. Processes do what they like between the system calls
of `wait`, and between calls; system calls of one `kill` follow each other at once. `fork` does not fail, and the new process has set its process group
before it returns (utils/wvfork.cc:84-117). The arguments, the environment and limits of a process are not modelled.
-/
namespace Wv.SubProc
open Spec.SubProc

/-- The kernel: processes; `started` remembers which numbers the object was given. If `reuse` is false, those are not given to other processes. -/
structure Kernel where
  ps : List P
  started : List Nat
  reuse : Bool

/-- A process ends: its parent can wait for it if that is the program; otherwise it disappears. -/
def die (p : P) : Option P := if p.child then some { p with zombie := true } else none

/-- A number can be given to a new process if no process or group has it. -/
def free (k : Kernel) (n : Nat) : Bool :=
  k.ps.all (fun p => p.pid ≠ n ∧ p.pgid ≠ n) && (k.reuse || k.started.all fun m => m ≠ n)

/-- What processes do; nothing happens if the kernel would not do it. A process can join only groups of processes that are as unrelated as it. -/
def move (k : Kernel) : Move → Kernel
  | .exit n => { k with ps := k.ps.filterMap fun p => if p.pid = n then die p else some p }
  | .fork n new =>
    match k.ps.find? fun p => p.pid = n ∧ p.zombie = false with
    | none => k
    | some p => if free k new then { k with ps := ⟨new, p.pgid, false, false, p.ours⟩ :: k.ps } else k
  | .leave n => { k with ps := k.ps.map fun p => if p.pid = n then { p with pgid := n } else p }
  | .stranger n g c =>
    if free k n && (g = n || k.ps.any fun q => q.pgid = g ∧ q.ours = false) then { k with ps := ⟨n, g, c, false, false⟩ :: k.ps } else k

def moves (k : Kernel) (l : List Move) : Kernel := l.foldl move k

/-- The object: `pid` (`none` is -1), `old_pids`, `running`; and what signals were sent to whom. -/
structure St where
  k : Kernel
  pid : Option Nat
  old : List Nat
  running : Bool
  log : List (Nat × P)

def sigTerm : Nat := 15
def sigKill : Nat := 9

/-- `::kill`, of the processes that `sel` selects. -/
def signal (sel : P → Bool) (sig : Nat) (s : St) : St :=
  { s with
    log := s.log ++ (s.k.ps.filter sel).map fun p => (sig, p)
    k := { s.k with ps := if sig = sigKill then s.k.ps.filterMap (fun p => if sel p then die p else some p) else s.k.ps } }

/-- Whether there is a process in a group: `::kill(-pgid, 0)` is 0. -/
def group (k : Kernel) (g : Nat) : Bool := k.ps.any fun p => p.pgid = g

inductive Stop where
  /-- An assertion fails. -/
  | abort
  /-- It did not return in the time given. -/
  | hang
  deriving DecidableEq

/-- The assertion that is in `kill`, `kill_primary` and `wait`. -/
def sane (s : St) : Bool := !s.running || s.pid.isSome || !s.old.isEmpty

/-- `kill_primary` (utils/wvsubproc.cc:280-286). -/
def killPrimary (sig : Nat) (s : St) : Except Stop St :=
  if sane s then
    match s.pid with
    | some n => .ok (if s.running then signal (fun p => p.pid = n) sig s else s)
    | none => .ok s
  else .error .abort

/-- The loop of `kill` over `old_pids` (utils/wvsubproc.cc:268-276). -/
def killOld (sig : Nat) : List Nat → St → St
  | [], s => s
  | n :: r, s =>
    let s := if group s.k n then signal (fun p => p.pgid = n) sig s else signal (fun p => p.pid = n) sig s
    killOld sig r s

/-- `kill` (utils/wvsubproc.cc:255-277). -/
def kill (sig : Nat) (s : St) : Except Stop St :=
  if sane s then
    match s.pid with
    | some n =>
      if group s.k n then let s := signal (fun p => p.pgid = n) sig s; .ok (killOld sig s.old s)
      else
        match killPrimary sig s with
        | .ok s => .ok (killOld sig s.old s)
        | .error e => .error e
    | none => .ok (killOld sig s.old s)
  else .error .abort

/-- What `waitpid` says about one process. -/
inductive Waited where
  | dead
  | alive
  | nochild

/-- `waitpid(n, …, WNOHANG)`; without WNOHANG it waits while it is `alive`. -/
def waitpid (k : Kernel) (n : Nat) : Waited × Kernel :=
  if k.ps.any fun p => p.pid = n ∧ p.child then
    if k.ps.any fun p => p.pid = n ∧ p.child ∧ p.zombie then
      (.dead, { k with ps := k.ps.filter fun p => ¬ (p.pid = n ∧ p.child ∧ p.zombie) })
    else (.alive, k)
  else (.nochild, k)

/-- One turn of the loop of `wait`: what happens before `waitpid`, what happens before each look at `old_pids`, and whether the time is over afterwards. -/
structure Turn where
  before : List Move
  mids : List (List Move)
  late : Bool

/-- The look at `old_pids` (utils/wvsubproc.cc:368-381): those that are left. -/
def sweep : List Nat → List (List Move) → Kernel → List Nat × Kernel
  | [], _, k => ([], k)
  | n :: r, ms, k =>
    let k := (waitpid (moves k (ms.headD [])) n).2
    let x := sweep r ms.tail k
    if group k n then (n :: x.1, x.2) else x

/-- One turn (utils/wvsubproc.cc:334-389); the last is `xrunning` afterwards. -/
def turn (children : Bool) (t : Turn) (s : St) : St × Bool :=
  let s := { s with k := moves s.k t.before }
  let s : St :=
    match s.pid with
    | none => s
    | some n =>
      match waitpid s.k n with
      | (.alive, k) => { s with k := k }
      | (_, k) => { s with k := k, old := s.old ++ [n], pid := none }
  match s.pid with
  | some _ => (s, true)
  | none =>
    let x := sweep s.old t.mids s.k
    ({ s with old := x.1, k := x.2 }, !(!children || x.1.isEmpty))

/-- The loop. -/
def waitLoop (msec : Int) (children : Bool) : List Turn → St → Except Stop (St × List Turn)
  | [], _ => .error .hang
  | t :: ts, s =>
    let x := turn children t s
    if x.2 && msec ≠ 0 && (msec < 0 || !t.late) then waitLoop msec children ts x.1
    else .ok (if x.2 then x.1 else { x.1 with running := false }, ts)

/-- `wait` (utils/wvsubproc.cc:315-400). -/
def wait (msec : Int) (children : Bool) (ts : List Turn) (s : St) : Except Stop (St × List Turn) :=
  if sane s then
    if s.running || (children && !s.old.isEmpty) then waitLoop msec children ts s else .ok (s, ts)
  else .error .abort

def killSome (children : Bool) (sig : Nat) (s : St) : Except Stop St := if children then kill sig s else killPrimary sig s

/-- `stop` (utils/wvsubproc.cc:289-312). -/
def stop (msec : Int) (children : Bool) (ts : List Turn) (s : St) : Except Stop (St × List Turn) :=
  (wait 0 true ts s).bind fun x =>
    (if x.1.running then (killSome children sigTerm x.1).bind fun s => wait msec children x.2 s else .ok x).bind fun x =>
      if x.1.running then (killSome children sigKill x.1).bind fun s => wait (-1) children x.2 s else .ok x

/-- `start` (utils/wvsubproc.cc:38-76, 139-227): the kernel gives a number that is free; `none` if it is not. -/
def start (n : Nat) (s : St) : Option St :=
  if s.k.ps.all fun p => p.pid ≠ n ∧ p.pgid ≠ n then
    some { s with k := { s.k with ps := ⟨n, n, true, false, true⟩ :: s.k.ps, started := n :: s.k.started }, pid := some n, running := true }
  else none

/-- A new object. -/
def new (reuse : Bool) (ps : List P) : St := ⟨⟨ps, [], reuse⟩, none, [], false, []⟩

/-- The calls; time passes between them. -/
inductive Op where
  | start (n : Nat)
  | stop (msec : Int) (children : Bool) (ts : List Turn)
  | wait (msec : Int) (children : Bool) (ts : List Turn)
  | kill (sig : Nat)
  | killPrimary (sig : Nat)
  | time (l : List Move)

/-- One call; the kernel does not give a number that is in use. -/
def step (s : St) : Op → Except Stop St
  | .start n => .ok ((start n s).getD s)
  | .stop msec c ts => (stop msec c ts s).map Prod.fst
  | .wait msec c ts => (wait msec c ts s).map Prod.fst
  | .kill sig => kill sig s
  | .killPrimary sig => killPrimary sig s
  | .time l => .ok { s with k := moves s.k l }

def run (s : St) : List Op → Except Stop St
  | [] => .ok s
  | o :: l => (step s o).bind fun s => run s l

end Wv.SubProc
