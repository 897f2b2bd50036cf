import Verif.Spec.Coroutine
/-
Model of WvCont (utils/wvcont.cc) and of WvTask and WvTaskMan (utils/wvtask.cc), on which it is built: coroutines on stacks of their
own, with setjmp and longjmp. A stack is the list of the functions on it that wait, the innermost first, with their local variables.
A jmp_buf is the stack that was saved in it; as the program goes on from there, it can be used but once (`none` afterwards, and a jump
to it is undefined). `none` for a step is a failed assertion or undefined behaviour. The callbacks and the main program are a program
(Spec.Coroutine.Code).

Not modelled: how the stacks are laid out in memory (get_stack, stackmaster) and their overflow, which the code checks only at a
yield; names, ids and counts of tasks, magic numbers, debugger commands; the `int` values passed by run and yield, which WvCont does
not use.
-/
namespace Wv.Cont
open Spec.Coroutine (Code Act)

/-- A function that waits, with what it needs of its variables.
    `user`: a callback or the main program, in an operation;
    `inCall d old`: WvCont::_call, in `taskman->run`;
    `inRun old`: WvTaskMan::run, in setjmp;
    `yielding`: WvCont::yield, in `taskman->yield`;
    `bouncer d`: WvCont::bouncer, in `data->cb`;
    `loop t`: the endless loop of WvTaskMan::do_task, in `task->func` or `yield`;
    `destroying d`: WvCont::~WvCont, in `call()`. -/
inductive Frame (σ : Type) where
  | user (x : σ)
  | inCall (d : Nat) (old : Option Nat)
  | inRun (old : Option Nat)
  | yielding
  | bouncer (d : Nat)
  | loop (t : Nat)
  | destroying (d : Nat)

/-- WvCont::Data (utils/wvcont.cc:14-45); `objs` counts the WvCont objects of the program that have it, `alive` is false when it is
    deleted, `body` stands for the callback. -/
structure Data where
  alive : Bool
  objs : Nat
  links : Nat
  mydepth : Nat
  finishing : Bool
  size : Nat
  task : Option Nat
  body : Nat
  ret : Nat
  p1 : Nat

/-- WvTask (include/wvtask.h:32-74); `data` is `userdata`, `func` is always WvCont::bouncer. -/
structure Task (σ : Type) where
  size : Nat
  running : Bool
  recycled : Bool
  data : Nat
  state : Option (List (Frame σ))

/-- What the processor is about to do: `go`: the user's code; `back v`: return `v` to the innermost function; `runRet`: return from
    WvTaskMan::run; `landed`: return from setjmp by a jump. -/
inductive Pc (σ : Type) where
  | go (x : σ)
  | back (v : Nat)
  | runRet
  | landed

/-- `stk` is the stack in use, `conts` and `tasks` are memory, `free` is `free_tasks`, `man` is WvTaskMan::links, `top` is `toplevel`,
    `cur` is `current_task`, `curdata` and `depth` (`taskdepth`) are WvCont's. -/
structure St (σ : Type) where
  pc : Pc σ
  stk : List (Frame σ)
  conts : Nat → Data
  next : Nat
  tasks : Nat → Task σ
  ntasks : Nat
  free : List Nat
  man : Nat
  top : Option (List (Frame σ))
  cur : Option Nat
  curdata : Option Nat
  depth : Nat

variable {σ : Type}

/-- Changes a Data. -/
def St.setC (s : St σ) (c : Nat) (f : Data → Data) : St σ := { s with conts := fun i => if i = c then f (s.conts i) else s.conts i }

/-- Changes a WvTask. -/
def St.setT (s : St σ) (t : Nat) (f : Task σ → Task σ) : St σ := { s with tasks := fun i => if i = t then f (s.tasks i) else s.tasks i }

/-- setjmp in WvTaskMan::run: into `toplevel` if no task runs, else into the task's `mystate` (utils/wvtask.cc:265-276). -/
def St.save (s : St σ) (old : Option Nat) (k : List (Frame σ)) : St σ :=
  match old with
  | none => { s with top := some k }
  | some o => s.setT o fun t => { t with state := some k }

/-- `WvTaskMan::run(task)` (utils/wvtask.cc:246-290), up to the jump. -/
def St.run (s : St σ) (t : Nat) : Option (St σ) :=
  if (s.tasks t).recycled then none
  else if s.cur = some t then some { s with pc := .runRet }
  else
    ((s.save s.cur (.inRun s.cur :: s.stk)).tasks t).state.map fun k =>
      { (s.save s.cur (.inRun s.cur :: s.stk)).setT t fun x => { x with state := none } with pc := .landed, stk := k, cur := some t }

/-- `WvTaskMan::yield()` (utils/wvtask.cc:293-339): saves the task's state and jumps to `toplevel`. -/
def St.yield (s : St σ) : Option (St σ) :=
  match s.cur with
  | none => some { s with pc := .landed }
  | some t => s.top.map fun k => { s.setT t fun x => { x with state := some s.stk } with pc := .landed, stk := k, top := none }

/-- `WvTaskMan::start` (utils/wvtask.cc:221-243): a free task whose stack is large enough, or a new one; for the given Data. A new
    task has its state saved in do_task (lines 445-465). -/
def St.start (s : St σ) (size d : Nat) : St σ × Nat :=
  match s.free.find? fun t => size ≤ (s.tasks t).size with
  | some t =>
    ({ s.setT t fun x => { x with recycled := false, running := true, data := d } with free := s.free.erase t }, t)
  | none =>
    ({ s.setT s.ntasks fun _ => ⟨size, true, false, d, some [.loop s.ntasks]⟩ with ntasks := s.ntasks + 1 }, s.ntasks)

/-- `Data::unlink()` and `~Data` (utils/wvcont.cc:37-41, 93-108), `WvTask::recycle` (utils/wvtask.cc:119-128) and `WvTaskMan::unlink`
    (lines 140-148) with `~WvTaskMan` (lines 214-218). -/
def St.unlink (s : St σ) (d : Nat) : Option (St σ) :=
  if (s.conts d).alive = false ∨ (s.conts d).links = 0 then none
  else if 1 < (s.conts d).links then some (s.setC d fun x => { x with links := x.links - 1 })
  else
    let s' := s.setC d fun x => { x with links := 0, alive := false }
    let man := s.man - 1
    match (s.conts d).task with
    | none => some { s' with man := man, free := if man = 0 then [] else s.free }
    | some t =>
      if (s.tasks t).running then none
      else if (s.tasks t).recycled then some { s' with man := man, free := if man = 0 then [] else s.free }
      else some { s'.setT t fun x => { x with recycled := true } with man := man, free := if man = 0 then [] else s.free ++ [t] }

/-- `WvCont::_call(data)` up to the first `run` (utils/wvcont.cc:146-175). -/
def St.call (s : St σ) (d : Nat) : Option (St σ) :=
  if (s.conts d).alive = false then none
  else if (s.conts d).mydepth ≠ 0 then none
  else
    (s.conts d).task.bind fun t =>
      { s.setC d fun x => { x with links := x.links + 1, mydepth := s.depth + 1 } with
        curdata := some d, depth := s.depth + 1, stk := .inCall d s.curdata :: s.stk }.run t

/-- `WvCont::_call(data)` when `run` returns (utils/wvcont.cc:173-191). -/
def St.runRet (s : St σ) (d : Nat) (old : Option Nat) (k : List (Frame σ)) : Option (St σ) :=
  if (s.conts d).alive = false then none
  else
    let s1 := if (s.conts d).links = 1 then s.setC d fun x => { x with finishing := true, p1 := 0 } else s
    (s1.conts d).task.bind fun t =>
      if ((s1.conts d).finishing = true ∧ (s1.tasks t).running = true) ∨ (s1.conts d).mydepth < s1.depth then s1.run t
      else if s1.depth ≠ (s1.conts d).mydepth then none
      else
        ((s1.setC d fun x => { x with mydepth := 0 }).unlink d).map fun s2 =>
          { s2 with depth := s1.depth - 1, curdata := old, stk := k, pc := .back (s1.conts d).ret }

/-- A jump returns from setjmp: in run (utils/wvtask.cc:282-289), in yield called by WvCont::yield (utils/wvcont.cc:232-233), or in
    do_task (utils/wvtask.cc:468-491), which calls the bouncer (utils/wvcont.cc:249-257) if the task runs. -/
def St.landed (p : Code σ) (s : St σ) : Option (St σ) :=
  match s.stk with
  | .inRun old :: k => some { s with cur := old, stk := k, pc := .runRet }
  | .yielding :: k =>
    s.curdata.bind fun d => if (s.conts d).alive then some { s with stk := k, pc := .back (s.conts d).p1 } else none
  | .loop t :: k =>
    if (s.tasks t).running then
      if (s.conts (s.tasks t).data).alive then
        some { s with stk := .bouncer (s.tasks t).data :: .loop t :: k,
                      pc := .go (p.start (s.conts (s.tasks t).data).body (s.conts (s.tasks t).data).p1) }
      else none
    else s.yield
  | _ => none

/-- A function returns a value: to the user's code; to the destructor (utils/wvcont.cc:84-90); or the callback to the bouncer, which
    returns to do_task (utils/wvcont.cc:256, utils/wvtask.cc:485-491). -/
def St.back (p : Code σ) (s : St σ) (v : Nat) : Option (St σ) :=
  match s.stk with
  | .user x :: k => some { s with stk := k, pc := .go (p.resume x v) }
  | .destroying d :: k =>
    if (s.conts d).alive = false then none
    else if (s.conts d).task.any (fun t => (s.tasks t).running) then s.call d
    else (s.unlink d).map fun s => { s with stk := k, pc := .back 0 }
  | .bouncer d :: .loop t :: k =>
    if (s.conts d).alive then
      { (s.setC d fun x => { x with ret := v }).setT t fun x => { x with running := false } with stk := .loop t :: k }.yield
    else none
  | _ => none

/-- `WvCont::isok()` in a coroutine: the assertion, and the answer (utils/wvcont.cc:237-246). -/
def St.isok (s : St σ) (d : Nat) : Option Bool :=
  if (s.conts d).alive ∧ (s.conts d).task = s.cur then some !(s.conts d).finishing else none

/-- The operation that the user's code does (utils/wvcont.cc:51-91, 194-246): `operator()`, `yield`, the return of a callback, `isok`,
    the constructors, `current`, and the destructor. A WvCont that does not exist cannot be used. -/
def St.act (p : Code σ) (s : St σ) (x : σ) : Option (St σ) :=
  match p.act x with
  | .call c v =>
    if (s.conts c).objs = 0 ∨ (s.conts c).alive = false then none
    else
      let s1 := s.setC c fun d => { d with ret := 18446744073709551574 }
      let s2 :=
        match (s.conts c).task with
        | none => (s1.start (s.conts c).size c).1.setC c fun d => { d with task := some (s1.start (s.conts c).size c).2 }
        | some t => if (s.tasks t).running then s1 else s1.setT t fun y => { y with running := true, data := c }
      { s2.setC c fun d => { d with p1 := v } with stk := .user x :: s.stk }.call c
  | .yield v =>
    s.curdata.bind fun d => (s.isok d).bind fun ok =>
      if ok then { s.setC d fun y => { y with ret := v } with stk := .yielding :: .user x :: s.stk }.yield else none
  | .ret v =>
    match s.stk with
    | [] => some s
    | _ => some { s with pc := .back v }
  | .isok =>
    match s.curdata with
    | none => some { s with pc := .go (p.resume x 0) }
    | some d => (s.isok d).map fun ok => { s with pc := .go (p.resume x (if ok then 1 else 0)) }
  | .new body size =>
    some { s.setC s.next fun _ => ⟨true, 1, 1, 0, false, size, none, body, 0, 0⟩ with
           next := s.next + 1, man := s.man + 1, pc := .go (p.resume x s.next) }
  | .copy c =>
    if (s.conts c).objs = 0 ∨ (s.conts c).alive = false then none
    else some { s.setC c fun d => { d with objs := d.objs + 1, links := d.links + 1 } with pc := .go (p.resume x c) }
  | .current =>
    s.curdata.bind fun d => (s.isok d).bind fun ok =>
      if ok then some { s.setC d fun y => { y with objs := y.objs + 1, links := y.links + 1 } with pc := .go (p.resume x d) } else none
  | .destroy c =>
    if (s.conts c).objs = 0 ∨ (s.conts c).alive = false then none
    else if (s.conts c).links = 1 then
      some { s.setC c fun d => { d with objs := d.objs - 1, finishing := true, p1 := 0 } with
             stk := .destroying c :: .user x :: s.stk, pc := .back 0 }
    else
      ((s.setC c fun d => { d with objs := d.objs - 1 }).unlink c).map fun s => { s with pc := .go (p.resume x 0) }

/-- One step. -/
def St.step (p : Code σ) (s : St σ) : Option (St σ) :=
  match s.pc with
  | .go x => s.act p x
  | .back v => s.back p v
  | .landed => s.landed p
  | .runRet =>
    match s.stk with
    | .inCall d old :: k => s.runRet d old k
    | _ => none

/-- A program before its first step: there are no WvConts, and no task manager. -/
def St.init (x : σ) : St σ :=
  ⟨.go x, [], fun _ => ⟨false, 0, 0, 0, false, 0, none, 0, 0, 0⟩, 0, fun _ => ⟨0, false, false, 0, none⟩, 0, [], 0, none, none, none, 0⟩

/-- What the user's code shows when it is about to act: the WvCont it runs in, and where it is. -/
def St.seen (s : St σ) : List (Option Nat × σ) :=
  match s.pc with
  | .go x => [(s.curdata, x)]
  | _ => []

/-- `Run p s l t`: a number of steps lead from `s` to `t`, and show `l`. -/
inductive Run (p : Code σ) : St σ → List (Option Nat × σ) → St σ → Prop
  | none (s) : Run p s [] s
  | more {s t u l} : Run p s l t → t.step p = some u → Run p s (l ++ u.seen) u

end Wv.Cont
