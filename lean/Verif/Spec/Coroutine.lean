/-
Coroutines, independent of the model: a call runs the coroutine until it yields or returns and gives back that value; the next call
goes on where it yielded, and the yield gives back the argument of that call. Calls nest. A coroutine is referred to by any number of
handles; if the last one goes while it is in the middle, it is told to finish.
-/
namespace Spec.Coroutine

/-- What code may do next. Values (`void *`) are numbers, 0 is NULL. -/
inductive Act where
  /-- call a coroutine with a value -/
  | call (c v : Nat)
  /-- give a value to the caller, and wait for the next call -/
  | yield (v : Nat)
  /-- end with a value -/
  | ret (v : Nat)
  /-- ask whether it may go on (1), or should finish (0) -/
  | isok
  /-- make a coroutine of a function, with the size of its stack; gives back a handle -/
  | new (body size : Nat)
  /-- copy a handle -/
  | copy (c : Nat)
  /-- a new handle of the coroutine that runs -/
  | current
  /-- destroy a handle -/
  | destroy (c : Nat)

/-- A program: any code at all, as states of any kind. `act` is what it does next, `resume` how it goes on with the result, `start`
    where the function number `body` begins with its argument. -/
structure Code (σ : Type) where
  act : σ → Act
  resume : σ → Nat → σ
  start : Nat → Nat → σ

/-- A coroutine is not begun (or has ended), waits in a yield, or runs (or has called something that runs). -/
inductive Status (σ : Type) where
  | idle
  | waiting (s : σ)
  | active

structure Co (σ : Type) where
  body : Nat
  handles : Nat
  finishing : Bool
  status : Status σ

/-- Code that has called something: a coroutine, or the destruction of the last handle of one. -/
structure Caller (σ : Type) where
  who : Option Nat
  code : σ
  destroys : Bool

/-- `cur` is the coroutine that runs (`none`: the main program), `code` where it is, `callers` who waits for it, the innermost first. -/
structure St (σ : Type) where
  cos : Nat → Co σ
  next : Nat
  cur : Option Nat
  code : σ
  callers : List (Caller σ)

/-- Changes a coroutine. -/
def upd (f : Nat → Co σ) (c : Nat) (g : Co σ → Co σ) : Nat → Co σ := fun i => if i = c then g (f i) else f i

/-- Whenever control comes back from a coroutine, all that are active and have no handles left are told to finish. -/
def tell (f : Nat → Co σ) : Nat → Co σ := fun i =>
  match (f i).status with
  | .active => if (f i).handles = 0 then { f i with finishing := true } else f i
  | _ => f i

/-- Goes on with a result. -/
def St.go (p : Code σ) (s : St σ) (v : Nat) : St σ := { s with code := p.resume s.code v }

/-- Runs a coroutine from the place given. -/
def St.enter (s : St σ) (c : Nat) (x : σ) (destroys : Bool) : St σ :=
  { cos := upd s.cos c fun d => { d with status := .active }, next := s.next, cur := some c, code := x,
    callers := ⟨s.cur, s.code, destroys⟩ :: s.callers }

/-- Gives a value back to the caller. The destruction of a handle gives nothing back. -/
def St.leave (p : Code σ) (s : St σ) (c : Nat) (st : Status σ) (v : Nat) : Option (St σ) :=
  match s.callers with
  | [] => none
  | k :: ks => some { cos := upd s.cos c fun d => { d with status := st }, next := s.next, cur := k.who,
                      code := p.resume k.code (if k.destroys then 0 else v), callers := ks }

/-- One action. `none` if it is not allowed: a coroutine is used without a handle; it is called while it is active; a yield, or a new
    handle of itself, outside of coroutines or in one that is to finish. The main program stays where it ends. -/
def St.step (p : Code σ) (s : St σ) : Option (St σ) :=
  match p.act s.code with
  | .call c v =>
    if (s.cos c).handles = 0 then none
    else
      match (s.cos c).status with
      | .idle => some (s.enter c (p.start (s.cos c).body v) false)
      | .waiting x => some (s.enter c (p.resume x v) false)
      | .active => none
  | .yield v =>
    match s.cur with
    | none => none
    | some c =>
      if (s.cos c).finishing then none
      else
        let t := { s with cos := tell s.cos }
        if (s.cos c).handles = 0 then some (t.go p 0) else t.leave p c (.waiting s.code) v
  | .ret v =>
    match s.cur with
    | none => some s
    | some c => { s with cos := tell s.cos }.leave p c .idle v
  | .isok =>
    match s.cur with
    | none => some (s.go p 0)
    | some c => some (s.go p (if (s.cos c).finishing then 0 else 1))
  | .new body _ =>
    some ({ s with cos := upd s.cos s.next fun _ => ⟨body, 1, false, .idle⟩, next := s.next + 1 }.go p s.next)
  | .copy c =>
    if (s.cos c).handles = 0 then none
    else some ({ s with cos := upd s.cos c fun d => { d with handles := d.handles + 1 } }.go p c)
  | .current =>
    match s.cur with
    | none => none
    | some c =>
      if (s.cos c).finishing then none
      else some ({ s with cos := upd s.cos c fun d => { d with handles := d.handles + 1 } }.go p c)
  | .destroy c =>
    if (s.cos c).handles = 0 then none
    else
      let t := { s with cos := upd s.cos c fun d => { d with handles := d.handles - 1 } }
      match (s.cos c).status with
      | .waiting x =>
        if (s.cos c).handles = 1 then
          some ({ t with cos := upd t.cos c fun d => { d with finishing := true } }.enter c (p.resume x 0) true)
        else some (t.go p 0)
      | _ => some (t.go p 0)

/-- A program begins in the main program, with no coroutines. -/
def St.init (x : σ) : St σ := ⟨fun _ => ⟨0, 0, false, .idle⟩, 0, none, x, []⟩

/-- What a run shows: who does the next action, and where its code is. -/
def St.seen (s : St σ) : Option Nat × σ := (s.cur, s.code)

/-- `Run p s l t`: a number of actions lead from `s` to `t`, and show `l`. -/
inductive Run (p : Code σ) : St σ → List (Option Nat × σ) → St σ → Prop
  | none (s) : Run p s [] s
  | more {s t u l} : Run p s l t → t.step p = some u → Run p s (l ++ [u.seen]) u

end Spec.Coroutine
