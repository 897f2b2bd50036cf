import Verif.Spec.ProcQueue
/-
`WvSubProcQueue` (utils/wvsubprocqueue.cc). Which processes have finished when `go` looks is an argument of `go`. Each time an entry is put in
`waitq` it gets a new ticket, and `trace` says what happened: neither is in the code. That `start_again` starts a process is assumed.
-/
namespace Wv.ProcQueue
open Spec.ProcQueue (Event)

/-- `Ent` (include/wvsubprocqueue.h:115-132), with a ticket for its `proc`. -/
structure Ent where
  ticket : Nat
  cookie : Option Nat
  redo : Bool
  deriving DecidableEq

/-- `maxrunning`, `runq`, `waitq`; the next ticket and the events so far. -/
structure State where
  max : Nat
  runq : List Ent
  waitq : List Ent
  next : Nat
  trace : List Event
  deriving DecidableEq

/-- The constructor (utils/wvsubprocqueue.cc:12-15). -/
def new (max : Nat) : State := ⟨max, [], [], 0, []⟩

/-- `waitq.append` of a new entry. -/
def enqueue (s : State) (c : Option Nat) : State :=
  { s with waitq := s.waitq ++ [⟨s.next, c, false⟩], next := s.next + 1, trace := s.trace ++ [.enq s.next c] }

/-- The search of `add` (utils/wvsubprocqueue.cc:30-46): the first entry with this cookie is marked unless it is the last. -/
def mark (c : Nat) : List Ent → Option (List Ent)
  | [] => none
  | e :: r =>
    if e.cookie = some c then some (if r.isEmpty then e :: r else { e with redo := true } :: r)
    else (mark c r).map (e :: ·)

/-- `add` (utils/wvsubprocqueue.cc:23-50). -/
def add (s : State) (cookie : Option Nat) : State :=
  match cookie with
  | none => enqueue s none
  | some c =>
    match mark c s.waitq with
    | some w => { s with waitq := w }
    | none => enqueue s (some c)

/-- `cookie_running` (utils/wvsubprocqueue.cc:62-69). -/
def cookieRunning (s : State) : Bool := s.runq.any fun e => e.cookie.isSome

/-- An entry leaves `runq`. -/
def finish (s : State) (e : Ent) : State :=
  { s with runq := s.runq.filter (fun x => x.ticket ≠ e.ticket), trace := s.trace ++ [.fin e.ticket] }

/-- One round of the first loop of `go` (utils/wvsubprocqueue.cc:84-99). -/
def reap (done : Nat → Bool) (s : State) (e : Ent) : State :=
  if done e.ticket then
    if e.redo then enqueue (finish s e) e.cookie else finish s e
  else s

/-- The head of `waitq` is started (utils/wvsubprocqueue.cc:119-122). -/
def start (s : State) (e : Ent) (r : List Ent) : State :=
  { s with runq := s.runq ++ [e], waitq := r, trace := s.trace ++ [.start e.ticket e.cookie] }

/-- The second loop of `go` (utils/wvsubprocqueue.cc:103-126), at most so many rounds. -/
def startLoop : Nat → State → State
  | 0, s => s
  | f + 1, s =>
    match s.waitq with
    | [] => s
    | e :: r =>
      if s.runq.length < s.max then
        if (e.cookie.isSome && !s.runq.isEmpty) || cookieRunning s then s
        else startLoop f (start s e r)
      else s

/-- `go` (utils/wvsubprocqueue.cc:72-131). -/
def go (done : Nat → Bool) (s : State) : State :=
  let s := s.runq.foldl (reap done) s
  startLoop s.waitq.length s

inductive Op where
  | add (cookie : Option Nat)
  | go (done : Nat → Bool)

def step (s : State) : Op → State
  | .add c => add s c
  | .go done => go done s

def run (s : State) (h : List Op) : State := h.foldl step s

/-- The states of a schedule without end. -/
def states (s : State) (σ : Nat → Op) : Nat → State
  | 0 => s
  | n + 1 => step (states s σ n) (σ n)

/-- `go` is called again and again, and each process that runs is found finished at some time. -/
def Fair (s : State) (σ : Nat → Op) : Prop :=
  (∀ n, ∃ m d, n ≤ m ∧ σ m = .go d) ∧ ∀ n, ∀ e ∈ (states s σ n).runq, ∃ m d, n ≤ m ∧ σ m = .go d ∧ d e.ticket = true

end Wv.ProcQueue
