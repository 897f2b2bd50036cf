/-
Model of the notification queue of UniConfGen (uniconf/uniconfgen.cc:20-90). A notification is of any type. What the callbacks do
is given by `cb`: the calls they make on the generator, from all that has been delivered up to now. `fuel` bounds the depth of
calls: callbacks may go on forever. `trace` is what happened, for specifications only.
-/
namespace Wv.GenDelta

/-- The calls. -/
inductive Op (α : Type) where
  | hold
  | unhold
  | delta (d : α)
  | flush
  | clear

/-- What happened. -/
inductive Event (α : Type) where
  | issue (d : α)
  | deliver (d : α)
  | clear

/-- UniConfGen with `hold_nesting` and `deltas`. -/
structure State (α : Type) where
  nesting : Int
  queue : List α
  trace : List (Event α)

/-- What has been delivered. -/
def delivered {α : Type} : List (Event α) → List α
  | [] => []
  | .deliver d :: r => d :: delivered r
  | _ :: r => delivered r

/-- The constructor (uniconf/uniconfgen.cc:20-23). -/
def new (α : Type) : State α := ⟨0, [], []⟩

/-- `flush_delta` (uniconf/uniconfgen.cc:53-68); `dispatch` is `dispatch_delta`. -/
def flush {α : Type} (dispatch : State α → α → Option (State α)) : Nat → State α → Option (State α)
  | 0, _ => none
  | n + 1, s =>
    match s.queue with
    | [] => some s
    | d :: q => (dispatch { s with queue := q } d).bind fun s => flush dispatch n s

/-- `unhold_delta` (uniconf/uniconfgen.cc:38-44): `none` if the assertion fails. -/
def unhold {α : Type} (flush : State α → Option (State α)) (s : State α) : Option (State α) :=
  if s.nesting > 0 then
    (if s.nesting = 1 then flush s else some s).bind fun s => some { s with nesting := s.nesting - 1 }
  else none

/-- Several calls. -/
def runOps {α : Type} (f : State α → Op α → Option (State α)) (s : State α) : List (Op α) → Option (State α)
  | [] => some s
  | o :: r => (f s o).bind fun s => runOps f s r

/-- A call: `hold_delta` (uniconf/uniconfgen.cc:32-35), `unhold_delta`, `delta` (77-90), `flush_delta`, `clear_delta` (47-50), and
    `dispatch_delta` (71-74) in them. -/
def exec {α : Type} (cb : List α → List (Op α)) : Nat → State α → Op α → Option (State α)
  | 0, _, _ => none
  | n + 1, s, op =>
    let dispatch := fun (s : State α) (d : α) =>
      let s := { s with trace := s.trace ++ [.deliver d] }
      runOps (exec cb n) s (cb (delivered s.trace))
    let flush := flush dispatch n
    match op with
    | .hold => some { s with nesting := s.nesting + 1 }
    | .unhold => unhold flush s
    | .delta d =>
      let s := { s with trace := s.trace ++ [.issue d] }
      if s.nesting = 0 then dispatch s d
      else
        let s := { s with nesting := s.nesting + 1 }
        let s := { s with queue := s.queue ++ [d] }
        unhold flush s
    | .flush => flush s
    | .clear => some { s with queue := [], trace := s.trace ++ [.clear] }

/-- Some calls, one after the other. -/
def run {α : Type} (cb : List α → List (Op α)) (fuel : Nat) (s : State α) (ops : List (Op α)) : Option (State α) :=
  runOps (exec cb fuel) s ops

end Wv.GenDelta
