import Verif.Spec.Callback
/-
Model of WvCallbackList (include/wvcallbacklist.h) and of WvDelayedCallback (include/wvdelayedcallback.h) with its streams in the global list.
-/
namespace Wv.Callback
open Spec.Callback

/-! A list of callbacks. Cookies are numbers, their order is that of the addresses; the functions are given by what they do to the list. -/

inductive Op
  | add (c : Nat)
  | del (c : Nat)
deriving DecidableEq

/-- How a call can end, other than well: an assertion fails, or an iterator of something erased is used. -/
inductive Bad
  | assertion
  | undefined
deriving DecidableEq

/-- `std::map::insert`, in order. -/
def put (c : Nat) : List Nat → List Nat
  | [] => [c]
  | d :: l => if c < d then c :: d :: l else d :: put c l

/-- `add` and `del` (include/wvcallbacklist.h:27-39), while the function of `cur` runs. -/
def step (cur : Option Nat) (l : List Nat) : Op → Except Bad (List Nat)
  | .add c => if c ∈ l then .error .assertion else .ok (put c l)
  | .del c => if c ∉ l then .error .assertion else if cur = some c then .error .undefined else .ok (l.erase c)

def steps (cur : Option Nat) : List Op → List Nat → Except Bad (List Nat)
  | [], l => .ok l
  | o :: os, l => match step cur l o with
    | .error b => .error b
    | .ok l => steps cur os l

/-- `++it`, or `begin()` at first. -/
def next (it : Option Nat) (l : List Nat) : Option Nat :=
  match it with
  | none => l.head?
  | some c => l.find? (c < ·)

/-- `operator()` (include/wvcallbacklist.h:44-50), the loop, for at most `n` rounds: which functions were run, and the list. `none`: it is not over. Erasing the entry
    of the function that runs is undefined at once; the code comes to it with the next `++it`. -/
def call (code : Nat → List Op) : Nat → Option Nat → List Nat → Except Bad (List Nat × Option (List Nat))
  | 0, _, _ => .ok ([], none)
  | n + 1, it, l => match next it l with
    | none => .ok ([], some l)
    | some c => match steps (some c) (code c) l with
      | .error b => .error b
      | .ok l => match call code n (some c) l with
        | .error b => .error b
        | .ok (log, r) => .ok (c :: log, r)

/-! Delayed callbacks. Each has a stream, which has the same number. -/

/-- A stream: not closed; with an alarm; what `callfunc` was bound to; taken out of the global list. -/
structure Str where
  open_ : Bool := true
  armed : Bool := false
  args : Option Nat := none
  gone : Bool := false
deriving DecidableEq

structure St where
  strs : List Str := []
  log : List Ev := []
deriving DecidableEq

/-- What a program may do. -/
inductive Do
  | make
  | copy (d : Nat)
  | call (d x : Nat)
  | destroy (d : Nat)
deriving DecidableEq

/-- One of these (include/wvdelayedcallback.h:37-63), while the function of `run` runs; `none` is undefined behaviour: using one that was destroyed, and
    changing `callfunc` while it runs. -/
def St.do (run : Option Nat) (s : St) : Do → Option St
  | .make => some { s with strs := s.strs ++ [{}] }
  | .copy d => match s.strs[d]? with
    | none => none
    | some t => if t.open_ then some { s with strs := s.strs ++ [{}] } else none
  | .call d x => match s.strs[d]? with
    | none => none
    | some t =>
      if !t.open_ || run = some d then none
      else some { strs := s.strs.set d { t with armed := true, args := some x }, log := s.log ++ [.called d x] }
  | .destroy d => match s.strs[d]? with
    | none => none
    | some t => if t.open_ then some { s with strs := s.strs.set d { t with open_ := false } } else none

def St.dos (run : Option Nat) : List Do → St → Option St
  | [], s => some s
  | o :: os, s => (s.do run o).bind (St.dos run os)

/-- `callback` of a stream (streams/wvstream.cc:403-437, 388-393); `code` is what the functions do. -/
def St.run (code : Nat → Nat → List Do) (s : St) (d : Nat) : Option St :=
  match s.strs[d]? with
  | none => some s
  | some t =>
    let s := { s with strs := s.strs.set d { t with armed := false } }
    match t.args with
    | none => some s
    | some x => St.dos (some d) (code d x) { s with log := s.log ++ [.ran d x] }

/-- The streams that are ready (streams/wvstream.cc:894, streams/wvistreamlist.cc:157-175). -/
def St.sure (s : St) : List Nat :=
  (List.range s.strs.length).filter fun d => match s.strs[d]? with
    | some t => t.armed && !t.gone
    | none => false

/-- Those that are not ok are taken out of the list (streams/wvistreamlist.cc:187-192). -/
def St.prune (s : St) : St := { s with strs := s.strs.map fun t => { t with gone := t.gone || !t.open_ } }

/-- The loop of `execute` (streams/wvistreamlist.cc:221-259). -/
def St.runs (code : Nat → Nat → List Do) : List Nat → St → Option St
  | [], s => some s
  | d :: l, s => (s.run code d).bind (St.runs code l)

/-- A round of the main loop. -/
def St.tick (code : Nat → Nat → List Do) (s : St) : Option St := s.prune.runs code s.sure

/-- Anything a program does: `none` is a round of the main loop. -/
def St.hist (code : Nat → Nat → List Do) : List (Option Do) → St → Option St
  | [], s => some s
  | none :: l, s => (s.tick code).bind (St.hist code l)
  | some o :: l, s => (s.do none o).bind (St.hist code l)

end Wv.Callback
