import Verif.Spec.StreamList
/-
`WvIStreamList` (streams/wvistreamlist.cc, include/wvistreamlist.h). Streams are known by numbers; the same stream may be in the list more than once.

What streams answer is a sequence `dev`, one answer for each `post_select` and each `callback`. While a stream answers in `post_select` it may close streams and add
streams to the list; while it is called back it may do anything a user may, which includes another round. Not modelled: reference counts, timeouts, crash information, streams that
change the list from `pre_select`, and streams that remove others from `post_select` (the iterator would then point to freed memory).
-/
namespace Wv.StreamList
open Spec.StreamList (Ev)

/-- What a stream may do in `post_select`. -/
inductive Act where
  | append (x : Nat)
  | prepend (x : Nat)
  | kill (x : Nat)
  deriving DecidableEq

/-- What a user may do: `append`/`add`, `prepend`, `unlink`, removal with an iterator, making a stream not ok, `auto_prune`, and the three functions of a round. -/
inductive Op where
  | append (x : Nat)
  | prepend (x : Nat)
  | unlink (x : Nat)
  | iterRemove (x : Nat)
  | kill (x : Nat)
  | autoPrune (on : Bool)
  | preSelect
  | postSelect
  | callback
  deriving DecidableEq

/-- An answer: ready or not, what it does in `post_select`, what it does in its callback. -/
structure Ans where
  ready : Bool
  acts : List Act
  code : List Op

/-- The list (include/wvistreamlist.h:20-64). `dead` are the streams that are not ok. Not in the code: `tick`, the number of answers used, and `log`, what happened. -/
structure St where
  list : List Nat
  sure : List Nat
  dead : List Nat
  prune : Bool
  tick : Nat
  log : List Ev
  deriving DecidableEq

/-- The constructor (streams/wvistreamlist.cc:42-56). -/
def new : St := ⟨[], [], [], true, 0, []⟩

/-- `isok` of a stream. -/
def isok (s : St) (x : Nat) : Bool := !s.dead.contains x

/-- Something done from within `post_select` of a stream; `WvList` adding (include/wvlinklist.h:263-294). -/
def act (s : St) : Act → St
  | .append x => { s with list := s.list ++ [x] }
  | .prepend x => { s with list := x :: s.list }
  | .kill x => { s with dead := x :: s.dead }

/-- `WvList::unlink` (include/wvlinklist.h:303-304). -/
def unlink (x : Nat) (l : List Nat) : List Nat := l.filter (· ≠ x)

/-- How many are prepended. -/
def prepends (l : List Act) : Nat := l.countP fun a => match a with | .prepend _ => true | _ => false

/-- `post_select` of a stream and what follows in the loop (streams/wvistreamlist.cc:169-185): it goes to the end of `sure_thing`, or else must not be in it. -/
def report (dev : Nat → Ans) (s : St) (x : Nat) : Option St :=
  let a := dev s.tick
  let s := a.acts.foldl act { s with tick := s.tick + 1 }
  if a.ready then some { s with sure := unlink x s.sure ++ [x], log := s.log ++ [.ready x] }
  else if s.sure.contains x then none
  else some s

/-- Function calls. `post k`: the loop of `post_select` when the iterator's link is the `k`-th, 0 for the head. -/
inductive Call where
  | post (k : Nat) (sure : Bool)
  | loop
  | ops (l : List Op)
  | op (o : Op)

/-- The loop of `post_select` (streams/wvistreamlist.cc:157-193). After `next` the iterator's `prev` is the `k`-th link; streams prepended meanwhile come before it, or between `prev` and `link` if
`prev` is the head. `xunlink` removes what is after `prev` (include/wvlinklist.h:409-413, 325-337). -/
def post (dev : Nat → Ans) (rec : Call → St → Option (St × Bool)) (k : Nat) (sure : Bool) (s : St) : Option (St × Bool) :=
  match s.list[k]? with
  | none => some (s, sure || !s.sure.isEmpty)
  | some x =>
    let n := prepends (dev s.tick).acts
    let prev := if k = 0 then 0 else k + n
    let link := k + n
    (report dev s x).bind fun s =>
    if isok s x then rec (.post (link + 1) sure) s
    else if s.prune then rec (.post prev true) { s with list := s.list.eraseIdx prev }
    else rec (.post (link + 1) true) s

/-- The loop of `execute` (streams/wvistreamlist.cc:220-265). -/
def loop (dev : Nat → Ans) (rec : Call → St → Option (St × Bool)) (s : St) : Option (St × Bool) :=
  match s.sure with
  | [] => some (s, false)
  | x :: t => (rec (.ops (dev s.tick).code) { s with tick := s.tick + 1, sure := t, log := s.log ++ [.called x] }).bind fun r => rec .loop r.1

/-- What a user does: `unlink` (include/wvistreamlist.h:30-31), an iterator's removal of the first such link, `pre_select` (streams/wvistreamlist.cc:89-138, here only
`sure_thing.zap()`), `post_select` (141-201; the answer used first tells of the alarm), `execute` (205-269), which first runs the callback of the list itself (211). -/
def op (dev : Nat → Ans) (rec : Call → St → Option (St × Bool)) (s : St) : Op → Option (St × Bool)
  | .append x => some ({ s with list := s.list ++ [x] }, false)
  | .prepend x => some ({ s with list := x :: s.list }, false)
  | .unlink x => some ({ s with list := unlink x s.list, sure := unlink x s.sure, log := s.log ++ [.removed x] }, false)
  | .iterRemove x => some ({ s with list := s.list.erase x }, false)
  | .kill x => some ({ s with dead := x :: s.dead }, false)
  | .autoPrune on => some ({ s with prune := on }, false)
  | .preSelect => some ({ s with sure := [], log := s.log ++ [.start] }, false)
  | .postSelect => rec (.post 0 (dev s.tick).ready) { s with tick := s.tick + 1 }
  | .callback => (rec (.ops (dev s.tick).code) { s with tick := s.tick + 1 }).bind fun r => rec .loop r.1

/-- A list of operations. -/
def ops (rec : Call → St → Option (St × Bool)) : List Op → St → Option (St × Bool)
  | [], s => some (s, false)
  | o :: l, s => (rec (.op o) s).bind fun r => rec (.ops l) r.1

/-- The function called. -/
def body (dev : Nat → Ans) (rec : Call → St → Option (St × Bool)) : Call → St → Option (St × Bool)
  | .post k sure, s => post dev rec k sure s
  | .loop, s => loop dev rec s
  | .ops l, s => ops rec l s
  | .op o, s => op dev rec s o

/-- A call with at most so many steps inside each other; `none` if that is not enough, or if an assertion fails (streams/wvistreamlist.cc:182-184). -/
def exec (dev : Nat → Ans) : Nat → Call → St → Option (St × Bool)
  | 0, _, _ => none
  | f + 1, c, s => body dev (exec dev f) c s

end Wv.StreamList
