import Verif.Model.Basic
import Verif.Spec.Cursor
/-
Model of WvLink, WvListBase and WvList with one iterator (include/wvlink.h, include/wvlinklist.h, utils/wvlinklist.cc), with
links on a heap.

Address 0 is the link inside the list object itself. The `id` of a link is not modelled. The data of a link is a pointer that
is only compared; the data of the list's own link is NULL (`none`), and the calls are assumed to pass no NULL. The allocator is
a parameter: it returns an address that is not in use, perhaps one that was in use before. `none` is an access through a null
or dangling pointer.
-/
namespace Wv.LinkList
open Spec.Cursor (Call Out)
variable {α : Type} [DecidableEq α]

/-- WvLink (include/wvlink.h:23-31). -/
structure Link (α : Type) where
  data : Option α
  next : Option Nat
  autofree : Bool
deriving Repr

/-- The heap, as far as links go: what is at an address, and the addresses in use. -/
structure Heap (α : Type) where
  mem : Nat → Option (Link α)
  live : List Nat

/-- A list and an iterator: `tail`, and `prev` and `link` of IterBase (include/wvlinklist.h:29, 77). -/
structure St (α : Type) where
  heap : Heap α
  tail : Nat
  prev : Option Nat
  link : Option Nat

/-- `*p = l`. -/
def Heap.set (h : Heap α) (p : Nat) (l : Link α) : Heap α := { h with mem := fun q => if q = p then some l else h.mem q }

/-- `new`. -/
def Heap.alloc (h : Heap α) (p : Nat) (l : Link α) : Heap α :=
  { mem := fun q => if q = p then some l else h.mem q, live := p :: h.live }

/-- `delete`. -/
def Heap.free (h : Heap α) (p : Nat) : Heap α :=
  { mem := fun q => if q = p then none else h.mem q, live := h.live.erase p }

/-- `*p`, of a pointer. -/
def Heap.deref (h : Heap α) : Option Nat → Option (Link α)
  | none => none
  | some p => h.mem p

/-- `WvListBase()` (include/wvlinklist.h:32-33). The iterator is not initialised. -/
def new : St α := ⟨⟨fun q => if q = 0 then some ⟨none, none, false⟩ else none, [0]⟩, 0, none, none⟩

/-- `add_after(after, data, autofree)` (include/wvlinklist.h:263-267, utils/wvlinklist.cc:12-21). -/
def addAfter (alloc : List Nat → Nat) (s : St α) (after : Nat) (x : α) (a : Bool) : Option (St α) :=
  match s.heap.mem after with
  | none => none
  | some l =>
    let n := alloc s.heap.live
    let h := s.heap.alloc n ⟨some x, l.next, a⟩
    some { s with heap := h.set after { l with next := some n }, tail := if l.next = none then n else s.tail }

/-- `unlink_after(after, destroy)` (include/wvlinklist.h:325-337, include/wvlink.h:51-55), and what it deletes. -/
def unlinkAfter (s : St α) (after : Nat) (destroy : Bool) : Option (St α × List α) :=
  match s.heap.mem after with
  | none => none
  | some l =>
    match l.next with
    | none => some (s, [])
    | some n =>
      match s.heap.mem n with
      | none => none
      | some ln =>
        let freed := if destroy && ln.autofree then ln.data.toList else []
        let tail := if n = s.tail then after else s.tail
        let h := s.heap.set after { l with next := ln.next }
        some ({ s with heap := h.free n, tail := tail }, freed)

/-- The loop of `zap(destroy)` (include/wvlinklist.h:228-232). It ends, because each turn frees a link. -/
def zapLoop (s : St α) (destroy : Bool) : Nat → Option (St α × List α)
  | 0 => none
  | fuel + 1 =>
    match s.heap.mem 0 with
    | none => none
    | some l =>
      if l.next = none then some (s, [])
      else (unlinkAfter s 0 destroy).bind fun r => (zapLoop r.1 destroy fuel).map fun q => (q.1, r.2 ++ q.2)

/-- `IterBase::next()` (include/wvlinklist.h:103-104), of an iterator (prev, link). -/
def iterNext (h : Heap α) (link : Option Nat) : Option (Option Nat × Option Nat) :=
  (h.deref link).map fun l => (link, l.next)

/-- The loop of `IterBase::find(data)` (utils/wvlinklist.cc:60-62). -/
def findLoop (h : Heap α) (x : α) (link : Option Nat) : Nat → Option (Option Nat × Option Nat)
  | 0 => none
  | fuel + 1 =>
    match iterNext h link with
    | none => none
    | some (prev, none) => some (prev, none)
    | some (prev, some p) =>
      match h.mem p with
      | none => none
      | some l => if l.data = some x then some (prev, some p) else findLoop h x (some p) fuel

/-- `IterBase::find(data)` (utils/wvlinklist.cc:58-64). The bound on the number of turns is never reached. -/
def find (h : Heap α) (x : α) : Option (Option Nat × Option Nat) := findLoop h x (some 0) (h.live.length + 1)

/-- `Iter::unlink(destroy)` (include/wvlinklist.h:390-394). -/
def iterUnlink (s : St α) (destroy : Bool) : Option (St α × List α) :=
  match s.prev with
  | none => none
  | some p =>
    (unlinkAfter s p destroy).bind fun r => (r.1.heap.mem p).map fun l => ({ r.1 with link := l.next }, r.2)

/-- `Iter::xunlink(destroy)` (include/wvlinklist.h:409-413), after `next()`; before it, `prev` is NULL and so is `link`
    afterwards. -/
def iterXunlink (s : St α) (destroy : Bool) : Option (St α × List α) :=
  match s.prev with
  | none => some ({ s with link := none }, [])
  | some p => (unlinkAfter s p destroy).map fun r => ({ r.1 with link := some p }, r.2)

/-- `unlink(data)` (include/wvlinklist.h:303-304), with an iterator of its own. -/
def unlinkAll (s : St α) (x : α) : Nat → Option (St α × List α)
  | 0 => none
  | fuel + 1 =>
    match find s.heap x with
    | none => none
    | some (_, none) => some (s, [])
    | some (prev, some p) =>
      (iterUnlink { s with prev := prev, link := some p } true).bind fun r =>
        (unlinkAll { r.1 with prev := s.prev, link := s.link } x fuel).map fun q => (q.1, r.2 ++ q.2)

/-- `unlink_first()` (include/wvlinklist.h:312-316), with an iterator of its own. -/
def unlinkFirst (s : St α) : Option (St α × List α) :=
  match s.heap.mem 0 with
  | none => none
  | some l =>
    if l.next = none then some (s, [])
    else
      (iterNext s.heap (some 0)).bind fun i =>
        (iterUnlink { s with prev := i.1, link := i.2 } true).map fun r => ({ r.1 with prev := s.prev, link := s.link }, r.2)

/-- The loop of `reverse()` (utils/wvlinklist.cc:45-50); `prev` at its end. -/
def reverseLoop (h : Heap α) (prev curr : Nat) : Nat → Option (Heap α × Nat)
  | 0 => none
  | fuel + 1 =>
    match h.mem curr with
    | none => none
    | some l =>
      let h := h.set curr { l with next := some prev }
      match l.next with
      | none => some (h, curr)
      | some next => reverseLoop h curr next fuel

/-- `reverse()` (utils/wvlinklist.cc:35-55). -/
def reverse (s : St α) : Option (St α) :=
  match s.heap.mem 0 with
  | none => none
  | some l =>
    match l.next with
    | none => some s
    | some first =>
      match s.heap.mem first with
      | none => none
      | some lf =>
        match lf.next with
        | none => some s
        | some curr =>
          (reverseLoop s.heap first curr s.heap.live.length).bind fun r =>
            match r.1.mem first with
            | none => none
            | some lt => some { s with heap := (r.1.set first { lt with next := none }).set 0 { l with next := some r.2 }, tail := first }

/-- The loop of `count()` (utils/wvlinklist.cc:29-30). -/
def countLoop (h : Heap α) (l : Option Nat) : Nat → Option Nat
  | 0 => none
  | fuel + 1 =>
    match l with
    | none => some 0
    | some p => (h.mem p).bind fun l => (countLoop h l.next fuel).map (· + 1)

/-- `count()` (utils/wvlinklist.cc:24-32). -/
def count (s : St α) : Option Nat := (s.heap.mem 0).bind fun l => countLoop s.heap l.next (s.heap.live.length + 1)

/-- The calls; for the one-liners include/wvlinklist.h:62-63 (isempty), 90-91 (rewind), 241-242 (first), 251-252 (last), 276-277
    (append), 293-294 (prepend), 364-365 (ptr), 372-383 (get_autofree, set_autofree). `addAfterCur` is
    `l.add_after(i.cur(), data, autofree)`. -/
def exec (alloc : List Nat → Nat) (s : St α) : Call α → Option (St α × Out α)
  | .append x a => (addAfter alloc s s.tail x a).map fun s => (s, .freed [])
  | .prepend x a => (addAfter alloc s 0 x a).map fun s => (s, .freed [])
  | .addAfterCur x a => s.link.bind fun p => (addAfter alloc s p x a).map fun s => (s, .freed [])
  | .unlinkAll x => (unlinkAll s x (s.heap.live.length + 1)).map fun r => (r.1, .freed r.2)
  | .unlinkFirst => (unlinkFirst s).map fun r => (r.1, .freed r.2)
  | .zap destroy => (zapLoop s destroy (s.heap.live.length + 1)).map fun r => (r.1, .freed r.2)
  | .reverse => (reverse s).map fun s => (s, .freed [])
  | .count => (count s).map fun n => (s, .num n)
  | .isempty => (s.heap.mem 0).map fun l => (s, .flag (decide (l.next = none)))
  | .first => (s.heap.mem 0).bind fun l => (s.heap.deref l.next).map fun l => (s, .obj l.data)
  | .last => (s.heap.mem s.tail).map fun l => (s, .obj l.data)
  | .rewind => some ({ s with prev := none, link := some 0 }, .freed [])
  | .next => (iterNext s.heap s.link).map fun i => ({ s with prev := i.1, link := i.2 }, .flag (decide (i.2 ≠ none)))
  | .ptr => (s.heap.deref s.link).map fun l => (s, .obj l.data)
  | .unlink destroy => (iterUnlink s destroy).map fun r => (r.1, .freed r.2)
  | .xunlink destroy => (iterXunlink s destroy).map fun r => (r.1, .freed r.2)
  | .find x => (find s.heap x).map fun i => ({ s with prev := i.1, link := i.2 }, .flag (decide (i.2 ≠ none)))
  | .setAutofree a =>
    s.link.bind fun p => (s.heap.mem p).map fun l => ({ s with heap := s.heap.set p { l with autofree := a } }, .freed [])
  | .getAutofree => (s.heap.deref s.link).map fun l => (s, .flag l.autofree)

/-- A history of calls. -/
def run (alloc : List Nat → Nat) : St α → List (Call α) → Option (St α × List (Out α))
  | s, [] => some (s, [])
  | s, op :: ops => (exec alloc s op).bind fun r => (run alloc r.1 ops).map fun q => (q.1, r.2 :: q.2)

/-- `IterBase::find_next(data)` (utils/wvlinklist.cc:66-78): the iterator afterwards. -/
def findNext (h : Heap α) (prev link : Option Nat) (x : α) : Option (Option Nat × Option Nat) :=
  match link with
  | none => some (prev, link)
  | some p =>
    match h.mem p with
    | none => none
    | some l => if l.data = some x then some (prev, link) else find h x

end Wv.LinkList
