/-
A sequence with a cursor, independent of the model. Each element comes with a flag: does the list own it (and delete it when it
is unlinked)? Positions count from 0, which is before the first element; position i + 1 is the element items[i].
-/
namespace Spec.Cursor
variable {α : Type} [DecidableEq α]

/-- The cursor: the position `next()` came from, and the current one (`none` is the end). `unset`: it was not rewound since a
    call that invalidates it. -/
inductive It
  | unset
  | at (prev cur : Option Nat)
deriving Repr, DecidableEq

structure St (α : Type) where
  items : List (α × Bool)
  it : It
deriving Repr, DecidableEq

inductive Call (α : Type)
  | append (x : α) (autofree : Bool)
  | prepend (x : α) (autofree : Bool)
  | addAfterCur (x : α) (autofree : Bool)
  | unlinkAll (x : α)
  | unlinkFirst
  | zap (destroy : Bool)
  | reverse
  | count
  | isempty
  | first
  | last
  | rewind
  | next
  | ptr
  | unlink (destroy : Bool)
  | xunlink (destroy : Bool)
  | find (x : α)
  | setAutofree (autofree : Bool)
  | getAutofree
deriving Repr

/-- What a call shows: the objects it deletes, a number, a flag, an object. -/
inductive Out (α : Type)
  | freed (l : List α)
  | num (n : Nat)
  | flag (b : Bool)
  | obj (x : Option α)
deriving Repr, DecidableEq

/-- The objects deleted when these elements go. -/
def owned (l : List (α × Bool)) : List α := (l.filter Prod.snd).map Prod.fst

def insertAt (l : List (α × Bool)) (i : Nat) (p : α × Bool) : List (α × Bool) := l.take i ++ p :: l.drop i

/-- A position after an element was put at position `i + 1`. -/
def shift (i : Nat) (p : Option Nat) : Option Nat := p.map fun p => if i < p then p + 1 else p

def It.shift (i : Nat) : It → It
  | .unset => .unset
  | .at p c => .at (Cursor.shift i p) (Cursor.shift i c)

/-- What a call does. `none`: the call is not allowed here. -/
def step (s : St α) : Call α → Option (St α × Out α)
  | .append x a => some (⟨s.items ++ [(x, a)], s.it⟩, .freed [])
  | .prepend x a => some (⟨(x, a) :: s.items, s.it.shift 0⟩, .freed [])
  | .addAfterCur x a =>
    match s.it with
    | .at _ (some c) => some (⟨insertAt s.items c (x, a), s.it.shift c⟩, .freed [])
    | _ => none
  | .unlinkAll x =>
    some (⟨s.items.filter fun p => p.1 ≠ x, .unset⟩, .freed (owned (s.items.filter fun p => p.1 = x)))
  | .unlinkFirst => some (⟨s.items.drop 1, .unset⟩, .freed (owned (s.items.take 1)))
  | .zap destroy => some (⟨[], .unset⟩, .freed (if destroy then owned s.items else []))
  | .reverse => some (⟨s.items.reverse, .unset⟩, .freed [])
  | .count => some (s, .num s.items.length)
  | .isempty => some (s, .flag s.items.isEmpty)
  | .first => if s.items = [] then none else some (s, .obj (s.items.head?.map Prod.fst))
  | .last => if s.items = [] then none else some (s, .obj (s.items.getLast?.map Prod.fst))
  | .rewind => some (⟨s.items, .at none (some 0)⟩, .freed [])
  | .next =>
    match s.it with
    | .at _ (some c) =>
      some (⟨s.items, .at (some c) (if c < s.items.length then some (c + 1) else none)⟩, .flag (decide (c < s.items.length)))
    | _ => none
  | .ptr =>
    match s.it with
    | .at _ (some (c + 1)) => some (s, .obj (s.items[c]?.map Prod.fst))
    | _ => none
  | .unlink destroy =>
    match s.it with
    | .at (some p) _ =>
      some (⟨s.items.eraseIdx p, .at (some p) (if p + 1 < s.items.length then some (p + 1) else none)⟩,
        .freed (if destroy then owned (s.items.drop p |>.take 1) else []))
    | _ => none
  | .xunlink destroy =>
    match s.it with
    | .at (some p) _ =>
      some (⟨s.items.eraseIdx p, .at (some p) (some p)⟩, .freed (if destroy then owned (s.items.drop p |>.take 1) else []))
    | _ => none
  | .find x =>
    match s.items.findIdx? (fun p => p.1 = x) with
    | some i => some (⟨s.items, .at (some i) (some (i + 1))⟩, .flag true)
    | none => some (⟨s.items, .at (some s.items.length) none⟩, .flag false)
  | .setAutofree a =>
    match s.it with
    | .at _ (some (c + 1)) => some (⟨s.items.modify c fun p => (p.1, a), s.it⟩, .freed [])
    | _ => none
  | .getAutofree =>
    match s.it with
    | .at _ (some (c + 1)) => s.items[c]?.map fun p => (s, .flag p.2)
    | _ => none

def run : St α → List (Call α) → Option (St α × List (Out α))
  | s, [] => some (s, [])
  | s, op :: ops => (step s op).bind fun r => (run r.1 ops).map fun q => (q.1, r.2 :: q.2)

end Spec.Cursor
