import Verif.Spec.ListIter
/-!
`UniListIter` (uniconf/unilistiter.cc, include/unilistiter.h). The table `keylook`, which nothing reads, and the cache of strings (C116) are left out.
-/
namespace Wv.ListIter
open Wv Spec.ListIter

/-- An iterator of a linked list (include/wvlinklist.h): the link it points to, 0 being the head that has no element, or no link. -/
abbrev Cur := Option Nat

/-- `next` of the iterator, that is not at no link: the next link. -/
def Cur.next (c : Nat) (len : Nat) : Cur := if c < len then some (c + 1) else none

/-- `keys`, `values`, `ki`, `vi`. -/
structure Obj where
  keys : List Key
  values : List Value
  ki : Cur
  vi : Cur

/-- `UniListIter::UniListIter` (unilistiter.cc:10-14): the iterators point to no link. -/
def new : Obj := ⟨[], [], none, none⟩

/-- `UniListIter::add` (unilistiter.cc:17-24). -/
def add (o : Obj) (k : Key) (v : Option Value) : Obj :=
  match v with
  | none => { o with keys := o.keys ++ [k] }
  | some v => { o with keys := o.keys ++ [k], values := o.values ++ [v] }

/-- `UniListIter::rewind` (unilistiter.cc:35-39). -/
def rewind (o : Obj) : Obj := { o with ki := some 0, vi := some 0 }

/-- `UniListIter::next` (unilistiter.cc:42-47); `none` reads through a null pointer. -/
def next (o : Obj) : Option (Bool × Obj) :=
  let vi := match o.vi with | some c => Cur.next c o.values.length | none => none
  match o.ki with
  | none => none
  | some c => let k := Cur.next c o.keys.length; some (k.isSome, { o with ki := k, vi := vi })

/-- `*ki` and `*vi`: no element at no link or at the head. -/
def deref {α : Type} (l : List α) : Cur → Option α
  | some (i + 1) => l[i]?
  | _ => none

/-- `UniListIter::value` (unilistiter.cc:56-62). -/
def value (G : Key → Option Value) (o : Obj) : Option (Option Value) :=
  if o.vi.isSome then (deref o.values o.vi).map some else (deref o.keys o.ki).map G

/-- A call. `key` is unilistiter.cc:50-53. -/
def step (G : Key → Option Value) (o : Obj) : Op → Ans × Obj
  | .add k v => (.unit, add o k v)
  | .rewind => (.unit, rewind o)
  | .next => match next o with | none => (.bad, o) | some r => (.bool r.1, r.2)
  | .key => match deref o.keys o.ki with | none => (.bad, o) | some k => (.key k, o)
  | .value => match value G o with | none => (.bad, o) | some v => (.value v, o)

def run (G : Key → Option Value) (o : Obj) : List Op → List Ans
  | [] => []
  | p :: l => (step G o p).1 :: run G (step G o p).2 l

/-- `UniListIter::autofill` (unilistiter.cc:27-32), from the pairs another iterator gives. -/
def autofill (o : Obj) : List (Key × Option Value) → Obj
  | [] => o
  | (k, v) :: l => autofill (add o k v) l

end Wv.ListIter
