import Verif.Model.RecIter
/-
Generators with notifications, and those that keep a copy of what another one holds: UniCacheGen (uniconf/unicachegen.cc) and
UniFastRegetGen (uniconf/unifastregetgen.cc).

The notifications of a call of `set` are delivered, in order, before the call returns (C23), and what they call does not call the
generator again.
-/
namespace Wv
open TempGen (Value Delta)

/-- A generator, and the notifications that a call of `set` makes. -/
structure NGen (σ : Type) extends IGen σ where
  notes : σ → Key → Option Value → List Delta

/-- UniTempGen. -/
def NGen.temp (ord : List TempGen.Tree → List TempGen.Tree) : NGen TempGen.Gen :=
  { IGen.temp ord with notes := fun g k v => (TempGen.set ord g k v).2 }

/-! ### UniCacheGen -/
namespace Cache

/-- UniCacheGen (include/unicachegen.h:20-27): the inner generator, the UniTempGen it is, and `refreshed_once`. -/
structure State (σ : Type) where
  inner : σ
  tree : TempGen.Gen
  refreshed : Bool

/-- The constructor (uniconf/unicachegen.cc:28-35). -/
def new {σ : Type} (inner : σ) : State σ := ⟨inner, TempGen.new, false⟩

section
variable {σ : Type} (I : NGen σ) (ord : List TempGen.Tree → List TempGen.Tree) (n : Nat)

/-- Calls of `deltacallback` (uniconf/unicachegen.cc:89-92). -/
def hear (t : TempGen.Gen) (d : List Delta) : TempGen.Gen := d.foldl (fun t x => (TempGen.set ord t x.1 x.2).1) t

/-- A call of `set` of the inner generator, by anyone. -/
def direct (c : State σ) (k : Key) (v : Option Value) : State σ :=
  { c with inner := I.set c.inner k v, tree := hear ord c.tree (I.notes c.inner k v) }

/-- `set` (uniconf/unicachegen.cc:94-97). -/
def set (c : State σ) (k : Key) (v : Option Value) : State σ := direct I ord c k v

/-- The loop of `loadtree` (uniconf/unicachegen.cc:74-84), over what the recursive iterator visits: `!!value` is false of null and of
    an empty value. -/
def loadLoop (t : TempGen.Gen) (l : List (Key × Option Value)) : TempGen.Gen :=
  l.foldl (fun t x => match x.2 with
    | some v => if v.isEmpty then t else (TempGen.set ord t x.1 (some v)).1
    | none => t) t

/-- `loadtree` (uniconf/unicachegen.cc:68-87); `n` is the number of steps after which the loop is given up. -/
def loadtree (c : State σ) : State σ :=
  { c with tree := loadLoop ord c.tree (RecIter.recursive I.toIGen c.inner n []).1 }

/-- `refresh` (uniconf/unicachegen.cc:51-62). -/
def refresh (c : State σ) : State σ × Bool :=
  if c.refreshed then (c, false)
  else
    let r := I.refresh c.inner
    ({ loadtree I ord n { c with inner := r.1 } with refreshed := true }, r.2)

/-- UniCacheGen as a generator (uniconf/unicachegen.cc:45-106); what it does not override is that of UniTempGen
    (uniconf/unitempgen.cc:150-182, uniconf/uniconfgen.cc:120-123). That `get` has the inner generator deliver notifications that are
    pending is left out: none are. -/
def gen : IGen (State σ) where
  get := fun c k => TempGen.get c.tree k
  «exists» := fun c k => (TempGen.get c.tree k).isSome
  haschildren := fun c k => TempGen.haschildren c.tree k
  iterator := fun c k => (TempGen.iterator c.tree k).map fun l => l.map fun x => (x.1, some x.2)
  set := set I ord
  setv := IGen.setvNaive (set I ord)
  commit := fun c => { c with inner := I.commit c.inner }
  refresh := refresh I ord n
  prefetch := fun c _ _ => c
  flush := fun c => c

end
end Cache

/-! ### UniFastRegetGen -/
namespace Reget

/-- A node: UniConfValueTree (include/uniconftree.h:152-160), here with a value that may be null. Children are a list; nothing here depends
    on their order. -/
inductive Tree
  | node (key : Key) (value : Option Value) (children : List Tree)

namespace Tree
def key : Tree → Key | node k _ _ => k
def value : Tree → Option Value | node _ v _ => v
def children : Tree → List Tree | node _ _ c => c
end Tree

/-- The container's lookup by key. -/
def lookup (c : List Tree) (k : Key) : Option Tree := c.find? fun t => Key.eq k t.key

/-- `_findchild` (uniconf/unihashtree.cc:105-111). -/
def findchild (t : Tree) (k : Key) : Option Tree := if Key.isempty k then some t else lookup t.children k

/-- The loop of `_find` (uniconf/unihashtree.cc:90-102). -/
def findLoop (t : Tree) : List Key → Option Tree
  | [] => some t
  | k :: ks => (findchild t k).bind fun t => findLoop t ks

/-- `find`. -/
def find (t : Tree) (key : Key) : Option Tree := findLoop t (TempGen.segments key)

/-- Put a node in the place of the one with the same key. -/
def replace (c : List Tree) (k : Key) (t : Tree) : List Tree :=
  match c with
  | [] => []
  | x :: c => if Key.eq k x.key then t :: c else x :: replace c k t

/-- Changing the node that `find` finds, if there is one. -/
def changeLoop (f : Tree → Tree) (t : Tree) : List Key → Tree
  | [] => f t
  | k :: ks =>
    if Key.isempty k then changeLoop f t ks
    else
      match lookup t.children k with
      | none => t
      | some c => .node t.key t.value (replace t.children k (changeLoop f c ks))

/-- The same for a key. -/
def change (f : Tree → Tree) (t : Tree) (key : Key) : Tree := changeLoop f t (TempGen.segments key)

/-- `setvalue` (include/uniconftree.h:167-168). -/
def setvalue (v : Option Value) : Tree → Tree | .node k _ c => .node k v c

/-- `new UniConfValueTree(t, key, value)` (uniconf/unihashtree.cc:14-21, 119-126). -/
def addchild (k : Key) (v : Option Value) : Tree → Tree | .node k0 v0 c => .node k0 v0 (c ++ [.node k v []])

/-- UniFastRegetGen (include/unifastregetgen.h:33-48); `asked` is a record of the keys for which `get` of the inner generator was
    called. -/
structure State (σ : Type) where
  inner : σ
  tree : Tree
  asked : List Key := []

section
variable {σ : Type} (I : NGen σ)

/-- The constructor (uniconf/unifastregetgen.cc:23-28). -/
def new (inner : σ) : State σ := ⟨inner, .node (Key.parse [47]) (I.get inner (Key.parse [47])) [], [Key.parse [47]]⟩

/-- `gencallback` (uniconf/unifastregetgen.cc:41-50). -/
def hear (t : Tree) (x : Delta) : Tree := change (setvalue x.2) t x.1

/-- A call of `set` of the inner generator, by anyone, also through this one (uniconf/unifiltergen.cc:86-91). -/
def set (s : State σ) (k : Key) (v : Option Value) : State σ :=
  { s with inner := I.set s.inner k v, tree := (I.notes s.inner k v).foldl hear s.tree }

/-- `get` (uniconf/unifastregetgen.cc:53-81): the value and the state afterwards. The number is more than the number of segments of the
    key. Where the assertion that the parent is there fails, the value is null. -/
def get : Nat → State σ → Key → Option Value × State σ
  | 0, s, _ => (none, s)
  | f + 1, s, key =>
    if Key.hastrailingslash key then (none, s)
    else
      match find s.tree key with
      | some t => (t.value, s)
      | none =>
        let parent := Key.removelast key 1
        let s := (get f s parent).2
        match find s.tree parent with
        | none => (none, s)
        | some t =>
          if t.value.isSome then
            let v := I.get s.inner key
            (v, { s with tree := change (addchild (Key.last key 1) v) s.tree parent, asked := s.asked ++ [key] })
          else (none, { s with tree := change (addchild (Key.last key 1) none) s.tree parent })

/-- `get`, with a number that is enough. -/
def getKey (s : State σ) (key : Key) : Option Value × State σ := get I (key.length + 1) s key

/-- `exists` (uniconf/unifastregetgen.cc:84-89). -/
def «exists» (s : State σ) (key : Key) : Bool × State σ :=
  let r := getKey I s key
  (r.1.isSome, r.2)

/-- `haschildren` (uniconf/unifastregetgen.cc:92-105). -/
def haschildren (s : State σ) (key : Key) : Bool :=
  match find s.tree key with
  | some t => if t.value.isNone then false else I.haschildren s.inner key
  | none => I.haschildren s.inner key

end
end Reget
end Wv
