import Verif.Model.IGen
/-
Model of UniTransactionGen (uniconf/unitransactiongen.cc) over any generator.

Simplifications: notifications are left out, and with them `was_null_or_empty`, `gencallback`, the simulated deletions, and what
`refresh` does before it forgets the changes (cancel_changes, 466-502). Children are lists in the order of iteration, which may
change in unknown ways (`ord`, for trees of values `ordv`) whenever a child is added or removed. A key and the position `seg` in it
are the list of the segments that are left. Iterators of the base are lists: they do not see changes made while they are used.
-/
namespace Wv.TransGen
open TempGen (Value Tree findLoop lookup replace removeLoop segments findchild)

/-- `mode` and the field that is valid with it (uniconf/unitransactiongen.cc:19-58). -/
inductive Mode where
  | newvalue (v : Value)
  | newtree (t : Option Tree)
  | newnode
  | blank

/-- UniConfChangeTree (uniconf/unitransactiongen.cc:47-70). -/
inductive CTree where
  | node (key : Key) (mode : Mode) (children : List CTree)

namespace CTree
def key : CTree → Key | node k _ _ => k
def mode : CTree → Mode | node _ m _ => m
def children : CTree → List CTree | node _ _ c => c
end CTree

/-- The container's lookup by key. -/
def clookup (c : List CTree) (k : Key) : Option CTree := c.find? fun t => Key.eq k t.key

/-- `findchild` (uniconf/unihashtree.cc:105-111). -/
def cfindchild (t : CTree) (k : Key) : Option CTree := if Key.isempty k then some t else clookup t.children k

/-- Put a node in the place of the one with the same key. -/
def creplace (c : List CTree) (k : Key) (t : CTree) : List CTree :=
  match c with
  | [] => []
  | x :: c => if Key.eq k x.key then t :: c else x :: creplace c k t

/-- `create_value` (uniconf/unitransactiongen.cc:560-585): the node, with the key before the segments that are left. -/
def createValue (v : Value) (prev : Key) : List Key → Tree
  | [] => .node prev v []
  | k :: rest => .node prev [] [createValue v k rest]

/-- The end of `set_value` for a node and a value (uniconf/unitransactiongen.cc:693-713). -/
def setExisting (ordv : List Tree → List Tree) (v : Value) (t : Tree) : List Key → Tree
  | [] => .node t.key v t.children
  | s :: rest =>
    if Key.isempty s then setExisting ordv v t rest
    else
      match lookup t.children s with
      | none => .node t.key t.value (ordv (t.children ++ [createValue v s rest]))
      | some x => .node t.key t.value (replace t.children s (setExisting ordv v x rest))

/-- `set_value` (uniconf/unitransactiongen.cc:656-715). -/
def setValue (ordv : List Tree → List Tree) (value : Option Value) (prev : Key) (node : Option Tree) (rest : List Key) : Option Tree :=
  match value, node with
  | none, none => none
  | none, some t =>
    match removeLoop ordv [] t rest with
    | none => some t
    | some r => r.1
  | some v, none => some (createValue v prev rest)
  | some v, some t => some (setExisting ordv v t rest)

/-- `create_change` after its first lines (uniconf/unitransactiongen.cc:611-649). -/
def createChange (value : Option Value) (prev : Key) : List Key → CTree
  | [] =>
    match value with
    | none => .node prev (.newtree none) []
    | some v => .node prev (.newvalue v) []
  | k :: rest => .node prev (if value.isSome then .newnode else .blank) [createChange value k rest]

/-- `set_change` from a node on (uniconf/unitransactiongen.cc:742-814). `slash`: the key has a slash at its end, for which
    `create_change` does nothing with a value (606-609). -/
def setChange (ord : List CTree → List CTree) (ordv : List Tree → List Tree) (slash : Bool) (value : Option Value) (prev : Key)
    (t : CTree) : List Key → CTree
  | [] =>
    match t.mode with
    | .newtree u => .node t.key (.newtree (setValue ordv value prev u [])) t.children
    | _ =>
      match value with
      | none => .node t.key (.newtree none) []
      | some v => .node t.key (.newvalue v) t.children
  | s :: rest =>
    match t.mode with
    | .newtree u => .node t.key (.newtree (setValue ordv value prev u (s :: rest))) t.children
    | m =>
      let m' := match m, value with | .blank, some _ => .newnode | m, _ => m
      if Key.isempty s then setChange ord ordv slash value s (.node t.key m' t.children) rest
      else
        match clookup t.children s with
        | none =>
          if slash && value.isSome then .node t.key m' t.children
          else .node t.key m' (ord (t.children ++ [createChange value s rest]))
        | some x => .node t.key m' (creplace t.children s (setChange ord ordv slash value s x rest))

/-- UniTransactionGen. -/
structure Trans (σ : Type) where
  root : Option CTree
  base : σ

/-- The constructor (uniconf/unitransactiongen.cc:202-207). -/
def new {σ : Type} (b : σ) : Trans σ := ⟨none, b⟩

/-- `set` (uniconf/unitransactiongen.cc:253-258, 740-741). -/
def set {σ : Type} (ord : List CTree → List CTree) (ordv : List Tree → List Tree) (g : Trans σ) (key : Key) (value : Option Value) :
    Trans σ :=
  match g.root with
  | none =>
    if Key.hastrailingslash key && value.isSome then g else { g with root := some (createChange value [] (segments key)) }
  | some r => { g with root := some (setChange ord ordv (Key.hastrailingslash key) value [] r (segments key)) }

/-- The loop of `get` (uniconf/unitransactiongen.cc:219-250). At the end `key.first(seg)` is `key`. -/
def getLoop {σ : Type} (I : IGen σ) (b : σ) (key : Key) (t : CTree) : List Key → Option Value
  | [] =>
    match t.mode with
    | .newtree u => u.bind fun u => (findLoop u []).map Tree.value
    | .newvalue v => some v
    | .newnode => some ((I.get b key).getD [])
    | .blank => I.get b key
  | s :: rest =>
    match t.mode with
    | .newtree u => u.bind fun u => (findLoop u (s :: rest)).map Tree.value
    | _ =>
      match cfindchild t s with
      | none => I.get b key
      | some x => getLoop I b key x rest

/-- `get` (uniconf/unitransactiongen.cc:216-251). -/
def get {σ : Type} (I : IGen σ) (g : Trans σ) (key : Key) : Option Value :=
  match g.root with
  | none => I.get g.base key
  | some r => getLoop I g.base key r (segments key)

/-- What GenStyleChangeTreeIter visits first (uniconf/unitransactiongen.cc:128-144, 174-185). -/
def changed {σ : Type} (I : IGen σ) (b : σ) (section_ : Key) (c : List CTree) : List (Key × Option Value) :=
  c.filterMap fun x =>
    match x.mode with
    | .newvalue v => some (x.key, some v)
    | .newtree (some t) => some (x.key, some t.value)
    | .newnode => some (x.key, some ((I.get b (Key.join section_ x.key)).getD []))
    | _ => none

/-- Whether it leaves what the base's iterator shows (uniconf/unitransactiongen.cc:151-153). -/
def untouched (t : CTree) (k : Key) : Bool :=
  match cfindchild t k with
  | none => true
  | some n => match n.mode with | .blank => true | _ => false

/-- GenStyleValueTreeIter and NullIter (uniconf/unitransactiongen.cc:74-95, 325-338). -/
def listed : Option Tree → List (Key × Option Value)
  | none => []
  | some n => n.children.map fun x => (x.key, some x.value)

/-- The loop of `iterator` (uniconf/unitransactiongen.cc:313-350). UniListIter copies what is visited; with null values it would not
    do so faithfully (uniconf/unilistiter.cc:16-23), which is not modelled. -/
def iterLoop {σ : Type} (I : IGen σ) (b : σ) (key : Key) (t : CTree) : List Key → Option (List (Key × Option Value))
  | [] =>
    match t.mode with
    | .newtree u => some (listed (u.bind fun u => findLoop u []))
    | _ =>
      some (changed I b key t.children ++ (match I.iterator b key with
        | none => []
        | some l => l.filter fun x => untouched t x.1))
  | s :: rest =>
    match t.mode with
    | .newtree u => some (listed (u.bind fun u => findLoop u (s :: rest)))
    | _ =>
      match cfindchild t s with
      | none => I.iterator b key
      | some x => iterLoop I b key x rest

/-- `iterator` (uniconf/unitransactiongen.cc:310-351). -/
def iterator {σ : Type} (I : IGen σ) (g : Trans σ) (key : Key) : Option (List (Key × Option Value)) :=
  match g.root with
  | none => I.iterator g.base key
  | some r => iterLoop I g.base key r (segments key)

/-- `exists` (uniconf/uniconfgen.cc:120-123). -/
def «exists» {σ : Type} (I : IGen σ) (g : Trans σ) (key : Key) : Bool := (get I g key).isSome

/-- `haschildren` (uniconf/uniconfgen.cc:101-117). -/
def haschildren {σ : Type} (I : IGen σ) (g : Trans σ) (key : Key) : Bool :=
  match iterator I g key with
  | none => false
  | some l => !l.isEmpty

/-- The first loop of `apply_values` (uniconf/unitransactiongen.cc:358-370). -/
def prune {σ : Type} (I : IGen σ) (section_ : Key) (t : Tree) (b : σ) : σ :=
  match I.iterator b section_ with
  | none => b
  | some l => l.foldl (fun b x => if (findchild t x.1).isNone then I.set b (Key.join section_ x.1) none else b) b

mutual
/-- `apply_values` (uniconf/unitransactiongen.cc:353-376). -/
def applyValues {σ : Type} (I : IGen σ) (section_ : Key) : Tree → σ → σ
  | .node k v c, b => applyValuesAll I section_ c (prune I section_ (.node k v c) (I.set b section_ (some v)))
def applyValuesAll {σ : Type} (I : IGen σ) (section_ : Key) : List Tree → σ → σ
  | [], b => b
  | .node k v c :: r, b => applyValuesAll I section_ r (applyValues I (Key.join section_ k) (.node k v c) b)
end

mutual
/-- `apply_changes` (uniconf/unitransactiongen.cc:378-413). -/
def applyChanges {σ : Type} (I : IGen σ) (section_ : Key) : CTree → σ → σ
  | .node _ m c, b =>
    match m with
    | .newtree none => I.set b section_ none
    | .newtree (some t) => applyValues I section_ t b
    | .newvalue v => applyChangesAll I section_ c (I.set b section_ (some v))
    | .newnode => applyChangesAll I section_ c (if I.exists b section_ then b else I.set b section_ (some []))
    | .blank => applyChangesAll I section_ c b
def applyChangesAll {σ : Type} (I : IGen σ) (section_ : Key) : List CTree → σ → σ
  | [], b => b
  | .node k m c :: r, b => applyChangesAll I section_ r (applyChanges I (Key.join section_ k) (.node k m c) b)
end

/-- `commit` (uniconf/unitransactiongen.cc:269-290). -/
def commit {σ : Type} (I : IGen σ) (g : Trans σ) : Trans σ :=
  match g.root with
  | none => g
  | some r => ⟨none, I.commit (applyChanges I [] r g.base)⟩

/-- `refresh` (uniconf/unitransactiongen.cc:292-308). -/
def refresh {σ : Type} (I : IGen σ) (g : Trans σ) : Trans σ × Bool :=
  let r := I.refresh g.base
  (⟨none, r.1⟩, r.2)

/-- All of it as a generator, in an order of children that is given. -/
def gen {σ : Type} (I : IGen σ) (ord : List CTree → List CTree) (ordv : List Tree → List Tree) : IGen (Trans σ) where
  get := get I
  «exists» := «exists» I
  haschildren := haschildren I
  iterator := iterator I
  set := set ord ordv
  setv := IGen.setvNaive (set ord ordv)
  commit := commit I
  refresh := refresh I
  prefetch := fun g _ _ => g
  flush := fun g => g

end Wv.TransGen
