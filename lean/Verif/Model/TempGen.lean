import Verif.Model.Key
import Verif.Model.GenDelta
/-
Model of UniConfValueTree (include/uniconftree.h, include/unihashtree.h, uniconf/unihashtree.cc) and UniTempGen
(uniconf/unitempgen.cc).

A node's children are in a WvScatterHash, modelled as a list in the order in which the hash table iterates over them (C17: a
lookup finds an element with the key, iteration visits all of them). That order changes in unknown ways whenever a child is added
or removed: `ord` is an arbitrary permutation, a different one in each call. That NULL and an empty container are the same is
not modelled. Notifications are returned as a list, in the order of the calls of `delta`; Model/GenDelta delivers them. The string
cache `scache` returns an equal string and is left out.
-/
namespace Wv.TempGen

/-- A value that is not null. -/
abbrev Value := List Byte

/-- A node: UniConfValueTree with `xkey`, `xvalue` and `xchildren`. -/
inductive Tree
  | node (key : Key) (value : Value) (children : List Tree)

namespace Tree
def key : Tree → Key | node k _ _ => k
def value : Tree → Value | node _ v _ => v
def children : Tree → List Tree | node _ _ c => c
end Tree

/-- A notification: the key, and its value or null. -/
abbrev Delta := Key × Option Value

/-- What UniConfKey::Iter visits (include/uniconfkey.h:459-484). -/
def segments (k : Key) : List Key := (List.range k.length).map fun (i : Nat) => Key.segment k i

/-- `_fullkey()` (uniconf/unihashtree.cc:63-87) of the node at the end of a path: the keys of the nodes on it, without the root. -/
def fullkey (path : List Key) : Key := path.foldr (fun k result => Key.prepend result k) []

/-- The container's lookup by key. -/
def lookup (c : List Tree) (k : Key) : Option Tree := c.find? fun t => Key.eq k t.key

/-- `_findchild` (uniconf/unihashtree.cc:105-111). -/
def findchild (t : Tree) (k : Key) : Option Tree := if Key.isempty k then some t else lookup t.children k

/-- The loop of `_find` (uniconf/unihashtree.cc:90-102). -/
def findLoop (t : Tree) : List Key → Option Tree
  | [] => some t
  | k :: ks => (findchild t k).bind fun t => findLoop t ks

/-- `find`. -/
def find (t : Tree) (key : Key) : Option Tree := findLoop t (segments key)

/-- Put a node in the place of the one with the same key. -/
def replace (c : List Tree) (k : Key) (t : Tree) : List Tree :=
  match c with
  | [] => []
  | x :: c => if Key.eq k x.key then t :: c else x :: replace c k t

mutual
/-- `_recursive_unsorted_visit` in postorder with `notify_deleted` (uniconf/unihashtree.cc:148-161,
    uniconf/unitempgen.cc:52-55). -/
def visit (path : List Key) : Tree → List Delta
  | .node _ _ c => visitAll path c ++ [(fullkey path, none)]
def visitAll (path : List Key) : List Tree → List Delta
  | [] => []
  | .node k v c :: r => visit (path ++ [k]) (.node k v c) ++ visitAll path r
end

/-- Finding a node and deleting it (uniconf/unitempgen.cc:81-89, uniconf/unihashtree.cc:23-39, 129-140): `none` if there is none;
    otherwise what is left of the tree, and the notifications. -/
def removeLoop (ord : List Tree → List Tree) (path : List Key) (t : Tree) : List Key → Option (Option Tree × List Delta)
  | [] => some (none, visit path t)
  | k :: ks =>
    if Key.isempty k then removeLoop ord path t ks
    else
      match lookup t.children k with
      | none => none
      | some c =>
        match removeLoop ord (path ++ [c.key]) c ks with
        | none => none
        | some (none, d) => some (some (.node t.key t.value (ord (t.children.eraseP fun x => Key.eq k x.key))), d)
        | some (some c', d) => some (some (.node t.key t.value (replace t.children k c')), d)

/-- The loop of `set` (uniconf/unitempgen.cc:105-142): from the node reached, if it exists, on; the key it has or gets; the
    segments left. The node with all that changes below it, and the notifications. -/
def setLoop (ord : List Tree → List Tree) (value : Value) (path : List Key) (node : Option Tree) (prevkey : Key) :
    List Key → Tree × List Delta
  | [] =>
    match node with
    | none => (.node prevkey value [], [(fullkey path, some value)])
    | some (.node k v c) => if value ≠ v then (.node k value c, [(fullkey path, some value)]) else (.node k v c, [])
  | s :: rest =>
    let made : Tree × List Delta :=
      match node with
      | none => (.node prevkey [] [], [(fullkey path, some [])])
      | some t => (t, [])
    if Key.isempty s then
      let r := setLoop ord value path (some made.1) s rest
      (r.1, made.2 ++ r.2)
    else
      match lookup made.1.children s with
      | some c =>
        let r := setLoop ord value (path ++ [c.key]) (some c) s rest
        (.node made.1.key made.1.value (replace made.1.children s r.1), made.2 ++ r.2)
      | none =>
        let r := setLoop ord value (path ++ [s]) none s rest
        (.node made.1.key made.1.value (ord (made.1.children ++ [r.1])), made.2 ++ r.2)

/-- UniTempGen. -/
structure Gen where
  root : Option Tree
  dirty : Bool

/-- The constructor (uniconf/unitempgen.cc:26-29). `dirty` is not initialised; here it is false. -/
def new : Gen := ⟨none, false⟩

/-- `get` (uniconf/unitempgen.cc:38-50). -/
def get (g : Gen) (key : Key) : Option Value :=
  match g.root with
  | none => none
  | some root =>
    if !Key.isempty key && Key.isempty (Key.last key 1) then none
    else (find root key).map Tree.value

/-- `exists` (uniconf/uniconfgen.cc:120-123). -/
def «exists» (g : Gen) (key : Key) : Bool := (get g key).isSome

/-- Whether the key has a slash at its end, and the key without it (uniconf/unitempgen.cc:62-74). -/
def stripSlash (key : Key) : Bool × Key :=
  if !Key.isempty key then
    let r := Key.pop key (Key.numsegments key - 1)
    if Key.isempty r.2 then (true, r.1) else (false, key)
  else (false, key)

/-- `set` (uniconf/unitempgen.cc:57-147): the generator afterwards, and the notifications. `dirty` is set wherever a notification
    is made. -/
def set (ord : List Tree → List Tree) (g : Gen) (key : Key) (value : Option Value) : Gen × List Delta :=
  let sk := stripSlash key
  match value with
  | none =>
    match g.root with
    | none => (g, [])
    | some root =>
      match removeLoop ord [] root (segments sk.2) with
      | none => (g, [])
      | some (t, d) => (⟨t, true⟩, d)
  | some v =>
    if sk.1 then (g, [])
    else
      let r := setLoop ord v [] g.root [] (segments sk.2)
      (⟨some r.1, g.dirty || !r.2.isEmpty⟩, r.2)

/-- The calls `set` makes to have its notifications delivered (uniconf/unitempgen.cc:61, 84-88, 93, 146). -/
def script (value : Option Value) (d : List Delta) : List (GenDelta.Op Delta) :=
  match value with
  | none => if d = [] then [.hold, .unhold] else [.hold, .hold] ++ d.map .delta ++ [.unhold, .unhold]
  | some _ => [.hold] ++ d.map .delta ++ [.unhold]

/-- `setv` (uniconf/unitempgen.cc:150-153, uniconf/uniconfgen.cc:93-98). -/
def setv (g : Gen) : List ((List Tree → List Tree) × Key × Option Value) → Gen × List Delta
  | [] => (g, [])
  | (ord, k, v) :: r =>
    let s := set ord g k v
    let q := setv s.1 r
    (q.1, s.2 ++ q.2)

/-- `haschildren` (uniconf/unitempgen.cc:156-164, uniconf/unihashtree.cc:114-117). -/
def haschildren (g : Gen) (key : Key) : Bool :=
  match g.root with
  | none => false
  | some root =>
    match find root key with
    | none => false
    | some t => !t.children.isEmpty

/-- `iterator` (uniconf/unitempgen.cc:167-182): the keys and values it lists, or NULL. -/
def iterator (g : Gen) (key : Key) : Option (List (Key × Value)) :=
  match g.root with
  | none => none
  | some root => (find root key).map fun t => t.children.map fun c => (c.key, c.value)

end Wv.TempGen
