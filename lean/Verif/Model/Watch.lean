import Verif.Model.MountGen
/-
Model of the watches of UniConfRoot (uniconf/uniconfroot.cc, include/uniconfroot.h): add_callback, del_callback and what is called when
the generator notifies a change. Callbacks are known by numbers and what is called is returned as a list, in order; callbacks that
add or remove watches themselves are not modelled. Children of a node are a list in the order in which the hash table iterates over
them, as in Model/TempGen: `ord` is an arbitrary permutation, a different one in each call.
-/
namespace Wv.Watch

/-- UniWatchInfo (include/uniconfroot.h:20-41). -/
structure Info where
  cookie : Nat
  recurse : Bool
  callback : Nat
  deriving DecidableEq

/-- UniWatchInfoTree (include/uniconfroot.h:49-61). -/
inductive Tree
  | node (key : Key) (watches : List Info) (children : List Tree)

namespace Tree
def key : Tree → Key | node k _ _ => k
def watches : Tree → List Info | node _ w _ => w
def children : Tree → List Tree | node _ _ c => c
end Tree

/-- The container's lookup by key. -/
def lookup (c : List Tree) (k : Key) : Option Tree := c.find? fun t => Key.eq k t.key

/-- `_findchild` (uniconf/unihashtree.cc:105-111). -/
def findchild (t : Tree) (k : Key) : Option Tree := if Key.isempty k then some t else lookup t.children k

/-- Put a node in the place of the one with the same key. -/
def replace (c : List Tree) (k : Key) (t : Tree) : List Tree :=
  match c with
  | [] => []
  | x :: c => if Key.eq k x.key then t :: c else x :: replace c k t

/-- `watchroot(NULL)` (uniconf/uniconfroot.cc:14). -/
def new : Tree := .node [] [] []

/-- The loop of `add_callback` (uniconf/uniconfroot.cc:90-100). -/
def addLoop (ord : List Tree → List Tree) (w : Info) : Tree → List Key → Tree
  | t, [] => .node t.key (t.watches ++ [w]) t.children
  | t, k :: ks =>
    if Key.isempty k then addLoop ord w t ks
    else
      match lookup t.children k with
      | some c => .node t.key t.watches (replace t.children k (addLoop ord w c ks))
      | none => .node t.key t.watches (ord (t.children ++ [addLoop ord w (.node k [] []) ks]))

/-- `add_callback` (uniconf/uniconfroot.cc:85-101). -/
def add (ord : List Tree → List Tree) (root : Tree) (cookie : Nat) (key : Key) (callback : Nat) (recurse : Bool) : Tree :=
  addLoop ord ⟨cookie, recurse, callback⟩ root (TempGen.segments key)

/-- `isessential` (include/uniconfroot.h:59-60). -/
def isessential (t : Tree) : Bool := !t.children.isEmpty || !t.watches.isEmpty

/-- `find`, the loop that unlinks the watch, and `prune` (uniconf/uniconfroot.cc:104-123, 169-177): from a node on; `none` if the
    node looked for is not there. A node below is deleted if it is not essential afterwards. If one is not deleted, those above it
    have a child, so that it is right to look at each of them. -/
def delLoop (ord : List Tree → List Tree) (cookie : Nat) (recurse : Bool) : Tree → List Key → Option Tree
  | t, [] => some (.node t.key (t.watches.eraseP fun w => w.cookie == cookie && w.recurse == recurse) t.children)
  | t, k :: ks =>
    if Key.isempty k then delLoop ord cookie recurse t ks
    else
      match lookup t.children k with
      | none => none
      | some c =>
        match delLoop ord cookie recurse c ks with
        | none => none
        | some c' =>
          if isessential c' then some (.node t.key t.watches (replace t.children k c'))
          else some (.node t.key t.watches (ord (t.children.eraseP fun x => Key.eq k x.key)))

/-- `del_callback` (uniconf/uniconfroot.cc:104-123). -/
def del (ord : List Tree → List Tree) (root : Tree) (cookie : Nat) (key : Key) (recurse : Bool) : Tree :=
  (delLoop ord cookie recurse root (TempGen.segments key)).getD root

/-- A call of a callback: the watch, and the two keys it is given: that of the UniConf object, and the one relative to it. -/
structure Call where
  watch : Info
  base : Key
  rel : Key
  deriving DecidableEq

/-- `check` (uniconf/uniconfroot.cc:140-151). -/
def check (t : Tree) (key : Key) (segleft : Nat) : List Call :=
  (t.watches.filter fun w => !(!w.recurse && decide (segleft > 0))).map fun w => ⟨w, Key.removelast key segleft, Key.last key segleft⟩

mutual
/-- What `deletioncheck` calls (uniconf/uniconfroot.cc:154-166) for one child. -/
def deletionOne (key : Key) : Tree → List Call
  | .node k w c =>
    let subkey := Key.join key k
    check (.node k w c) subkey 0 ++ deletionAll subkey c
/-- `deletioncheck` of a node with these children. -/
def deletionAll (key : Key) : List Tree → List Call
  | [] => []
  | t :: r => deletionOne key t ++ deletionAll key r
end

/-- The loop of `gen_callback` (uniconf/uniconfroot.cc:190-197): what is called, and the node reached. -/
def walk (key : Key) : Tree → List Key → List Call × Option Tree
  | t, [] => ([], some t)
  | t, k :: ks =>
    match findchild t k with
    | none => ([], none)
    | some c =>
      let r := walk key c ks
      (check c key ks.length ++ r.1, r.2)

/-- `gen_callback` (uniconf/uniconfroot.cc:180-205). -/
def genCallback (root : Tree) (key : Key) (value : Option TempGen.Value) : List Call :=
  let r := walk key root (TempGen.segments key)
  check root key (TempGen.segments key).length ++ r.1 ++
    match r.2 with
    | none => []
    | some t => if value.isNone then deletionAll key t.children else []

mutual
/-- `watchout` (uniconf/uniconfroot.cc:42-65) for one child. -/
def watchoutOne : Tree → Bool
  | .node _ w c => watchout c || !w.isEmpty
/-- `watchout` of a node with these children. The destructor asserts that it is false for the root (uniconf/uniconfroot.cc:79). -/
def watchout : List Tree → Bool
  | [] => false
  | t :: r => watchoutOne t || watchout r
end

end Wv.Watch
