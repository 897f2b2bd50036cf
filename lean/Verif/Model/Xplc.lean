import Verif.Model.Basic
/-
Model of the component registry: ServiceManager (xplc/servmgr.cc), StaticServiceHandler (xplc/statichandler.cc), CategoryManager
and its iterators (xplc/catmgr.cc, xplc/category.cc, xplc/catiter.cc), MonikerService (xplc/monikers.cc) and NewMoniker
(xplc/new.cc). Objects and handlers are known by a number, as are UUIDs; references are kept as a ledger of `addRef` (+1) and
`release` (-1). Loading modules (xplc/moduleloader.cc, xplc/modulemgr.cc, xplc/loader.cc) and the setup in XPLC_getServiceManager are
not modelled.
-/
namespace Wv.Xplc

abbrev Uuid := Nat
abbrev Obj := Nat

/-- The changes of reference counts, in order. -/
abbrev Ledger := List (Obj × Int)

/-! ### ServiceManager -/

/-- HandlerNode (xplc/handlernode.h:27-43). -/
structure Node where
  handler : Obj
  intercept : Bool
deriving DecidableEq, Repr

/-- Where addHandler puts a node: `ptr` moves behind every node that intercepts (xplc/servmgr.cc:133-150). -/
def putIn (n : Node) : List Node → List Node
  | [] => [n]
  | x :: r => if (x :: r).any (·.intercept) then x :: putIn n r else n :: x :: r

/-- `addHandler` (xplc/servmgr.cc:128-151). The new node takes a reference. -/
def addHandler (l : List Node) (h : Obj) : List Node × Ledger :=
  if l.any (·.handler == h) then (l, []) else (putIn ⟨h, false⟩ l, [(h, 1)])

/-- `addFirstHandler` (xplc/servmgr.cc:154-173). -/
def addFirst (l : List Node) (h : Obj) : List Node × Ledger :=
  if l.any (·.handler == h) then (l, []) else (⟨h, true⟩ :: l, [(h, 1)])

/-- `addLastHandler` (xplc/servmgr.cc:175-197). -/
def addLast (l : List Node) (h : Obj) : List Node × Ledger :=
  if l.any (·.handler == h) then (l, []) else (l ++ [⟨h, false⟩], [(h, 1)])

/-- `removeHandler` (xplc/servmgr.cc:199-215). Deleting the node gives the reference back. -/
def remove (h : Obj) : List Node → List Node × Ledger
  | [] => ([], [])
  | x :: r => if x.handler == h then (r, [(h, -1)]) else (x :: (remove h r).1, (remove h r).2)

/-- `getObject` (xplc/servmgr.cc:217-236); `ask h u` is what the handler `h` gives for `u`. -/
def getObject (ask : Obj → Uuid → Option Obj) (u : Uuid) : List Node → Option Obj
  | [] => none
  | x :: r =>
    match ask x.handler u with
    | some o => some o
    | none => getObject ask u r

/-! ### StaticServiceHandler -/

/-- `getObject` (xplc/statichandler.cc:49-67). The caller gets a reference. -/
def staticGet (u : Uuid) : List (Uuid × Obj) → Option Obj × Ledger
  | [] => (none, [])
  | (v, o) :: r => if v == u then (some o, [(o, 1)]) else staticGet u r

/-- `addObject` (xplc/statichandler.cc:69-94). -/
def staticAdd (l : List (Uuid × Obj)) (u : Uuid) (o : Option Obj) : List (Uuid × Obj) × Ledger :=
  match o with
  | none => (l, [])
  | some o => if l.any (·.1 == u) then (l, []) else ((u, o) :: l, [(o, 1)])

/-- `removeObject` (xplc/statichandler.cc:96-113). -/
def staticRemove (u : Uuid) : List (Uuid × Obj) → List (Uuid × Obj) × Ledger
  | [] => ([], [])
  | (v, o) :: r => if v == u then (r, [(o, -1)]) else ((v, o) :: (staticRemove u r).1, (staticRemove u r).2)

/-! ### CategoryManager -/

/-- A component of a category, with its string (xplc/categorynode.h:28-46). -/
abbrev Entry := Uuid × Option (List Byte)

/-- CategoryNode (xplc/categorynode.h:48-66). -/
structure Cat where
  category : Uuid
  entries : List Entry
deriving DecidableEq, Repr

/-- The second half of registerComponent (xplc/catmgr.cc:61-69). -/
def addEntry (comp : Uuid) (s : Option (List Byte)) (l : List Entry) : List Entry :=
  if l.any (·.1 == comp) then l else (comp, s) :: l

/-- `registerComponent` (xplc/catmgr.cc:43-70): the first node of the category is changed; if there is none, one is made at the
    front. -/
def registerIn (cat comp : Uuid) (s : Option (List Byte)) : List Cat → Option (List Cat)
  | [] => none
  | c :: r =>
    if c.category == cat then some ({ c with entries := addEntry comp s c.entries } :: r)
    else (registerIn cat comp s r).map (c :: ·)

def register (cats : List Cat) (cat comp : Uuid) (s : Option (List Byte)) : List Cat :=
  (registerIn cat comp s cats).getD (⟨cat, addEntry comp s []⟩ :: cats)

/-- `getCategory` (xplc/catmgr.cc:72-82): the entries that the category holds on to. -/
def getCategory (cat : Uuid) : List Cat → List Entry
  | [] => []
  | c :: r => if c.category == cat then c.entries else getCategory cat r

/-- An iterator is what is left (xplc/catiter.cc:30-62): `getUuid` (0 is the null UUID) and `getString`, `next`, `done`. -/
def iterUuid : List Entry → Uuid
  | [] => 0
  | e :: _ => e.1

def iterString : List Entry → Option (List Byte)
  | [] => none
  | e :: _ => e.2

def iterNext : List Entry → List Entry
  | [] => []
  | _ :: r => r

def iterDone (l : List Entry) : Bool := l == []

/-- `for(; !i->done(); i->next())`, at most `fuel` times. -/
def iterAll : Nat → List Entry → List Entry
  | 0, _ => []
  | n + 1, i => if iterDone i then [] else (iterUuid i, iterString i) :: iterAll n (iterNext i)

/-! ### MonikerService and NewMoniker -/

/-- `registerObject` (xplc/monikers.cc:94-121). -/
def registerName (l : List (List Byte × Uuid)) (name : List Byte) (u : Uuid) : List (List Byte × Uuid) :=
  if l.any (·.1 == name) then l else (name, u) :: l

/-- What an object can do that matters here: the interfaces IMoniker and IFactory. -/
inductive Kind where
  | plain
  | factory (product : Option Obj)
  | service
  | new
  | moniker (f : List Byte → Option Obj)

/-- The other objects: what the service manager has, what they are; the service manager itself, and the UUID of the moniker
    service. -/
structure World where
  get : Uuid → Option Obj
  kind : Obj → Kind
  mgr : Obj
  monikers : Uuid

/-- A reference given to the caller. -/
def given : Option Obj → Ledger
  | none => []
  | some o => [(o, 1)]

/-- `mutate<IMoniker>` (include/xplc/utils.h:186-199): what is left, and the references. -/
def asMoniker (W : World) : Option Obj → Option Obj × Ledger
  | none => (none, [])
  | some o =>
    match W.kind o with
    | .plain => (none, [(o, -1)])
    | .factory _ => (none, [(o, -1)])
    | _ => (some o, [(o, 1), (o, -1)])

/-- `mutate<IFactory>`. -/
def asFactory (W : World) : Option Obj → Option (Obj × Option Obj) × Ledger
  | none => (none, [])
  | some o =>
    match W.kind o with
    | .factory p => (some (o, p), [(o, 1), (o, -1)])
    | _ => (none, [(o, -1)])

/-- What is before the first colon, and what is after it (xplc/monikers.cc:56-63). -/
def colon : List Byte → List Byte × Option (List Byte)
  | [] => ([], none)
  | c :: r => if c == ch ':' then ([], some r) else (c :: (colon r).1, (colon r).2)

def lookup (name : List Byte) : List (List Byte × Uuid) → Option Uuid
  | [] => none
  | (n, u) :: r => if name == n then some u else lookup name r

/-- `monikers->resolve(aName)` (xplc/new.cc:48), where `inner` is what the moniker service makes of the name. -/
def viaMonikers (W : World) (s : Obj) (name : List Byte) (inner : Option Obj × Ledger) : Option Obj × Ledger :=
  match W.kind s with
  | .service => inner
  | .moniker f => (f name, given (f name))
  | _ => (none, [])

/-- `resolve` of the moniker service (xplc/monikers.cc:50-92) and of the moniker "new" (xplc/new.cc:36-61). `fuel` is more than the
    number of colons. If the object under the UUID of the moniker service is itself a moniker "new", the program would never return;
    here nothing is found. -/
def resolve (W : World) (names : List (List Byte × Uuid)) : Nat → List Byte → Option Obj × Ledger
  | 0, _ => (none, [])
  | fuel + 1, aName =>
    let c := colon aName
    match lookup c.1 names with
    | none => (none, [])
    | some u =>
      let obj := W.get u
      let l0 : Ledger := [(W.mgr, 1)] ++ given obj ++ [(W.mgr, -1)]
      match c.2 with
      | none => (obj, l0)
      | some rest =>
        let m := asMoniker W obj
        match m.1 with
        | none => (none, l0 ++ m.2)
        | some o =>
          let r : Option Obj × Ledger := match W.kind o with
            | .service => resolve W names fuel rest
            | .moniker f => (f rest, given (f rest))
            | .new =>
              let ms := W.get W.monikers
              let m2 := asMoniker W ms
              let l1 : Ledger := [(W.mgr, 1)] ++ given ms ++ m2.2
              match m2.1 with
              | none => (none, l1 ++ [(W.mgr, -1)])
              | some s =>
                let x := viaMonikers W s rest (resolve W names fuel rest)
                let fa := asFactory W x.1
                match fa.1 with
                | none => (none, l1 ++ x.2 ++ fa.2 ++ [(s, -1), (W.mgr, -1)])
                | some (fo, p) => (p, l1 ++ x.2 ++ fa.2 ++ given p ++ [(fo, -1), (s, -1), (W.mgr, -1)])
            | _ => (none, [])
          (r.1, l0 ++ m.2 ++ r.2 ++ [(o, -1)])

end Wv.Xplc
