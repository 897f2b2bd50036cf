import Verif.Model.Watch
/-!
`UniWatch` (uniconf/uniwatch.cc, include/uniwatch.h), over the watches of the root (Model/Watch). Callbacks are known by numbers, so that both
constructors are one; the cookie is the address of the object. The copy constructor and the assignment are the compiler's; they copy the
members. All handles are of one root.
-/
namespace Wv.WatchObj
open Wv

/-- `cfg`, `cb`, `recurse` (include/uniwatch.h:19-21), and the address. -/
structure Obj where
  addr : Nat
  cfg : Key
  cb : Nat
  recurse : Bool

/-- The root's watches and the objects. -/
structure St where
  tree : Watch.Tree
  objs : List Obj

def new : St := ⟨Watch.new, []⟩

abbrev Ord := List Watch.Tree → List Watch.Tree

/-- `UniWatch::UniWatch` (uniconf/uniwatch.cc:12-26). -/
def make (ord : Ord) (s : St) (addr : Nat) (cfg : Key) (cb : Nat) (recurse : Bool) : St :=
  ⟨Watch.add ord s.tree addr cfg cb recurse, ⟨addr, cfg, cb, recurse⟩ :: s.objs⟩

/-- `UniWatch::~UniWatch` (uniconf/uniwatch.cc:29-32). -/
def destroy (ord : Ord) (s : St) (addr : Nat) : St :=
  match s.objs.find? (fun o => o.addr == addr) with
  | none => s
  | some o => ⟨Watch.del ord s.tree o.addr o.cfg o.recurse, s.objs.filter fun o => o.addr != addr⟩

/-- The copy constructor. -/
def copy (s : St) (src addr : Nat) : St :=
  match s.objs.find? (fun o => o.addr == src) with
  | none => s
  | some o => ⟨s.tree, { o with addr := addr } :: s.objs⟩

/-- The assignment. -/
def assign (s : St) (dst src : Nat) : St :=
  match s.objs.find? (fun o => o.addr == src) with
  | none => s
  | some o => ⟨s.tree, s.objs.map fun x => if x.addr == dst then { o with addr := dst } else x⟩

end Wv.WatchObj
