import Verif.Spec.Aliaser
/-
Model of WvIPAliaser: linuxstreams/wvipaliaser.cc. Of the kernel there are the interfaces lo:wv0 … lo:wv255: a slot has an address if it is up and its
address is not 0.0.0.0. They are changed by setting an address and `up(true)`, and by `up(false)`, if the process may do that; nobody else changes them.
`islocal` is modelled as the answer whether it finds an interface whose name has no colon; it is that of the last `start_edit`.
-/
namespace Wv.Aliaser
open Spec.Aliaser (Addr Op upd)

/-- WvIPAliaser::Alias (include/wvipaliaser.h:22-29). `id` is the pointer; `index` -1 is `none`. -/
structure Alias where
  id : Nat
  ip : Addr
  index : Option Nat
  links : Int
  deriving DecidableEq

/-- `all_aliases`, the lists of the objects, the kernel. -/
structure St where
  all : List Alias
  loc : Nat → List Nat
  real : Nat → Addr → Bool
  next : Nat
  slots : Nat → Option Addr
  perm : Bool

def new (slots : Nat → Option Addr) (perm : Bool) : St := ⟨[], fun _ => [], fun _ _ => false, 0, slots, perm⟩

/-- The loop of the constructor of an alias (linuxstreams/wvipaliaser.cc:26-49), from `index` on: the slot it stops at. -/
def slotFor (slots : Nat → Option Addr) (ip : Addr) (index : Nat) : Nat → Option Nat
  | 0 => none
  | n + 1 =>
    match slots index with
    | none => some index
    | some a => if a = ip then some index else slotFor slots ip (index + 1) n

/-- The constructor of an alias (linuxstreams/wvipaliaser.cc:20-53): the slot it has, and what the slots are then. -/
def take (slots : Nat → Option Addr) (perm : Bool) (ip : Addr) : Option Nat × (Nat → Option Addr) :=
  match slotFor slots ip 0 256 with
  | none => (none, slots)
  | some i =>
    match slots i with
    | some _ => (some i, slots)
    | none => if perm then (some i, upd slots i (some ip)) else (none, slots)

/-- `~Alias` (linuxstreams/wvipaliaser.cc:56-64). -/
def release (slots : Nat → Option Addr) (perm : Bool) (a : Alias) : Nat → Option Addr :=
  match a.index with
  | none => slots
  | some i => if perm then upd slots i none else slots

/-- An alias gets one link less, or more. `none`: the pointer is not in the list, which is undefined behaviour (or an assertion fails). -/
def link (all : List Alias) (id : Nat) (d : Int) : Option (List Alias) :=
  if all.any (fun a => a.id = id) then some (all.map fun a => if a.id = id then { a with links := a.links + d } else a) else none

/-- `start_edit` (linuxstreams/wvipaliaser.cc:86-106). -/
def startEdit (s : St) (k : Nat) (real : Addr → Bool) : Option St :=
  ((s.loc k).foldlM (fun all id => link all id (-1)) s.all).map fun all => { s with all := all, loc := upd s.loc k [], real := upd s.real k real }

/-- `ipsearch` (linuxstreams/wvipaliaser.cc:109-121) in the list of an object, whose items are pointers; `none`: a pointer is not valid. -/
def has (all : List Alias) (ip : Addr) : List Nat → Option Bool
  | [] => some false
  | id :: l =>
    match all.find? fun a => a.id = id with
    | none => none
    | some a => if a.ip = ip then some true else has all ip l

/-- `add` (linuxstreams/wvipaliaser.cc:124-157). -/
def add (s : St) (k : Nat) (ip : Addr) : Option (St × Bool) :=
  if ip = 0 then some (s, false)
  else
    match has s.all ip (s.loc k) with
    | none => none
    | some true => some (s, false)
    | some false =>
      if s.real k ip then some (s, false)
      else
        match s.all.find? fun a => a.ip = ip with
        | some a => (link s.all a.id 1).map fun all => ({ s with all := all, loc := upd s.loc k (s.loc k ++ [a.id]) }, false)
        | none =>
          let t := take s.slots s.perm ip
          some ({ s with all := s.all ++ [⟨s.next, ip, t.1, 1⟩], loc := upd s.loc k (s.loc k ++ [s.next]), next := s.next + 1, slots := t.2 }, true)

/-- `done_edit` (linuxstreams/wvipaliaser.cc:160-177). -/
def doneEdit (s : St) : St × Bool :=
  ({ s with all := s.all.filter fun a => a.links ≠ 0,
            slots := (s.all.filter fun a => a.links = 0).foldl (fun slots a => release slots s.perm a) s.slots },
   s.all.any fun a => a.links = 0)

/-- One call; the destructor is `start_edit` and `done_edit` (linuxstreams/wvipaliaser.cc:78-83). -/
def step (s : St) : Op → Option (St × Bool)
  | .start k real => (startEdit s k real).map fun s => (s, false)
  | .add k ip => add s k ip
  | .done _ => some (doneEdit s)
  | .destroy k real => (startEdit s k real).map doneEdit

def run (s : St) : List Op → Option St
  | [] => some s
  | o :: l => (step s o).bind fun r => run r.1 l

end Wv.Aliaser
