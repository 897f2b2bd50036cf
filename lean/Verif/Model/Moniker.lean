import Verif.Model.Log
import Verif.Spec.Moniker
/-
Moniker registries (utils/wvmoniker.cc). `none` is a failed assertion or a pointer to a registry that is gone. Factories are numbers; what they do
when called (they could register monikers themselves) is not modelled. The table of registries is a function from interfaces.
-/
namespace Wv.Moniker
open Spec.Moniker (Text Obj Op)

/-- A `WvMonikerRegistry`: `refcount` and `list`. -/
structure Reg where
  refcount : Nat
  list : List (Text × Nat)
  deriving DecidableEq

/-- `regs`. -/
abbrev Regs := Nat → Option Reg

def none' : Regs := fun _ => none

def Regs.put (r : Regs) (iid : Nat) (x : Option Reg) : Regs := fun i => if i = iid then x else r i

/-- `add` (utils/wvmoniker.cc:57-67). -/
def add (l : List (Text × Nat)) (id : Text) (func : Nat) (override : Bool) : Option (List (Text × Nat)) :=
  if !override && l.any (fun x => x.1 == id) then none else some ((id, func) :: l)

/-- `del` (utils/wvmoniker.cc:70-83): the first that matches. -/
def del (l : List (Text × Nat)) (id : Text) : Option (List (Text × Nat)) :=
  if l.any (fun x => x.1 == id) then some (l.eraseP fun x => x.1 == id) else none

/-- `create` (utils/wvmoniker.cc:86-107): which factory is called, and with what. -/
def create (l : List (Text × Nat)) (s : Text) : Option (Nat × Text) :=
  let s := trimString s
  let name := s.takeWhile (· ≠ ch ':')
  let rest := (s.dropWhile (· ≠ ch ':')).drop 1
  (l.find? fun x => x.1 == name).map fun x => (x.2, rest)

/-- `find_reg` (utils/wvmoniker.cc:110-128). -/
def findReg (r : Regs) (iid : Nat) : Regs :=
  match r iid with
  | none => r.put iid (some ⟨2, []⟩)
  | some g => r.put iid (some ⟨g.refcount + 1, g.list⟩)

/-- `release` (utils/wvmoniker.cc:153-176). -/
def release (r : Regs) (iid : Nat) : Option Regs :=
  (r iid).bind fun g => if 1 < g.refcount - 1 then some (r.put iid (some ⟨g.refcount - 1, g.list⟩)) else some (r.put iid none)

/-- The constructor of a moniker (utils/wvmoniker.cc:179-187). -/
def make (r : Regs) (iid : Nat) (id : Text) (func : Nat) (override : Bool) : Option Regs :=
  let r := findReg r iid
  (r iid).bind fun g => (add g.list id func override).map fun l => r.put iid (some ⟨g.refcount, l⟩)

/-- The destructor of a moniker (utils/wvmoniker.cc:190-198). -/
def destroy (r : Regs) (iid : Nat) (id : Text) : Option Regs :=
  (r iid).bind fun g => (del g.list id).bind fun l => release (r.put iid (some ⟨g.refcount, l⟩)) iid

/-- `wvcreate` (utils/wvmoniker.cc:201-214) with a moniker that is not null: what is called, and the registries afterwards. -/
def wvcreate (r : Regs) (iid : Nat) (moniker : Text) : Option (Option (Nat × Text) × Regs) :=
  let r := findReg r iid
  (r iid).bind fun g => (release r iid).map fun r => (create g.list moniker, r)

/-- The registries, and the moniker objects of the program. -/
structure State where
  regs : Regs
  objs : List Obj

def new : State := ⟨none', []⟩

/-- Making or destroying an object. -/
def step (s : State) : Op → Option State
  | .make o override => (make s.regs o.iid o.id o.func override).map fun r => ⟨r, o :: s.objs⟩
  | .destroy i => (s.objs.find? fun o => o.obj = i).bind fun o => (destroy s.regs o.iid o.id).map fun r => ⟨r, s.objs.filter fun o => o.obj ≠ i⟩

def run (s : State) : List Op → Option State
  | [] => some s
  | op :: h => (step s op).bind fun s => run s h

end Wv.Moniker
