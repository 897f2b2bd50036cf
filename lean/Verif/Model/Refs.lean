import Verif.Model.Xplc
/-
Model of reference counting: IMPLEMENT_IOBJECT and WeakRef (include/xplc/utils.h), and xplc_ptr (include/xplc/ptr.h). One object and
its weak reference are modelled; counts are unbounded. That a weak reference can itself be weakly referenced is not modelled.
-/
namespace Wv.Refs
open Wv.Xplc (Obj Ledger)

/-- The object (`none` once it is destroyed; include/xplc/utils.h:86-106), whether its `weakref` is set, and the WeakRef (`none` before
    it is made and once it is destroyed): its count and whether its `object` is set (include/xplc/utils.h:158-175). -/
structure Mem where
  count : Option Nat
  hasWeak : Bool
  weak : Option (Nat × Bool)
deriving DecidableEq, Repr

/-- A new object (include/xplc/utils.h:98-99). -/
def Mem.new : Mem := ⟨some 1, false, none⟩

/-- `none` is a use of something that was destroyed. -/
abbrev Res (α : Type) := Option (α × Mem)

/-- `addRef` (include/xplc/utils.h:129-131). -/
def addRef (m : Mem) : Res Nat :=
  match m.count with
  | none => none
  | some n => some (n + 1, { m with count := some (n + 1) })

/-- `addRef` of the WeakRef. -/
def weakAddRef (m : Mem) : Res Unit :=
  match m.weak with
  | none => none
  | some (n, b) => some ((), { m with weak := some (n + 1, b) })

/-- `release` of the WeakRef; the count is at least 1. -/
def weakRelease (m : Mem) : Res Unit :=
  match m.weak with
  | none => none
  | some (n, b) => some ((), { m with weak := if n - 1 = 0 then none else some (n - 1, b) })

/-- `weakref->object = 0`. -/
def clearWeak (m : Mem) : Res Unit :=
  match m.weak with
  | none => none
  | some (n, _) => some ((), { m with weak := some (n, false) })

/-- `release` (include/xplc/utils.h:132-143). The destructor of the object is taken not to use it; see `inDestructor`. -/
def release (m : Mem) : Res Nat :=
  match m.count with
  | none => none
  | some n =>
    if n - 1 ≠ 0 then some (n - 1, { m with count := some (n - 1) })
    else if m.hasWeak then
      match weakRelease { m with count := some 1 } with
      | none => none
      | some (_, m1) =>
        match clearWeak m1 with
        | none => none
        | some (_, m2) => some (0, { m2 with count := none })
    else some (0, { m with count := none })

/-- `getWeakRef` (include/xplc/utils.h:147-152). -/
def getWeak (m : Mem) : Res Unit :=
  match m.count with
  | none => none
  | some _ => weakAddRef (if m.hasWeak then m else { m with hasWeak := true, weak := some (1, true) })

/-- `getObject` of the WeakRef (include/xplc/utils.h:163-168). -/
def weakGet (m : Mem) : Res Bool :=
  match m.weak with
  | none => none
  | some (_, true) =>
    match addRef m with
    | none => none
    | some (_, m1) => some (true, m1)
  | some (_, false) => some (false, m)

/-- `addRef` (true) and `release` (false) on an object while its destructor runs: its count is 1 to begin with
    (include/xplc/utils.h:135-136). `none` when the destructor is entered again. -/
def inDestructor : List Bool → Nat → Option Nat
  | [], n => some n
  | true :: r, n => inDestructor r (n + 1)
  | false :: r, n => if n - 1 ≠ 0 then inDestructor r (n - 1) else none

/-! ### xplc_ptr -/

/-- What the pointers point to, and the changes of the counts. -/
structure Ptrs where
  ptr : Nat → Option Obj
  ledger : Ledger

def Ptrs.put (s : Ptrs) (p : Nat) (o : Option Obj) : Ptrs := { s with ptr := fun r => if r = p then o else s.ptr r }

/-- `if(ptr) ptr->addRef()` and `if(ptr) ptr->release()`. -/
def Ptrs.add (s : Ptrs) (o : Option Obj) (i : Int) : Ptrs :=
  match o with
  | none => s
  | some o => { s with ledger := s.ledger ++ [(o, i)] }

/-- `xplc_ptr(T*)` (include/xplc/ptr.h:80-82). -/
def Ptrs.adopt (s : Ptrs) (p : Nat) (o : Option Obj) : Ptrs := s.put p o

/-- `xplc_ptr(const xplc_ptr<P>&)` for another type P (include/xplc/ptr.h:87-92). -/
def Ptrs.other (s : Ptrs) (p q : Nat) : Ptrs := (s.put p (s.ptr q)).add (s.ptr q) 1

/-- The constructor of a copy, for the same type: a template is never a copy constructor, so it is the implicit one that copies the
    pointer and no more. -/
def Ptrs.copy (s : Ptrs) (p q : Nat) : Ptrs := s.put p (s.ptr q)

/-- `operator=(T*)` (include/xplc/ptr.h:120-130). -/
def Ptrs.assign (s : Ptrs) (p : Nat) (o : Option Obj) : Ptrs := ((s.add o 1).add (s.ptr p) (-1)).put p o

/-- The destructor (include/xplc/ptr.h:93-96). -/
def Ptrs.drop (s : Ptrs) (p : Nat) : Ptrs := (s.add (s.ptr p) (-1)).put p none

end Wv.Refs
