/- References to an object, independent of the model. -/
namespace Spec.Refs

/-- How many references and weak references the users of an object hold. -/
structure Held where
  strong : Nat
  weak : Nat

inductive Op where
  | addRef
  | release
  | getWeak
  | weakAddRef
  | weakRelease
  | weakGet

/-- Whoever calls holds what is called. -/
def allowed (h : Held) : Op → Prop
  | .addRef => 0 < h.strong
  | .release => 0 < h.strong
  | .getWeak => 0 < h.strong
  | .weakAddRef => 0 < h.weak
  | .weakRelease => 0 < h.weak
  | .weakGet => 0 < h.weak

def step (h : Held) : Op → Held
  | .addRef => { h with strong := h.strong + 1 }
  | .release => { h with strong := h.strong - 1 }
  | .getWeak => { h with weak := h.weak + 1 }
  | .weakAddRef => { h with weak := h.weak + 1 }
  | .weakRelease => { h with weak := h.weak - 1 }
  | .weakGet => if 0 < h.strong then { h with strong := h.strong + 1 } else h

/-- What the caller is told: the number of references, or whether there is an object. -/
inductive Answer where
  | count (n : Nat)
  | object (there : Bool)
  | nothing
deriving DecidableEq

def answer (h : Held) : Op → Answer
  | .addRef => .count (h.strong + 1)
  | .release => .count (h.strong - 1)
  | .weakGet => .object (decide (0 < h.strong))
  | _ => .nothing

def answers : Held → List Op → List Answer
  | _, [] => []
  | h, op :: ops => answer h op :: answers (step h op) ops

/-- Every call is allowed. -/
def Allowed : Held → List Op → Prop
  | _, [] => True
  | h, op :: ops => allowed h op ∧ Allowed (step h op) ops

/-- When the last reference goes, a weak one is still held, unless none was ever asked for. -/
def keeps (asked : Bool) (h : Held) : Op → Prop
  | .release => h.strong = 1 → asked = true → 0 < h.weak
  | _ => True

def askedAfter (asked : Bool) : Op → Bool
  | .getWeak => true
  | _ => asked

def Kept : Bool → Held → List Op → Prop
  | _, _, [] => True
  | asked, h, op :: ops => keeps asked h op ∧ Kept (askedAfter asked op) (step h op) ops

/-! ### Pointers that hold a reference -/

/-- `adopt`: made from a plain pointer, whose reference it takes over. `other`: made from a pointer of another type. `assign`: set to a
    plain pointer. `drop`: destroyed. -/
inductive PtrOp where
  | adopt (p : Nat) (o : Option Nat)
  | other (p q : Nat)
  | assign (p : Nat) (o : Option Nat)
  | drop (p : Nat)

/-- What each pointer points to. -/
def points (m : Nat → Option Nat) : PtrOp → Nat → Option Nat
  | .adopt p o, r => if r = p then o else m r
  | .other p q, r => if r = p then m q else m r
  | .assign p o, r => if r = p then o else m r
  | .drop p, r => if r = p then none else m r

/-- What is made is new. -/
def isNew (m : Nat → Option Nat) : PtrOp → Prop
  | .adopt p _ => m p = none
  | .other p _ => m p = none
  | _ => True

def New : (Nat → Option Nat) → List PtrOp → Prop
  | _, [] => True
  | m, op :: ops => isNew m op ∧ New (points m op) ops

/-- How often an object was handed to a pointer together with a reference. -/
def hands (o : Nat) : PtrOp → Bool
  | .adopt _ x => x == some o
  | _ => false

def handed (o : Nat) (ops : List PtrOp) : Nat := (ops.filter (hands o)).length

end Spec.Refs
