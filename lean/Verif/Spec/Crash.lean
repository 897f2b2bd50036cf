/- What a program leaves behind for the case that it crashes, independent of the model. -/
namespace Spec.Crash

abbrev Text := List UInt8

/-- The last bytes, at most `n`. -/
def lastBytes (n : Nat) (t : Text) : Text := t.drop (t.length - n)

/-- Putting a text into a log that keeps `n` bytes, and taking some of it out. -/
inductive Op where
  | put (t : Text)
  | get

/-- A history with the answers of `get`, for a log that has `q`: it gives parts of what it has from the front, as long as it has something. -/
inductive Allowed (n : Nat) : Text → List (Op × Option Text) → Prop
  | nil (q) : Allowed n q []
  | put (q t l) : Allowed n (lastBytes n (q ++ t)) l → Allowed n q ((.put t, none) :: l)
  | empty (l) : Allowed n [] l → Allowed n [] ((.get, none) :: l)
  | some (t q l) : t ≠ [] → Allowed n q l → Allowed n (t ++ q) ((.get, Option.some t) :: l)

/-- A number in decimal. -/
def decimal (i : Int) : Text :=
  (if i < 0 then [45] else []) ++ (Nat.toDigits 10 i.natAbs).map fun c => UInt8.ofNat c.toNat

/-- The value of a hexadecimal digit, and of digits after a number. -/
def hexDigit (c : UInt8) : Option Nat :=
  if 48 ≤ c ∧ c ≤ 57 then some (c.toNat - 48) else if 65 ≤ c ∧ c ≤ 70 then some (c.toNat - 55) else none

def hexFrom (acc : Nat) : Text → Option Nat
  | [] => some acc
  | c :: r => (hexDigit c).bind fun d => hexFrom (acc * 16 + d) r

def hexValue (t : Text) : Option Nat := hexFrom 0 t

/-- Wills: the objects that are there, each inside of the one before, with what it wants to be said. -/
inductive WOp where
  | make (will : Option Text)
  | rewrite (will : Option Text)
  | destroy

/-- The wills of the objects, the innermost first; `rewrite` and `destroy` are of the innermost. -/
def wstep (l : List (Option Text)) : WOp → Option (List (Option Text))
  | .make w => some (w :: l)
  | .rewrite w => match l with | [] => none | _ :: r => some (w :: r)
  | .destroy => match l with | [] => none | _ :: r => some r

def wafter (l : List (Option Text)) : List WOp → Option (List (Option Text))
  | [] => some l
  | o :: r => (wstep l o).bind fun l => wafter l r

/-- What is said: the will of the innermost object, as far as there is room. -/
def said (first : Option Text) (l : List (Option Text)) : Text := ((l.headD first).getD []).take 2047

end Spec.Crash
