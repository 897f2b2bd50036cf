import Verif.Model.Basic
/-
What remembering errors means: an object remembers the first error it is told since it was last reset.
-/
namespace Spec.ErrorObj
open Wv

abbrev Text := List Byte

/-- An error: its number (-1 if it has only a text), and its own text if it has one. -/
structure Err where
  code : Int
  text : Option Text
  deriving DecidableEq

/-- The text of an error; `sys` gives those of numbers. -/
def Err.message (sys : Int → Text) (e : Err) : Text := e.text.getD (sys e.code)

/-- What can be done with objects, which have numbers: tell an error (number; text; both), tell the error of another object, assign another object, tell the
    error of another object with something in front, reset. -/
inductive Op where
  | set (k : Nat) (n : Int)
  | text (k : Nat) (s : Text)
  | both (k : Nat) (n : Int) (s : Text)
  | copy (k j : Nat)
  | assign (k j : Nat)
  | pre (k : Nat) (p : Text) (j : Nat)
  | reset (k : Nat)

/-- The errors of the objects, and how often each was told a first error. -/
structure Objs where
  err : Nat → Option Err
  news : Nat → Nat

def upd {α : Type} (f : Nat → α) (k : Nat) (a : α) : Nat → α := fun j => if j = k then a else f j

def tell (s : Objs) (k : Nat) (e : Err) : Objs :=
  match s.err k with
  | some _ => s
  | none => ⟨upd s.err k (some e), upd s.news k (s.news k + 1)⟩

def step (sys : Int → Text) (s : Objs) : Op → Objs
  | .set k n => if n = 0 then s else tell s k ⟨n, none⟩
  | .text k t => tell s k ⟨-1, some t⟩
  | .both k n t => if n = 0 then s else tell s k ⟨n, some t⟩
  | .copy k j =>
    match s.err j with
    | some e => tell s k e
    | none => s
  | .assign k j =>
    match s.err j with
    | some e => ⟨upd s.err k (some e), upd s.news k (s.news k + 1)⟩
    | none => { s with err := upd s.err k none }
  | .pre k p j =>
    match s.err j with
    | some e => tell s k ⟨e.code, some (p ++ str [':', ' '] ++ e.message sys)⟩
    | none => s
  | .reset k => { s with err := upd s.err k none }

def objs (sys : Int → Text) (l : List Op) : Objs := l.foldl (step sys) ⟨fun _ => none, fun _ => 0⟩

/-- What may be told: numbers are those of the system, and texts are not empty. -/
def Proper : Op → Prop
  | .set _ n => 0 ≤ n
  | .text _ t => t ≠ []
  | .both _ n t => n ≠ 0 ∧ t ≠ []
  | .assign k j => k ≠ j
  | _ => True

end Spec.ErrorObj
