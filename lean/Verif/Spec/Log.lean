import Verif.Model.Basic
/- What a log holds: lines made out of pieces, and the last few lines of each kind. -/
namespace Spec.Log
open Wv

abbrev Text := List Byte

/-- A line: who wrote it, its level, its text. -/
structure Msg where
  src : Text
  lvl : Nat
  text : Text
  deriving DecidableEq

/-- Same source and level. -/
def same (src : Text) (lvl : Nat) (m : Msg) : Bool := m.src == src && m.lvl == lvl

/-- A hexadecimal digit. -/
def hexdig (n : Nat) : Byte := UInt8.ofNat (if n < 10 then 48 + n else 87 + n)

/-- How a character is shown: a tab as a space, other control characters as `[xx]`. -/
def shown (c : Byte) : Text :=
  if c = 9 then [32]
  else if c < 32 ∨ c = 127 then [91, hexdig (c.toNat / 16), hexdig (c.toNat % 16), 93]
  else [c]

/-- White space. -/
def space (c : Byte) : Prop := c = 32 ∨ (9 ≤ c ∧ c ≤ 13)

instance (c : Byte) : Decidable (space c) := by unfold space; exact inferInstance

/-- Without white space at either end. -/
def trim (t : Text) : Text := ((t.reverse.dropWhile fun c => decide (space c)).reverse).dropWhile fun c => decide (space c)

/-- Something that happens to the log: a piece of text arrives, or someone asks for the lines. -/
inductive Event where
  | log (src : Text) (lvl : Nat) (piece : Text)
  | ask

/-- Finished lines, whose turn it is, and the unfinished line if something of it has arrived. -/
structure Lines where
  done : List Msg
  who : Option (Text × Nat)
  part : Option Text

def start : Lines := ⟨[], none, none⟩

/-- The unfinished line is finished. -/
def cut (l : Lines) : Lines :=
  match l.who, l.part with
  | some (src, lvl), some t => ⟨l.done ++ [⟨src, lvl, trim t⟩], l.who, none⟩
  | _, _ => { l with part := none }

/-- A character arrives: ends of lines finish the line, others are added to it. -/
def char (l : Lines) (c : Byte) : Lines :=
  if c = 10 ∨ c = 13 then cut l else { l with part := some (l.part.getD [] ++ shown c) }

/-- Text above the level `limit` of its source is ignored. Another source or level finishes the line. -/
def event (limit : Text → Nat) (l : Lines) : Event → Lines
  | .ask => cut l
  | .log src lvl piece =>
    if limit src < lvl then l
    else piece.foldl char (if l.who = some (src, lvl) then l else { cut l with who := some (src, lvl) })

/-- The lines of a history, finished when asked for. -/
def lines (limit : Text → Nat) (h : List Event) : List Msg := (cut (h.foldl (event limit) start)).done

/-- Those lines that fewer than `n` lines of the same source and level follow. -/
def keep (n : Nat) : List Msg → List Msg
  | [] => []
  | m :: l => if (l.filter (same m.src m.lvl)).length < n then m :: keep n l else keep n l

end Spec.Log
