import Verif.Spec.LogRcv
/- What a terminal shows of the bytes it is sent, as far as colours are concerned, and the colours of log messages. -/
namespace Spec.ColorLog
open Wv

/-- How a character looks: the background, the foreground (numbers of the terminal's colours), and whether it is bright. -/
structure Look where
  bg : Option Nat
  fg : Option Nat
  bright : Bool
  deriving DecidableEq

/-- How characters look if nothing has been said. -/
def normal : Look := ⟨none, none, false⟩

/-- One number of the sequence that sets colours. -/
def Look.apply (l : Look) (n : Nat) : Look :=
  if n = 0 then normal
  else if n = 1 then { l with bright := true }
  else if 30 ≤ n ∧ n ≤ 37 then { l with fg := some (n - 30) }
  else if 40 ≤ n ∧ n ≤ 47 then { l with bg := some (n - 40) }
  else l

/-- What the screen has been told to show, in order: a character, or that the rest of the line is to be cleared. -/
inductive Mark where
  | char (c : Byte) (l : Look)
  | clear (l : Look)
  deriving DecidableEq

/-- Where the terminal is: outside of sequences, after ESC, or in a sequence with these numbers. -/
inductive Mode where
  | ground
  | esc
  | seq (done : List Nat) (cur : Nat)
  deriving DecidableEq

structure Term where
  mode : Mode
  look : Look
  marks : List Mark
  deriving DecidableEq

def Term.new : Term := ⟨.ground, normal, []⟩

/-- One byte arrives. `ESC [ numbers m` sets colours, `ESC [ numbers K` clears the rest of the line; others do nothing. -/
def Term.byte (t : Term) (c : Byte) : Term :=
  match t.mode with
  | .ground => if c = 27 then { t with mode := .esc } else { t with marks := t.marks ++ [.char c t.look] }
  | .esc => if c = 91 then { t with mode := .seq [] 0 } else { t with mode := .ground }
  | .seq done cur =>
    if 48 ≤ c ∧ c ≤ 57 then { t with mode := .seq done (cur * 10 + (c.toNat - 48)) }
    else if c = 59 then { t with mode := .seq (done ++ [cur]) 0 }
    else if c = 109 then { t with mode := .ground, look := (done ++ [cur]).foldl Look.apply t.look }
    else if c = 75 then { t with mode := .ground, marks := t.marks ++ [.clear t.look] }
    else { t with mode := .ground }

/-- A terminal that has been sent these bytes. -/
def screen (b : List Byte) : Term := b.foldl Term.byte Term.new

/-- The characters on the screen. -/
def Mark.shown : Mark → Option (Byte × Look)
  | .char c l => some (c, l)
  | .clear _ => none

def chars (b : List Byte) : List (Byte × Look) := (screen b).marks.filterMap Mark.shown

/-- Nothing is left over: the next character looks as usual. -/
def Restored (b : List Byte) : Prop := (screen b).mode = .ground ∧ (screen b).look = normal

/-- Critical messages and errors are on red, warnings on yellow, others on black. The letters are bright white. -/
def look (lvl : Nat) : Look :=
  match lvl with
  | 0 => ⟨some 1, some 7, true⟩
  | 1 => ⟨some 1, some 7, true⟩
  | 2 => ⟨some 3, some 7, true⟩
  | _ => ⟨some 0, some 7, true⟩

/-- The terminals that are known to have colours. -/
def colourTerms : List (List Byte) :=
  [str ['l', 'i', 'n', 'u', 'x'], str ['a', 'n', 's', 'i'], str ['x', 't', 'e', 'r', 'm'], str ['r', 'x', 'v', 't']]

/-- What has been done since the last end of a line. -/
def lastLine (l : List Mark) : List Mark :=
  (l.reverse.takeWhile fun m => match m with | .char c _ => c != 10 | .clear _ => true).reverse

end Spec.ColorLog
