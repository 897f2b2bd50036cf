import Verif.Model.Basic
/-!
What the words of a line are, for C114.
-/
namespace Spec.Tokens
open Wv

abbrev Text := List Byte

/-- Space, tab, carriage return and newline separate words. -/
def blank (b : Byte) : Prop := b = ch ' ' ∨ b = ch '\t' ∨ b = ch '\r' ∨ b = ch '\n'

def Gap (t : Text) : Prop := ∀ b ∈ t, blank b

def Word (t : Text) : Prop := t ≠ [] ∧ ∀ b ∈ t, ¬ blank b

/-- The words of a text: after a gap comes a word, then the end or a gap. -/
inductive Words : Text → List Text → Prop where
  | none (g : Text) : Gap g → Words g []
  | last (g w : Text) : Gap g → Word w → Words (g ++ w) [w]
  | more (g w : Text) (b : Byte) (rest : Text) (ws : List Text) : Gap g → Word w → blank b → Words (b :: rest) ws → Words (g ++ w ++ b :: rest) (w :: ws)

/-- What a state machine is to get for some lines: for each that has words, the first, and a text with the others. -/
inductive Calls : List Text → List (Text × Text) → Prop where
  | nil : Calls [] []
  | skip (line : Text) (lines : List Text) (cs : List (Text × Text)) : Words line [] → Calls lines cs → Calls (line :: lines) cs
  | call (line : Text) (lines : List Text) (cs : List (Text × Text)) (w : Text) (ws : List Text) (rest : Text) :
    Words line (w :: ws) → Words rest ws → Calls lines cs → Calls (line :: lines) ((w, rest) :: cs)

/-- `r` is `t` without the white space at both ends. -/
def Trim (t r : Text) : Prop :=
  (∃ a b, t = a ++ r ++ b ∧ (∀ x ∈ a, isspace x = true) ∧ ∀ x ∈ b, isspace x = true) ∧
  (∀ x xs, r = x :: xs → isspace x = false) ∧ (∀ x xs, r = xs ++ [x] → isspace x = false)

/-- A C string has no NUL inside. -/
def CString (t : Text) : Prop := ∀ b ∈ t, b ≠ 0

end Spec.Tokens
