import Verif.Model.Hash
import Verif.Lemmas.Basic
/- C47: hash of strings. -/
namespace Props
open Wv

/-- Strings equal up to the case of letters. -/
def SameNoCase (a b : List Byte) : Prop := a.map tolower = b.map tolower

/-- C47: strings that differ only in letter case have the same hash. -/
theorem C47_hash_ignores_case (a b : List Byte) (h : SameNoCase a b) : wvHash (some a) = wvHash (some b) := by
  have hb : ∀ c d : Byte, tolower c = tolower d → c &&& 0x1F = d &&& 0x1F := by
    have h1 : ∀ c : Byte, tolower c &&& 0x1F = c &&& 0x1F := by
      apply forall_byte; decide +kernel
    intro c d h
    rw [← h1 c, ← h1 d, h]
  suffices hs : ∀ (a b : List Byte), SameNoCase a b → ∀ h, wvHashFrom h a = wvHashFrom h b from hs a b h 0
  intro a
  induction a with
  | nil =>
    intro b h
    cases b with
    | nil => intro _; rfl
    | cons => simp [SameNoCase] at h
  | cons c a ih =>
    intro b h hv
    cases b with
    | nil => simp [SameNoCase] at h
    | cons d b =>
      simp only [SameNoCase, List.map_cons, List.cons.injEq] at h
      rw [wvHashFrom, wvHashFrom, hb c d h.1]
      exact ih b h.2 _

example : SameNoCase (str ['I', '\'', 'm', ' ', 'A']) (str ['i', '\'', 'M', ' ', 'a']) := by unfold SameNoCase; decide
/-- The hash is not constant. -/
example : wvHash (some (str ['a', 'b'])) ≠ wvHash (some (str ['b', 'a'])) := by decide

/-- C47: a null string and an empty string hash to 0, and only the five low bits of each character count. -/
theorem C47_hash_empty : wvHash none = 0 ∧ wvHash (some []) = 0 := ⟨rfl, rfl⟩

end Props
