import Verif.Spec.ErrorObj
/-!
Regular expressions, for C126. The library decides what matches; this is what a user expects of captures.
-/
namespace Spec.Regex
open Wv

abbrev Text := List Byte

/-- Where a part of an expression matched: from, to (after the last character). -/
abbrev Extent := Nat × Nat

/-- The part of a text. -/
def part (t : Text) (e : Extent) : Text := (t.take e.2).drop e.1

/-- The library: compiling with flags gives an expression or an error; matching a compiled expression gives, for each number of a part (0 is the whole), where it
    matched, if it took part. -/
structure Lib (R : Type) where
  comp : Text → Nat → Except Nat R
  exec : R → Text → Nat → Option (Nat → Option Extent)
  nosub : Nat → Bool
  message : Nat → Text

/-- What the library promises: matches are inside the text, the whole match always has a place, errors are not 0 and have a description. -/
structure Lib.Ok {R : Type} (L : Lib R) : Prop where
  inside : ∀ r t f m, L.exec r t f = some m → ∀ i e, m i = some e → e.1 ≤ e.2 ∧ e.2 ≤ t.length
  whole : ∀ r t f m, L.exec r t f = some m → (m 0).isSome
  codes : ∀ t f e, L.comp t f = .error e → e ≠ 0
  text : ∀ e, L.message e ≠ []

end Spec.Regex
