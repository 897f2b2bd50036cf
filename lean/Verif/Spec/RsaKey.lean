import Verif.Spec.Hex
/-!
RSA keys and their text, for C128. A key has public numbers and maybe private ones; the encryption library turns both into bytes and text and back.
-/
namespace Spec.RsaKey

abbrev Text := List UInt8

/-- What the library does: bytes (DER) and text (PEM) of the public numbers, and of both; reading them; testing that they fit. -/
structure Lib (P S : Type) where
  derPub : P → Text
  derPriv : P → S → Text
  readPub : Text → Option P
  readPriv : Text → Option (P × S)
  pemPub : P → Text
  pemPriv : P → S → Text
  readPemPub : Text → Option P
  readPemPriv : Text → Option (P × S)
  check : P → S → Bool

/-- The contract: what was written is read as it was. -/
structure Lib.Good {P S : Type} (L : Lib P S) : Prop where
  pub : ∀ p, L.derPub p ≠ [] ∧ L.readPub (L.derPub p) = some p
  priv : ∀ p s, L.derPriv p s ≠ [] ∧ L.readPriv (L.derPriv p s) = some (p, s)
  pemPub : ∀ p, L.readPemPub (L.pemPub p) = some p
  pemPriv : ∀ p s, L.readPemPriv (L.pemPriv p s) = some (p, s)

/-- A text is hexadecimal for some bytes: an even number of digits, of either case, with nothing but white space between them. -/
def HexFor (t bytes : Text) : Prop :=
  (∀ c ∈ t, Spec.Hex.isWs c = true ∨ (Spec.Hex.value? c).isSome = true) ∧ (Spec.Hex.leadingDigits t).length % 2 = 0 ∧ Spec.Hex.pairs (Spec.Hex.leadingDigits t) = bytes

/-- A library whose keys are single bytes. -/
def sample : Lib UInt8 UInt8 where
  derPub p := [1, p]
  derPriv p s := [2, p, s]
  readPub t := match t with | [1, p] => some p | _ => none
  readPriv t := match t with | [2, p, s] => some (p, s) | _ => none
  pemPub p := [3, p]
  pemPriv p s := [4, p, s]
  readPemPub t := match t with | [3, p] => some p | _ => none
  readPemPriv t := match t with | [4, p, s] => some (p, s) | _ => none
  check p s := p = s + 1

end Spec.RsaKey
