/-
What certificates, revocation lists and answers about revocation are, and when they are to be trusted. Keys and names are numbers; that a signature was made with a key is a
fact about what was signed.
-/
namespace Spec.Cert

/-- A certificate. Dates are seconds; `none` is a date that cannot be read. `key` is its public key, `sig` the key with which it was signed. `usage`: what it may sign
    (certificates, revocation lists), if it says so. `ski` identifies its key, `aki` that of its issuer. -/
structure Cert where
  subject : Nat
  issuer : Nat
  serial : Int
  notBefore : Option Int
  notAfter : Option Int
  key : Option Nat
  sig : Option Nat
  ca : Bool
  usage : Option (Bool × Bool)
  ski : Option Nat
  aki : Option Nat
  deriving DecidableEq

/-- It was signed with the private key that belongs to the certificate of the authority. -/
def Signed (ca c : Cert) : Prop := ∃ k, ca.key = some k ∧ c.sig = some k

/-- It says that it was issued by this authority, which may do so. -/
def Issued (ca c : Cert) : Prop :=
  c.issuer = ca.subject ∧ (∀ a s, c.aki = some a → ca.ski = some s → a = s) ∧ ∀ u, ca.usage = some u → u.1 = true

/-- At this time it is valid. -/
def InTime (c : Cert) (now : Int) : Prop := ∃ a b, c.notBefore = some a ∧ c.notAfter = some b ∧ a ≤ now ∧ now < b

/-- It may sign certificates, or lists. -/
def SignsCerts (c : Cert) : Prop := c.ca = true ∧ ∃ u, c.usage = some u ∧ u.1 = true
def SignsLists (c : Cert) : Prop := c.ca = true ∧ ∃ u, c.usage = some u ∧ u.2 = true

/-- A revocation list: who issued it, the serial numbers, when the next is due, which of its extensions are critical, with which key it was signed since it was changed. -/
structure List' where
  issuer : Nat
  revoked : List Int
  next : Option Int
  critical : List Bool
  sig : Option Nat
  deriving DecidableEq

end Spec.Cert
