import Verif.Model.Basic
/-!
Agreeing on a secret by exchanging public values (Diffie and Hellman), for C127.
-/
namespace Spec.KeyAgree
open Wv

/-- The number written by some bytes, the most significant first. -/
def value : List Byte → Nat
  | [] => 0
  | b :: l => b.toNat * 256 ^ l.length + value l

/-- The bytes write the number, with no superfluous zeros in front. -/
def Writes (l : List Byte) (n : Nat) : Prop := value l = n ∧ l.head? ≠ some 0

/-- What the side with the private number `x` makes public. -/
def public_ (p g x : Nat) : Nat := g ^ x % p

/-- What the sides with the private numbers `x` and `y` share. -/
def shared (p g x y : Nat) : Nat := g ^ (x * y) % p

/-- The public values that an answer is made for: not those that everyone knows the answer to. -/
def Proper (p v : Nat) : Prop := 1 < v ∧ v + 1 < p

end Spec.KeyAgree
