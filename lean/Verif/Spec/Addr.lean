import Verif.Model.Basic
/- Internet addresses and networks, as in RFC 791 and RFC 950. -/
namespace Spec.Addr
open Wv

/-- An address is four bytes. -/
structure Addr where
  a : Byte
  b : Byte
  c : Byte
  d : Byte
  deriving DecidableEq

/-- The 32 bits of an address. -/
def bits (x : Addr) : BitVec 32 := x.a.toBitVec ++ x.b.toBitVec ++ x.c.toBitVec ++ x.d.toBitVec

/-- A network: a base address and a mask. -/
structure Net where
  base : Addr
  mask : Addr
  deriving DecidableEq

/-- An address is on a network if it has the bits of the base address where the mask has ones. -/
def On (x : Addr) (n : Net) : Prop := ∀ i, (bits n.mask).getMsbD i = true → (bits x).getMsbD i = (bits n.base).getMsbD i

/-- The mask starts with exactly `n` ones. -/
def Leading (m : Addr) (n : Nat) : Prop := (∀ i < n, (bits m).getMsbD i = true) ∧ (bits m).getMsbD n = false

/-- The mask is `n` ones, then zeros. -/
def Mask (m : Addr) (n : Nat) : Prop := ∀ i, (bits m).getMsbD i = decide (i < n)

/-- The decimal text of a byte. -/
def text (b : Byte) : List Byte := (Nat.toDigits 10 b.toNat).map ch

/-- Dotted decimal. -/
def dotted (x : Addr) : List Byte := text x.a ++ ch '.' :: text x.b ++ ch '.' :: text x.c ++ ch '.' :: text x.d

end Spec.Addr
