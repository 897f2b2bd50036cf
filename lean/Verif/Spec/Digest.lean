import Verif.Model.Basic
/-!
Digests, for C119.
-/
namespace Spec.Digest
open Wv

/-- What is done with an encoder that computes a digest: more bytes are put into its input buffer and it is called (with its flags), or finished, or reset. -/
inductive Op where
  | encode (b : List Byte) (flush fin : Bool)
  | finish
  | reset
deriving DecidableEq

/-- The bytes that wait in the input buffer, those that count for the digest, and whether it is finished. -/
structure St where
  waiting : List Byte := []
  data : List Byte := []
  done : Bool := false

/-- With the hash `H`: what comes out, and whether the call succeeds. -/
def finish (H : List Byte → List Byte) (s : St) : St × List Byte × Bool :=
  if s.done then (s, [], false) else ({ s with done := true }, H s.data, true)

def step (H : List Byte → List Byte) (s : St) : Op → St × List Byte × Bool
  | .encode b flush fin =>
    let w := s.waiting ++ b
    let taken := !s.done && (!w.isEmpty || flush)
    let t : St := if taken then { s with waiting := [], data := s.data ++ w } else { s with waiting := w }
    if fin then
      let r := finish H t
      (r.1, r.2.1, r.2.2 && taken)
    else (t, [], taken)
  | .finish => finish H s
  | .reset => ({ s with data := [], done := false }, [], true)

def run (H : List Byte → List Byte) : List Op → St → List (List Byte × Bool)
  | [], _ => []
  | o :: os, s => (step H s o).2 :: run H os (step H s o).1

/-- A library for hashes: the start, more bytes, the end. -/
structure Lib (σ : Type) where
  init : σ
  update : σ → List Byte → σ
  final : σ → List Byte

/-- It does not matter in which pieces bytes are given. -/
structure Lib.Pieces {σ : Type} (L : Lib σ) : Prop where
  nil : ∀ s, L.update s [] = s
  append : ∀ s a b, L.update (L.update s a) b = L.update s (a ++ b)

/-- The hash of a library. -/
def Lib.hash {σ : Type} (L : Lib σ) (d : List Byte) : List Byte := L.final (L.update L.init d)

/-- The bits of a byte, the lowest first. -/
def bits (b : Byte) : List Bool := (List.range 8).map fun i => b.toNat.testBit i

/-- CRC-32: the register starts with all ones, takes bit after bit, and is inverted at the end. -/
def crcBit (c : BitVec 32) (b : Bool) : BitVec 32 := (c >>> 1) ^^^ (if (c.getLsbD 0 != b) = true then 0xEDB88320#32 else 0#32)
def crc32 (d : List Byte) : BitVec 32 := ~~~ ((d.flatMap bits).foldl crcBit (BitVec.allOnes 32))

/-- Adler-32 (RFC 1950): `A` is one more than the sum of the bytes, `B` the sum of all values of `A` on the way, both modulo 65521. -/
def adlerA (d : List Byte) : Nat := (1 + (d.map (·.toNat)).sum) % 65521
def adlerB : List Byte → Nat
  | d => ((List.range d.length).map fun i => 1 + ((d.take (i + 1)).map (·.toNat)).sum).sum % 65521
def adler32 (d : List Byte) : Nat := adlerB d * 65536 + adlerA d

/-- Four bytes, the highest first. -/
def be32 (n : Nat) : List Byte := [UInt8.ofNat (n / 16777216), UInt8.ofNat (n / 65536), UInt8.ofNat (n / 256), UInt8.ofNat n]

end Spec.Digest
