import Verif.Lemmas.Xor
/- C07: XOR encoder. -/
namespace Props
open Wv Wv.Xor

/-- C07 (what it computes): byte number i is combined with byte i modulo the key length of the key, whatever the
    chunks; all input is consumed. -/
theorem C07_xor_spec (key : List Byte) (hk : key ≠ []) (cs : List (List Byte × Bool)) :
    ((encoder key).feed new {} cs).2.1.out = (flat cs).mapIdx (fun i b => b ^^^ key.getD (i % key.length) 0) ∧
    ((encoder key).feed new {} cs).1.okay = true ∧ ((encoder key).feed new {} cs).2.1.inb = [] :=
  run_out key hk cs

/-- C07: the output of one encoder fed, in any other chunks, to a second encoder with the same key gives the data. -/
theorem C07_xor_involution (key : List Byte) (hk : key ≠ []) (cs ds : List (List Byte × Bool))
    (h : flat ds = ((encoder key).feed new {} cs).2.1.out) :
    ((encoder key).feed new {} ds).2.1.out = flat cs := by
  rw [(run_out key hk ds).1, h, (run_out key hk cs).1]
  apply List.ext_getElem
  · simp
  · intro i h1 h2
    simp [UInt8.xor_assoc]

example : flat [([0x52, 0x45], false), ([0x50], true)] =
    ((encoder [0x10, 0x01]).feed new {} [([0x42], false), ([0x44, 0x40], false)]).2.1.out := by decide +kernel

end Props
