/- Counter mode, independent of the model. -/
namespace Spec.Ctr

/-- `n` bytes, little endian, of a number (modulo 256^n). -/
def le : Nat → Nat → List UInt8
  | 0, _ => []
  | n + 1, v => UInt8.ofNat (v % 256) :: le n (v / 256)

/-- The number a counter stands for. -/
def value : List UInt8 → Nat
  | [] => 0
  | b :: bs => b.toNat + 256 * value bs

/-- Byte number `i` of a segment started at counter value `v` is combined with byte `i % n` of the block made from
    counter value `v + i / n`. -/
def crypt (block : List UInt8 → List UInt8) (n v : Nat) (data : List UInt8) : List UInt8 :=
  data.mapIdx fun i b => (block (le n (v + i / n))).getD (i % n) 0 ^^^ b

/-- Blocks needed for a segment. -/
def blocks (n : Nat) (s : List UInt8) : Nat := (s.length + n - 1) / n

/-- Segments one after the other, each started on a fresh block. -/
def cryptSegs (block : List UInt8 → List UInt8) (n : Nat) : Nat → List (List UInt8) → List UInt8
  | _, [] => []
  | v, s :: ss => crypt block n v s ++ cryptSegs block n (v + blocks n s) ss

/-- The flushes cut the input in segments: complete segments, and the rest not flushed yet.
    `cur` is the part of the current segment already read. -/
def segs (cur : List UInt8) : List (List UInt8 × Bool) → List (List UInt8) × List UInt8
  | [] => ([], cur)
  | (c, true) :: r => ((cur ++ c) :: (segs [] r).1, (segs [] r).2)
  | (c, false) :: r => segs (cur ++ c) r

end Spec.Ctr
