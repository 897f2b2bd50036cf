import Verif.Lemmas.Ctr
import Mathlib.Data.Nat.ModEq
/- C08: counter mode. -/
namespace Props
open Wv Wv.Ctr

/-- C08 (what it computes): the flushes cut the data in segments; each segment starts on a fresh block; byte i of a
    segment is combined with the key stream of counter value (start + i / size). Bytes after the last flush are
    processed as far as whole blocks go; the rest stays in the input buffer. -/
theorem C08_ctr_spec (block : List Byte → List Byte) (counter : List Byte) (hn : counter ≠ [])
    (hb : ∀ c, c.length = counter.length → (block c).length = counter.length) (cs : List (List Byte × Bool)) :
    let n := counter.length
    let v := Spec.Ctr.value counter
    let r := (encoder block).feed (new counter) {} cs
    let s := Spec.Ctr.segs [] cs
    let whole := s.2.length / n * n
    r.2.1.out = Spec.Ctr.cryptSegs block n v s.1 ++
      Spec.Ctr.crypt block n (v + (s.1.map (Spec.Ctr.blocks n)).sum) (s.2.take whole) ∧
    r.2.1.inb = s.2.drop whole ∧ r.1.okay = true := by
  have hpos : 0 < counter.length := List.length_pos_iff.mpr hn
  have := feed_spec block counter.length hpos hb cs (Spec.Ctr.value counter) [] [] (new counter)
    (by simp [new, le_value]) rfl rfl hpos
  exact this

/-- C08 (decryption): a second encoder with the same block function and counter, fed the output in any chunks as long as
    it is flushed at the same places, gives the data back. Every byte was flushed on both sides. -/
theorem C08_ctr_involution (block : List Byte → List Byte) (counter : List Byte) (hn : counter ≠ [])
    (hb : ∀ c, c.length = counter.length → (block c).length = counter.length) (cs ds : List (List Byte × Bool))
    (hcs : (Spec.Ctr.segs [] cs).2 = []) (hds : (Spec.Ctr.segs [] ds).2 = [])
    (hlen : (Spec.Ctr.segs [] ds).1.map List.length = (Spec.Ctr.segs [] cs).1.map List.length)
    (hds' : (Spec.Ctr.segs [] ds).1.flatten = ((encoder block).feed (new counter) {} cs).2.1.out) :
    ((encoder block).feed (new counter) {} ds).2.1.out = (Spec.Ctr.segs [] cs).1.flatten := by
  have h1 := (C08_ctr_spec block counter hn hb cs).1
  have h2 := (C08_ctr_spec block counter hn hb ds).1
  simp only [hcs, hds, List.take_nil, Spec.Ctr.crypt, List.mapIdx_nil, List.append_nil] at h1 h2
  rw [h1] at hds'
  rw [h2]
  exact cryptSegs_inv block counter.length _ _ _ hlen hds'

-- size 2, two segments (3 bytes and 1 byte), cut differently on the two sides
example : let block : List Byte → List Byte := fun c => c.map (· + 1)
    let cs : List (List Byte × Bool) := [([1, 2], false), ([3], true), ([4], true)]
    let ds : List (List Byte × Bool) := [([1], false), ([3, 2], false), ([], true), ([6], true)]
    (Spec.Ctr.segs [] cs).2 = [] ∧ (Spec.Ctr.segs [] ds).2 = [] ∧
    (Spec.Ctr.segs [] ds).1.map List.length = (Spec.Ctr.segs [] cs).1.map List.length ∧
    (Spec.Ctr.segs [] ds).1.flatten = ((encoder block).feed (new [255, 0]) {} cs).2.1.out := by decide +kernel

/-- C08 (counter): counting from any start, the counter takes 256^size different values before it repeats. -/
theorem C08_counter_no_repeat (counter : List Byte) (i j : Nat) (hij : i < j) (hj : j < i + 256 ^ counter.length) :
    incr^[i] counter ≠ incr^[j] counter := by
  intro h
  have e := le_value counter
  rw [← e, iter_incr, iter_incr] at h
  have := congrArg Spec.Ctr.value h
  rw [value_le, value_le] at this

  have hmod : (Spec.Ctr.value counter + i) % 256 ^ counter.length =
    (Spec.Ctr.value counter + i + (j - i)) % 256 ^ counter.length := by
    rw [this]; congr 1; omega
  have hz : (j - i) % 256 ^ counter.length = 0 := by
    have := Nat.ModEq.add_left_cancel' (Spec.Ctr.value counter + i) (a := 0) (b := j - i) (n := 256 ^ counter.length)
      (by rw [Nat.add_zero]; exact hmod)
    have h2 : (0:Nat) % 256 ^ counter.length = (j - i) % 256 ^ counter.length := this
    rw [← h2, Nat.zero_mod]
  rw [Nat.mod_eq_of_lt (by omega)] at hz
  omega

example : incr^[1] [255, 0] = [0, 1] := by decide

end Props
