import Verif.Model.MagicCircle
import Verif.Spec.Fifo
import Verif.Lemmas.Buf.Dyn
/-
Lemmas about the magic circle.
-/
namespace Wv.MagicCircle
open Wv.Buf Spec.Fifo

/-! One process. -/

structure CInv (cap : Nat) (s : Circle) : Prop where
  head : s.head < size cap
  tail : s.tail < size cap

/-- The queue a circle stands for. -/
def cont (cap : Nat) (s : Circle) : List Byte := ring s.circle (size cap) s.head (used cap s)

theorem used_lt (cap : Nat) (s : Circle) (h : CInv cap s) : used cap s ≤ cap := by
  have := h.head; have := h.tail
  unfold used size at *
  dsimp only
  split <;> omega

theorem tail_eq (cap : Nat) (s : Circle) (h : CInv cap s) : s.tail = (s.head + used cap s) % size cap := by
  have h1 := h.head; have h2 := h.tail
  have h3 := used_lt cap s h
  rw [mod3 _ _ (by unfold size; omega) (by unfold size at *; omega)]
  unfold used size at *
  simp only
  repeat' split
  all_goals omega

theorem cont_length (cap : Nat) (s : Circle) : (cont cap s).length = used cap s := ring_length ..

theorem put_getD (m : Mem) (a i : Nat) (d : List Byte) (h1 : a ≤ i) (h2 : i < a + d.length) : m.put a d i = d.getD (i - a) 0 := by
  unfold Mem.put; rw [if_pos ⟨h1, h2⟩]
theorem put_out (m : Mem) (a i : Nat) (d : List Byte) (h : i < a ∨ a + d.length ≤ i) : m.put a d i = m i := by
  unfold Mem.put; rw [if_neg (by omega)]

/-- Writing `d` around the memory, in two pieces. -/
theorem put_law (cap : Nat) (s : Circle) (d : List Byte) (h : CInv cap s) :
    ∃ s', put cap s d = some (min d.length (cap - used cap s), s') ∧ CInv cap s' ∧
      cont cap s' = cont cap s ++ d.take (min d.length (cap - used cap s)) := by
  have h1 := h.head
  have h2 := h.tail
  have hu := used_lt cap s h
  have ht := tail_eq cap s h
  have hlen : (if d.length > left cap s then left cap s else d.length) = min d.length (cap - used cap s) := by
    unfold left size; split <;> omega
  unfold put
  simp only [hlen]
  generalize hL : min d.length (cap - used cap s) = L
  generalize hc1 : (if L < size cap - s.tail then L else size cap - s.tail) = c1
  have hc1' : c1 = min L (size cap - s.tail) := by rw [← hc1]; split <;> omega
  have hd1 : (d.take c1).length = c1 := by rw [List.length_take]; omega
  have hd2 : ((d.drop c1).take (L - c1)).length = L - c1 := by rw [List.length_take, List.length_drop]; omega
  rw [copyIn, if_pos (by rw [hd1]; omega)]
  simp only [Option.bind_some]
  have hm : ∃ m, (if c1 < L then copyIn cap (s.circle.put s.tail (d.take c1)) 0 ((d.drop c1).take (L - c1))
      else some (s.circle.put s.tail (d.take c1))) = some m ∧
      ∀ i < size cap, m i = if s.tail ≤ i ∧ i < s.tail + c1 then d.getD (i - s.tail) 0 else if i < L - c1 then d.getD (c1 + i) 0 else s.circle i := by
    have hput1 : ∀ i, (s.circle.put s.tail (d.take c1)) i = if s.tail ≤ i ∧ i < s.tail + c1 then d.getD (i - s.tail) 0 else s.circle i := by
      intro i
      unfold Mem.put
      rw [hd1]
      split
      · rw [List.getD_eq_getElem?_getD, List.getElem?_take, if_pos (by omega), ← List.getD_eq_getElem?_getD]
      · rfl
    split
    · rw [copyIn, if_pos (by rw [hd2]; unfold size at *; omega)]
      refine ⟨_, rfl, ?_⟩
      intro i hi
      by_cases hi2 : i < L - c1
      · rw [put_getD _ _ _ _ (by omega) (by rw [hd2]; omega), if_neg (by unfold size at *; omega), if_pos hi2]
        rw [List.getD_eq_getElem?_getD, List.getElem?_take, if_pos (by omega), List.getElem?_drop, ← List.getD_eq_getElem?_getD]
        rfl
      · rw [put_out _ _ _ _ (by rw [hd2]; omega), hput1]
        rw [if_neg hi2]
    · refine ⟨_, rfl, ?_⟩
      intro i hi
      rw [hput1]
      rw [if_neg (show ¬ i < L - c1 by omega)]
  obtain ⟨m, e1, hm⟩ := hm
  simp only [e1, Option.bind_some]
  refine ⟨_, rfl, ⟨h1, Nat.mod_lt _ (by unfold size; omega)⟩, ?_⟩
  have hused : used cap { s with circle := m, tail := (s.tail + L) % size cap } = used cap s + L := by
    have : (s.tail + L) % size cap = if s.head + used cap s + L < size cap then s.head + used cap s + L else s.head + used cap s + L - size cap := by
      rw [ht, Nat.mod_add_mod, mod3 _ _ (by unfold size; omega) (by unfold size at *; omega)]
      unfold size at *
      repeat' split
      all_goals omega
    unfold used at *
    dsimp only at *
    rw [this]
    unfold size at *
    generalize hU : (if (s.tail : Int) - s.head < 0 then (s.tail : Int) - s.head + ((cap + 1 : Nat) : Int) else (s.tail : Int) - s.head).toNat = U at *
    repeat' split
    all_goals omega
  show ring m (size cap) s.head _ = _
  rw [show (Circle.mk m s.head ((s.tail + L) % size cap)) = { s with circle := m, tail := (s.tail + L) % size cap } from rfl, hused, ← ring_append]
  congr 1
  · unfold cont
    apply ring_congr
    intro i hi
    have hx := mod3 (s.head + i) (size cap) (by unfold size; omega) (by unfold size at *; omega)
    have hy := mod3 (s.head + used cap s) (size cap) (by unfold size; omega) (by unfold size at *; omega)
    rw [← ht] at hy
    rw [hm _ (Nat.mod_lt _ (by unfold size; omega)), if_neg, if_neg]
    · rw [hx]; unfold size at *; repeat' split at hy
      all_goals repeat' split
      all_goals omega
    · rw [hx]; unfold size at *; repeat' split at hy
      all_goals repeat' split
      all_goals omega
  · apply List.ext_getElem
    · rw [ring_length, List.length_take]; omega
    · intro i hi1 hi2
      rw [ring_length] at hi1
      rw [ring_get _ _ _ _ _ hi1, List.getElem_take]
      have hx := mod3 (s.head + used cap s + i) (size cap) (by unfold size; omega) (by unfold size at *; omega)
      have hy := mod3 (s.head + used cap s) (size cap) (by unfold size; omega) (by unfold size at *; omega)
      rw [← ht] at hy
      rw [hm _ (Nat.mod_lt _ (by unfold size; omega))]
      have hdi : d[i]'(by rw [List.length_take] at hi2; omega) = d.getD i 0 := by
        rw [List.getD_eq_getElem?_getD, List.getElem?_eq_getElem (by omega)]; rfl
      rw [hdi]
      by_cases hic : i < c1
      · have : (s.head + used cap s + i) % size cap = s.tail + i := by
          rw [hx]; unfold size at *; repeat' split at hy
          all_goals repeat' split
          all_goals omega
        rw [this, if_pos (by omega), Nat.add_sub_cancel_left]
      · have : (s.head + used cap s + i) % size cap = i - c1 := by
          rw [hx]; unfold size at *; repeat' split at hy
          all_goals repeat' split
          all_goals omega
        rw [this, if_neg (by unfold size at *; omega), if_pos (by omega)]
        congr 1; omega

theorem advance_law (cap : Nat) (s : Circle) (n : Nat) (h : CInv cap s) (hn : n ≤ used cap s) :
    CInv cap { s with head := (s.head + n) % size cap } ∧
      cont cap { s with head := (s.head + n) % size cap } = (cont cap s).drop n := by
  have h1 := h.head
  have h2 := h.tail
  have hu := used_lt cap s h
  have hused : used cap { s with head := (s.head + n) % size cap } = used cap s - n := by
    have hx := mod3 (s.head + n) (size cap) (by unfold size; omega) (by unfold size at *; omega)
    unfold used at *
    dsimp only at *
    rw [hx]
    unfold size at *
    repeat' split at hu
    all_goals repeat' split
    all_goals omega
  refine ⟨⟨Nat.mod_lt _ (by unfold size; omega), h2⟩, ?_⟩
  unfold cont
  rw [hused, ring_drop]
  exact ring_mod ..

theorem get_law (cap : Nat) (s : Circle) (n : Nat) (h : CInv cap s) :
    ∃ s', get cap s n = some ((cont cap s).take n, s') ∧ CInv cap s' ∧ cont cap s' = (cont cap s).drop n := by
  have h1 := h.head
  have h2 := h.tail
  have hu := used_lt cap s h
  have hlen : (if n > used cap s then used cap s else n) = min n (used cap s) := by split <;> omega
  unfold get
  simp only [hlen]
  have htd : (cont cap s).take n = (cont cap s).take (min n (used cap s)) := by
    rw [← cont_length cap s, ← List.take_eq_take_min]
  have hdd : (cont cap s).drop n = (cont cap s).drop (min n (used cap s)) := by
    by_cases hc : n ≤ used cap s
    · rw [Nat.min_eq_left hc]
    · rw [List.drop_of_length_le (by rw [cont_length]; omega), List.drop_of_length_le (by rw [cont_length]; omega)]
  rw [htd, hdd]
  have hL : min n (used cap s) ≤ used cap s := Nat.min_le_right _ _
  generalize min n (used cap s) = L at hL
  generalize hc1 : (if size cap - s.head > L then L else size cap - s.head) = c1
  have hc1' : c1 = min L (size cap - s.head) := by rw [← hc1]; split <;> omega
  rw [copyOut, if_pos (by omega)]
  simp only [Option.bind_some]
  obtain ⟨a1, a2⟩ := advance_law cap s L h hL
  have key : (if c1 < L then copyOut cap s.circle 0 (L - c1) else some []) = some (ring s.circle (size cap) (s.head + c1) (L - c1)) := by
    split
    · rw [copyOut, if_pos (by unfold size at *; omega), slice_ring _ (size cap) 0 (s.head + c1)]
      · rw [show s.head + c1 = size cap by omega, Nat.mod_self]
      · unfold size at *; omega
    · rw [show L - c1 = 0 by omega]; rfl
  simp only [key, Option.bind_some]
  refine ⟨_, ?_, a1, a2⟩
  congr 2
  rw [slice_ring _ (size cap) s.head s.head _ (Nat.mod_eq_of_lt h1) (by omega), ring_append, cont, ring_take _ _ _ _ _ hL]
  congr 1
  omega

theorem skip_law (cap : Nat) (s : Circle) (n : Nat) (h : CInv cap s) :
    (skip cap s n).1 = min n (used cap s) ∧ CInv cap (skip cap s n).2 ∧ cont cap (skip cap s n).2 = (cont cap s).drop n := by
  have hlen : (if n > used cap s then used cap s else n) = min n (used cap s) := by split <;> omega
  have hdd : (cont cap s).drop n = (cont cap s).drop (min n (used cap s)) := by
    by_cases hc : n ≤ used cap s
    · rw [Nat.min_eq_left hc]
    · rw [List.drop_of_length_le (by rw [cont_length]; omega), List.drop_of_length_le (by rw [cont_length]; omega)]
  unfold skip
  simp only [hlen]
  rw [hdd]
  exact ⟨trivial, advance_law cap s _ h (Nat.min_le_right _ _)⟩

end Wv.MagicCircle
