import Verif.Model.Buf.Circular
import Verif.Lemmas.Buf.Lawful
/-
The circular store is lawful.
-/
namespace Wv.Buf

theorem mod3 (x n : Nat) (hn : 0 < n) (h : x < 3 * n) :
    x % n = if x < n then x else if x < 2 * n then x - n else x - 2 * n := by
  split
  · rename_i h; exact Nat.mod_eq_of_lt h
  · split
    · rw [Nat.mod_eq_sub_mod (by omega), Nat.mod_eq_of_lt (by omega)]
    · rw [Nat.mod_eq_sub_mod (by omega), Nat.mod_eq_sub_mod (by omega), Nat.mod_eq_of_lt (by omega)]; omega

/-- `k` bytes from position `b` on, around a memory of `n` bytes. -/
def ring (m : Mem) (n b k : Nat) : List Byte := (List.range k).map fun i => m ((b + i) % n)

theorem ring_length (m : Mem) (n b k : Nat) : (ring m n b k).length = k := by simp [ring]

theorem ring_get (m : Mem) (n b k i : Nat) (h : i < k) : (ring m n b k)[i]'(by rw [ring_length]; exact h) = m ((b + i) % n) := by
  simp [ring]

theorem ring_congr (m m' : Mem) (n n' b b' k : Nat) (h : ∀ i < k, m ((b + i) % n) = m' ((b' + i) % n')) :
    ring m n b k = ring m' n' b' k := by
  unfold ring
  apply List.map_congr_left
  intro i hi
  exact h i (List.mem_range.mp hi)

theorem ring_mod (m : Mem) (n b k : Nat) : ring m n (b % n) k = ring m n b k := by
  apply ring_congr; intro i _; rw [Nat.mod_add_mod]

theorem ring_add_n (m : Mem) (n b k : Nat) : ring m n (b + n) k = ring m n b k := by
  rw [← ring_mod, Nat.add_mod_right, ring_mod]

theorem ring_take (m : Mem) (n b k j : Nat) (h : j ≤ k) : (ring m n b k).take j = ring m n b j := by
  apply List.ext_getElem
  · simp [ring_length]; omega
  · intro i h1 h2
    rw [ring_length] at h2
    rw [List.getElem_take, ring_get _ _ _ _ _ (by omega), ring_get _ _ _ _ _ h2]

theorem ring_drop (m : Mem) (n b k j : Nat) : (ring m n b k).drop j = ring m n (b + j) (k - j) := by
  apply List.ext_getElem
  · simp [ring_length]
  · intro i h1 h2
    rw [ring_length] at h2
    rw [List.getElem_drop, ring_get _ _ _ _ _ (by omega), ring_get _ _ _ _ _ h2, Nat.add_assoc]

theorem ring_append (m : Mem) (n b k l : Nat) : ring m n b k ++ ring m n (b + k) l = ring m n b (k + l) := by
  have h1 := ring_take m n b (k + l) k (by omega)
  have h2 := ring_drop m n b (k + l) k
  rw [Nat.add_sub_cancel_left] at h2
  rw [← h1, ← h2, List.take_append_drop]

theorem slice_length (m : Mem) (a n : Nat) : (m.slice a n).length = n := by simp [Mem.slice]

theorem slice_ring (m : Mem) (n a b k : Nat) (h : b % n = a) (hk : a + k ≤ n) : m.slice a k = ring m n b k := by
  unfold Mem.slice ring
  apply List.map_congr_left
  intro i hi
  have hi := List.mem_range.mp hi
  rw [← Nat.mod_add_mod, h, Nat.mod_eq_of_lt (by omega)]

theorem swap_law (n : Nat) : ∀ (m : Mem) (size a b : Nat), a + n ≤ b → b + n ≤ size → ∃ m', m.swap size a b n = some m' ∧
    ∀ i, m' i = if a ≤ i ∧ i < a + n then m (b + (i - a)) else if b ≤ i ∧ i < b + n then m (a + (i - b)) else m i := by
  induction n with
  | zero => intro m size a b _ _; exact ⟨m, rfl, fun i => by rw [if_neg (by omega), if_neg (by omega)]⟩
  | succ n ih =>
    intro m size a b h1 h2
    obtain ⟨m', e, hm⟩ := ih (m.swap1 a b) size (a + 1) (b + 1) (by omega) (by omega)
    refine ⟨m', by rw [Mem.swap, if_pos (by omega), e], ?_⟩
    intro i
    rw [hm]
    simp only [Mem.swap1]
    repeat' split
    all_goals first | (exfalso; omega) | rfl | (congr 1; omega)

namespace Circ

theorem swapLoop_law (size e h : Nat) (hh : 0 < h) (heh : e + h ≤ size) (t : Nat) : ∀ (m : Mem) (start : Nat) (f : Nat → Byte),
    start + t ≤ e → (∀ j < h, m (e + j) = f j) → (∀ j < t, m (start + j) = f (h + j)) →
    ∃ m' start' t', swapLoop m size start e h t = some (m', start', t') ∧ t' < h ∧ start' + t' = start + t ∧
      start ≤ start' ∧ (∀ i < start, m' i = m i) ∧ (∀ i, start ≤ i → i < start' → m' i = f (i - start)) ∧
      (∀ j < h, m' (e + j) = f (start' - start + j)) ∧ (∀ j < t', m' (start' + j) = f (start' - start + h + j)) := by
  induction t using Nat.strongRecOn with
  | ind t ih =>
    intro m start f h1 h2 h3
    rw [swapLoop]
    by_cases hc : h ≤ t
    · rw [if_pos ⟨hh, hc⟩]
      obtain ⟨m1, e1, hm1⟩ := swap_law h m size start e (by omega) heh
      simp only [e1]
      obtain ⟨m', s', t', r1, r2, r3, r4, r5, r6, r7, r8⟩ := ih (t - h) (by omega) m1 (start + h) (fun j => f (h + j))
        (by omega)
        (by
          intro j hj
          rw [hm1, if_neg (by omega), if_pos (by omega)]
          have : start + (e + j - e) = start + j := by omega
          rw [this]; exact h3 j (by omega))
        (by
          intro j hj
          rw [hm1, if_neg (by omega), if_neg (by omega), Nat.add_assoc]; exact h3 (h + j) (by omega))
      refine ⟨m', s', t', r1, r2, by omega, by omega, ?_, ?_, ?_, ?_⟩
      · intro i hi; rw [r5 i (by omega), hm1, if_neg (by omega), if_neg (by omega)]
      · intro i hi1 hi2
        by_cases hi3 : i < start + h
        · rw [r5 i hi3, hm1, if_pos (by omega)]; exact h2 _ (by omega)
        · rw [r6 i (by omega) hi2]; congr 1; omega
      · intro j hj; rw [r7 j hj]; congr 1; omega
      · intro j hj; rw [r8 j hj]; congr 1; omega
    · rw [if_neg (by omega)]
      refine ⟨m, start, t, rfl, by omega, rfl, Nat.le_refl _, fun _ _ => rfl, fun i a b => by omega, ?_, ?_⟩
      · intro j hj; rw [h2 j hj]; congr 1; omega
      · intro j hj; rw [h3 j hj]; congr 1; omega

theorem compact_law (m : Mem) (size head count : Nat) (hh : head < size) (hc : count ≤ size) :
    ∃ m', compact m size head count = some m' ∧ ∀ i < count, m' i = m ((head + i) % size) := by
  unfold compact
  by_cases h0 : count = 0
  · rw [if_pos h0]; exact ⟨m, rfl, fun i hi => by omega⟩
  rw [if_neg h0]
  by_cases h1 : head + count ≤ size
  · rw [if_pos h1, Mem.move, if_pos (by omega)]
    refine ⟨_, rfl, ?_⟩
    intro i hi
    rw [if_pos (by omega), Nat.mod_eq_of_lt (by omega)]; congr 1
  rw [if_neg h1]
  have hmod : ∀ i < count, (head + i) % size = if i < size - head then head + i else i - (size - head) := by
    intro i hi
    rw [mod3 _ _ (by omega) (by omega)]
    split
    · rw [if_pos (by omega)]
    · rw [if_pos (by omega), if_neg (by omega)]; omega
  by_cases h2 : size - head ≤ size - count
  · simp only [if_pos h2]
    rw [Mem.move, if_pos (by omega)]
    simp only [Option.bind_eq_bind, Option.bind_some]
    rw [Mem.move, if_pos (by omega)]
    refine ⟨_, rfl, ?_⟩
    intro i hi
    rw [hmod i hi]
    by_cases hi2 : i < size - head
    · rw [if_pos (by omega), if_pos hi2, if_neg (by omega)]; congr 1
    · rw [if_neg (by omega), if_neg hi2, if_pos (by omega)]; congr 1; omega
  · simp only [if_neg h2]
    obtain ⟨m', s', t', r1, r2, r3, r4, r5, r6, r7, r8⟩ := swapLoop_law size head (size - head) (by omega) (by omega)
      (count - (size - head)) m 0 (fun i => m ((head + i) % size)) (by omega)
      (by intro j hj; rw [hmod j (by omega), if_pos hj])
      (by intro j hj; rw [hmod _ (by omega), if_neg (by omega)]; congr 1; omega)
    simp only [r1, Option.bind_eq_bind, Option.bind_some]
    rw [if_pos (by omega), Mem.move, if_pos (by omega)]
    simp only [Option.bind_some]
    rw [if_pos (by omega)]
    refine ⟨_, rfl, ?_⟩
    intro i hi
    unfold Mem.put
    rw [slice_length]
    by_cases c1 : s' + (size - head) ≤ i ∧ i < s' + (size - head) + t'
    · rw [if_pos c1]
      have hj : i - (s' + (size - head)) < t' := by omega
      rw [List.getD_eq_getElem?_getD, List.getElem?_eq_getElem (by rw [slice_length]; exact hj), Option.getD_some]
      simp only [Mem.slice, List.getElem_map, List.getElem_range]
      have := r8 _ hj
      rw [this]; congr 2; omega
    · rw [if_neg c1]
      by_cases c2 : s' ≤ i ∧ i < s' + (size - head)
      · dsimp only
        rw [if_pos c2, r7 _ (by omega)]; congr 2; omega
      · dsimp only
        rw [if_neg c2, r6 i (by omega) (by omega)]; congr 2

structure CInv (s : Circ) : Prop where
  pos : 0 < s.xsize
  head : s.head < s.xsize
  used : s.totalused ≤ s.totalinit
  init : s.totalinit ≤ s.xsize

def chist (s : Circ) : List Byte :=
  ring s.data s.xsize (s.head + s.xsize - (s.totalinit - s.totalused)) (s.totalinit - s.totalused)
def ccont (s : Circ) : List Byte := ring s.data s.xsize s.head s.totalused

theorem hist_length (s : Circ) : s.chist.length = s.totalinit - s.totalused := ring_length ..
theorem cont_length (s : Circ) : s.ccont.length = s.totalused := ring_length ..

/-- All the valid bytes, from the oldest on. -/
theorem all_eq (s : Circ) (h : s.CInv) :
    s.chist ++ s.ccont = ring s.data s.xsize (s.head + s.xsize - (s.totalinit - s.totalused)) s.totalinit := by
  have hh := h.used
  have h3 := h.init
  have h1 : s.ccont = ring s.data s.xsize (s.head + s.xsize - (s.totalinit - s.totalused) + (s.totalinit - s.totalused))
      s.totalused := by
    unfold ccont
    rw [← ring_add_n]; congr 1; omega
  rw [h1, chist, ring_append]
  congr 1; omega

/-- The position in memory of the byte at offset `off`. -/
def pos (s : Circ) (off : Int) : Nat := ((s.head : Int) + off + s.xsize).toNat % s.xsize

def CAt (s : Circ) (p : Loc) (off : Int) (n : Nat) : Prop :=
  -((s.totalinit : Int) - s.totalused) ≤ off ∧ off + n ≤ s.totalused ∧
  (0 < n → p.sub = 0 ∧ p.idx + n ≤ s.xsize ∧ p.idx = s.pos off)

/-- What `ensurecontiguous` does: `off` is from the readable part unless the history is kept. -/
theorem ec_law (s : Circ) (off : Int) (n : Nat) (keep : Bool) (h : s.CInv)
    (h0 : -((s.totalinit : Int) - s.totalused) ≤ off) (h1 : keep = false → 0 ≤ off)
    (h2 : off + n ≤ if keep then (s.totalused : Int) else s.xsize) (h3 : off ≤ s.xsize)
    (h4 : off < 0 → s.totalused ≠ 0) :
    ∃ first s', s.ensurecontiguous off n keep = some (first, s') ∧ s'.CInv ∧ s'.xsize = s.xsize ∧
      s'.totalused = s.totalused ∧ s'.ccont = s.ccont ∧ (keep = true → s'.chist = s.chist) ∧
      (∃ k, s'.chist = s.chist.drop k) ∧ (s.totalinit = s.totalused → s'.totalinit = s'.totalused) ∧
      (0 < n → first + n ≤ s.xsize ∧ first = s'.pos off) := by
  have hu := h.used
  have hi := h.init
  have hh := h.head
  have hp := h.pos
  unfold ensurecontiguous
  rw [if_neg (by omega)]
  by_cases hc : n ≠ 0 ∧ ((s.head : Int) + off + s.xsize).toNat % s.xsize + n > s.xsize
  · simp only [if_pos hc]
    generalize hks : (if keep = true then s.head + s.xsize - (s.totalinit - s.totalused) else s.head) = ks
    generalize hti : (if keep = true then s.totalinit else s.totalused) = ti
    have hti1 : s.totalused ≤ ti ∧ ti ≤ s.totalinit := by rw [← hti]; split <;> omega
    obtain ⟨m', e, hm⟩ := compact_law s.data s.xsize (ks % s.xsize) ti (Nat.mod_lt _ hp) (by omega)
    simp only [e]
    have hm2 : ring m' s.xsize 0 ti = ring s.data s.xsize ks ti := by
      rw [← ring_mod s.data s.xsize ks]
      apply ring_congr
      intro i hi
      rw [Nat.zero_add, Nat.mod_eq_of_lt (by omega)]
      exact hm i hi
    have hcont : ring m' s.xsize (ti - s.totalused) s.totalused = s.ccont := by
      have a1 := congrArg (List.drop (ti - s.totalused)) hm2
      rw [ring_drop, ring_drop, Nat.zero_add] at a1
      have e1 : ti - (ti - s.totalused) = s.totalused := by omega
      rw [e1] at a1
      rw [a1, ccont]
      cases keep
      · simp only [Bool.false_eq_true, if_false] at hks hti
        rw [← hks, ← hti, Nat.sub_self, Nat.add_zero]
      · simp only [if_true] at hks hti
        rw [← ring_add_n, ← hks, ← hti, ← ring_add_n s.data s.xsize s.head]
        rw [ring_add_n]; congr 1; omega
    have hhist : ring m' s.xsize (ti - s.totalused + s.xsize - (ti - s.totalused)) (ti - s.totalused) =
        ring s.data s.xsize ks (ti - s.totalused) := by
      have a1 := congrArg (List.take (ti - s.totalused)) hm2
      rw [ring_take _ _ _ _ _ (by omega), ring_take _ _ _ _ _ (by omega)] at a1
      rw [← a1]
      have : ti - s.totalused + s.xsize - (ti - s.totalused) = 0 + s.xsize := by omega
      rw [this, ring_add_n]
    have hkh : keep = true → ring s.data s.xsize ks (ti - s.totalused) = s.chist := by
      intro hk; subst hk
      simp only [if_true] at hks hti
      rw [← hks, ← hti]; rfl
    have hge : ∃ k, ring s.data s.xsize ks (ti - s.totalused) = s.chist.drop k := by
      cases keep
      · simp only [Bool.false_eq_true, if_false] at hti
        refine ⟨s.chist.length, ?_⟩
        rw [← hti, Nat.sub_self, List.drop_length]; rfl
      · exact ⟨0, by rw [hkh rfl, List.drop_zero]⟩
    have hhd : ti - s.totalused < s.xsize := by
      by_cases hk : keep = true
      · rw [if_pos hk] at h2; omega
      · rw [if_neg hk] at hti; omega
    refine ⟨_, _, rfl, ⟨hp, hhd, hti1.1, by show ti ≤ s.xsize; omega⟩, rfl, rfl, hcont, ?_, ?_, ?_, ?_⟩
    · intro hk; show ring m' s.xsize _ _ = _; exact hhist.trans (hkh hk)
    · obtain ⟨k, hk⟩ := hge; exact ⟨k, hhist.trans hk⟩
    · intro heq; show ti = s.totalused; omega
    · intro hn
      refine ⟨?_, rfl⟩
      have hb : off + (n : Int) + (ti - s.totalused : Nat) ≤ s.xsize := by
        by_cases hk : keep = true
        · rw [if_pos hk] at h2 hti; omega
        · rw [if_neg hk] at h2 hti; omega
      have hb0 : 0 ≤ ((ti - s.totalused : Nat) : Int) + off := by
        by_cases hk : keep = true
        · rw [if_pos hk] at hti; omega
        · have := h1 (by simpa using hk); omega
      rw [mod3 _ _ hp (by omega)]
      split
      · omega
      · split <;> omega
  · simp only [if_neg hc]
    refine ⟨_, s, rfl, h, rfl, rfl, rfl, fun _ => rfl, ⟨0, by simp⟩, fun h => h, ?_⟩
    intro hn
    refine ⟨by omega, rfl⟩

theorem get_law (s : Circ) (n : Nat) (h : s.CInv) (hn : n ≤ s.ccont.length) : ∃ p s', s.get n = some (p, s') ∧ s'.CInv ∧
    s'.ccont = s.ccont.drop n ∧ (∃ k, s'.chist = s.chist.drop k ++ s.ccont.take n) ∧ s'.CAt p (-n) n ∧ s.free ≤ s'.free ∧
    s'.xsize = s.xsize := by
  rw [cont_length] at hn
  have hu := h.used
  have hi := h.init
  obtain ⟨first, s1, e1, e2, e3, e4, e5, e6, ⟨k, e7⟩, e8, e9⟩ := ec_law s 0 n false h (by omega) (by omega)
    (by simp; omega) (by omega) (by omega)
  unfold get
  rw [if_pos hn, e1]
  have hu1 := e2.used
  have hi1 := e2.init
  have hp := e2.pos
  have hhd := e2.head
  have hmod := mod3 (s1.head + n) s1.xsize hp (by omega)
  refine ⟨_, _, rfl, ⟨hp, Nat.mod_lt _ hp, by show s1.totalused - n ≤ s1.totalinit; omega, hi1⟩, ?_, ⟨k, ?_⟩, ?_, ?_, e3⟩
  · rw [← e5]
    show ring s1.data s1.xsize ((s1.head + n) % s1.xsize) (s1.totalused - n) = _
    rw [ring_mod, ccont, ring_drop]
  · rw [← e5, ← e7]
    show ring s1.data s1.xsize ((s1.head + n) % s1.xsize + s1.xsize - (s1.totalinit - (s1.totalused - n)))
      (s1.totalinit - (s1.totalused - n)) = _
    have hlen : s1.totalinit - (s1.totalused - n) = (s1.totalinit - s1.totalused) + n := by omega
    have ht : s1.ccont.take n =
        ring s1.data s1.xsize (s1.head + s1.xsize - (s1.totalinit - s1.totalused) + (s1.totalinit - s1.totalused)) n := by
      rw [ccont, ring_take _ _ _ _ _ (by omega)]
      rw [← ring_add_n]; congr 1; omega
    rw [ht, chist, ring_append, hlen, ← ring_mod, ← ring_mod s1.data s1.xsize (s1.head + s1.xsize - _)]
    congr 1
    rw [hmod]
    split
    · congr 1; omega
    · rw [if_pos (by omega)]
      rw [mod3 _ _ hp (by omega), mod3 _ _ hp (by omega)]
      split <;> split <;> (try split) <;> (try split) <;> omega
  · refine ⟨?_, ?_, ?_⟩
    · show -((s1.totalinit : Int) - ((s1.totalused - n : Nat) : Int)) ≤ _; omega
    · show -(n : Int) + n ≤ ((s1.totalused - n : Nat) : Int); omega
    · intro h0
      refine ⟨rfl, by show first + n ≤ s1.xsize; rw [e3]; exact (e9 h0).1, ?_⟩
      show first = ((((s1.head + n) % s1.xsize : Nat) : Int) + -(n : Int) + s1.xsize).toNat % s1.xsize
      rw [(e9 h0).2, pos, hmod]
      split
      · congr 1; omega
      · rw [if_pos (by omega), mod3 _ _ hp (by omega), mod3 _ _ hp (by omega)]
        split <;> split <;> (try split) <;> (try split) <;> omega
  · show s.xsize - s.totalused ≤ s1.xsize - (s1.totalused - n); omega

theorem unget_law (s : Circ) (n : Nat) (h : s.CInv) (hn : n ≤ s.chist.length) : ∃ s', s.unget n = some s' ∧ s'.CInv ∧
    s'.chist = s.chist.take (s.chist.length - n) ∧ s'.ccont = s.chist.drop (s.chist.length - n) ++ s.ccont ∧
    s'.xsize = s.xsize := by
  have hu := h.used
  have hi := h.init
  have hp := h.pos
  have hhd := h.head
  have hl := hist_length s
  rw [hl] at hn
  unfold unget
  rw [if_pos ⟨hn, by omega⟩]
  have hmod := mod3 (s.head + s.xsize - n) s.xsize hp (by omega)
  refine ⟨_, rfl, ⟨hp, Nat.mod_lt _ hp, by show s.totalused + n ≤ s.totalinit; omega, hi⟩, ?_, ?_, rfl⟩
  · show ring s.data s.xsize ((s.head + s.xsize - n) % s.xsize + s.xsize - (s.totalinit - (s.totalused + n)))
      (s.totalinit - (s.totalused + n)) = _
    rw [hl, chist, ring_take _ _ _ _ _ (by omega)]
    have e1 : s.totalinit - (s.totalused + n) = s.totalinit - s.totalused - n := by omega
    rw [e1, ← ring_mod, ← ring_mod s.data s.xsize (s.head + s.xsize - _)]
    congr 1
    rw [hmod]
    split
    · rw [mod3 _ _ hp (by omega), mod3 _ _ hp (by omega)]
      split <;> split <;> (try split) <;> (try split) <;> omega
    · rw [if_pos (by omega)]; congr 1; omega
  · show ring s.data s.xsize ((s.head + s.xsize - n) % s.xsize) (s.totalused + n) = _
    rw [hl, chist, ring_drop, ccont, ring_mod, ← ring_add_n s.data s.xsize s.head]
    have e1 : s.head + s.xsize - (s.totalinit - s.totalused) + (s.totalinit - s.totalused - n) = s.head + s.xsize - n := by omega
    have e2 : s.totalinit - s.totalused - (s.totalinit - s.totalused - n) = n := by omega
    have e3 : s.head + s.xsize = s.head + s.xsize - n + n := by omega
    rw [e1, e2]
    conv_rhs => rw [e3]
    rw [Nat.add_sub_cancel, ring_append, Nat.add_comm n]

theorem alloc_law (s : Circ) (n : Nat) (h : s.CInv) (hn : n ≤ s.free) : ∃ p s' g, s.alloc n = some (p, s') ∧ s'.CInv ∧
    g.length = n ∧ s'.ccont = s.ccont ++ g ∧ s'.chist = [] ∧ s'.CAt p s.ccont.length n ∧ s.free ≤ s'.free + n ∧
    s'.xsize = s.xsize := by
  have hu := h.used
  have hi := h.init
  have hf : n ≤ s.xsize - s.totalused := hn
  have hs1 : CInv { s with totalinit := s.totalused } := ⟨h.pos, h.head, Nat.le_refl _, by show s.totalused ≤ s.xsize; omega⟩
  obtain ⟨first, s1, e1, e2, e3, e4, e5, e6, -, e8, e9⟩ := ec_law { s with totalinit := s.totalused } s.totalused n false hs1
    (by dsimp only; omega) (by omega) (by simp; omega) (by dsimp only; omega) (by omega)
  have e8 := e8 rfl
  dsimp only at e3 e4 e9
  unfold alloc
  rw [if_pos hf]
  simp only [e1]
  have hp := e2.pos
  have hhd := e2.head
  refine ⟨_, _, ring s1.data s1.xsize (s1.head + s1.totalused) n, rfl,
    ⟨hp, hhd, by show s1.totalused + n ≤ s1.totalinit + n; omega, by show s1.totalinit + n ≤ s1.xsize; omega⟩,
    ring_length .., ?_, ?_, ?_, ?_, e3⟩
  · have : s.ccont = s1.ccont := by rw [e5]; rfl
    rw [this]
    show ring s1.data s1.xsize s1.head (s1.totalused + n) = _
    rw [ccont, ring_append]
  · apply List.eq_nil_of_length_eq_zero
    rw [hist_length]; dsimp only; omega
  · refine ⟨?_, ?_, ?_⟩
    · dsimp only; rw [cont_length]; omega
    · dsimp only; rw [cont_length]; omega
    · intro h0
      refine ⟨rfl, by dsimp only; rw [e3]; exact (e9 h0).1, ?_⟩
      dsimp only
      rw [(e9 h0).2, cont_length]; rfl
  · show s.xsize - s.totalused ≤ s1.xsize - (s1.totalused + n) + n; omega

theorem unalloc_law (s : Circ) (n : Nat) (h : s.CInv) (hn : n ≤ s.ccont.length) : ∃ s', s.unalloc n = some s' ∧ s'.CInv ∧
    s'.ccont = s.ccont.take (s.ccont.length - n) ∧ s'.chist = s.chist ∧ s'.xsize = s.xsize := by
  have hu := h.used
  have hi := h.init
  rw [cont_length] at hn
  unfold unalloc
  rw [if_pos hn]
  refine ⟨_, rfl, ⟨h.pos, h.head, by show s.totalused - n ≤ s.totalinit - n; omega, by show s.totalinit - n ≤ s.xsize; omega⟩,
    ?_, ?_, rfl⟩
  · rw [cont_length, ccont, ccont, ring_take _ _ _ _ _ (by omega)]
  · unfold chist
    have : s.totalinit - n - (s.totalused - n) = s.totalinit - s.totalused := by omega
    show ring s.data s.xsize (s.head + s.xsize - (s.totalinit - n - (s.totalused - n))) (s.totalinit - n - (s.totalused - n)) = _
    rw [this]

theorem peekable_in (u h : Nat) (off : Int) (h0 : -(h : Int) ≤ off) (h1 : off < u) :
    peekableOf u h off = (u - off).toNat := by
  unfold peekableOf
  split
  · omega
  · split
    · rw [if_pos (by omega)]; omega
    · rw [if_pos (by omega)]

theorem mutablepeek_law (s : Circ) (off : Int) (n : Nat) (h : s.CInv) (h0 : -(s.chist.length : Int) ≤ off)
    (h1 : off + n ≤ s.ccont.length) (hn : 0 < n) (hneg : off < 0 → s.totalused ≠ 0) : ∃ p s', s.mutablepeek off n = some (p, s') ∧ s'.CInv ∧
    s'.chist = s.chist ∧ s'.ccont = s.ccont ∧ s'.free = s.free ∧ s'.CAt p off n ∧ s'.xsize = s.xsize := by
  have hu := h.used
  have hi := h.init
  have hl := hist_length s
  rw [cont_length] at h1
  obtain ⟨first, s1, e1, e2, e3, e4, e5, e6, -, e8, e9⟩ := ec_law s off n true h (by omega) (by simp) (by simpa using h1)
    (by omega) (by omega)
  unfold mutablepeek
  rw [if_neg (by omega), if_pos (by split <;> omega), e1]
  have hl1 := hist_length s1
  have hu1 := e2.used
  have e6 := e6 rfl
  rw [e6] at hl1
  refine ⟨_, s1, rfl, e2, e6, e5, ?_, ⟨by omega, by omega, fun h0 => ⟨rfl, ?_⟩⟩, e3⟩
  · show s1.xsize - s1.totalused = s.xsize - s.totalused; omega
  · dsimp only; rw [e3]; exact e9 h0

theorem read_law (s : Circ) (p : Loc) (off : Int) (n m : Nat) (h : s.CInv) (ha : s.CAt p off n) (hm : m ≤ n) :
    s.read p m = some (((s.chist ++ s.ccont).drop (s.chist.length + off).toNat).take m) := by
  have hu := h.used
  have hi := h.init
  have hl := hist_length s
  obtain ⟨a1, a2, a3⟩ := ha
  unfold read
  by_cases h0 : m = 0
  · subst h0; simp
  · obtain ⟨b1, b2, b3⟩ := a3 (by omega)
    rw [if_neg h0, if_pos ⟨b1, by omega⟩, all_eq s h, ring_drop, ring_take _ _ _ _ _ (by omega)]
    congr 1
    apply slice_ring
    · rw [b3, pos]; congr 1; omega
    · omega

theorem splice_getD (l d : List Byte) (i j : Nat) (hi : i ≤ l.length) :
    (splice l i d).getD j 0 = if j < i then l.getD j 0 else if j < i + d.length then d.getD (j - i) 0 else l.getD j 0 := by
  have htl : (l.take i).length = i := by rw [List.length_take]; omega
  unfold splice
  simp only [List.getD_eq_getElem?_getD]
  rw [List.append_assoc, List.getElem?_append, htl]
  split
  · rename_i h; rw [List.getElem?_take_of_lt h]
  · rw [List.getElem?_append]
    split
    · rename_i h1 h2; rw [if_pos (by omega)]
    · rename_i h1 h2
      rw [if_neg (by omega), List.getElem?_drop]
      congr 2; omega

theorem ring_getD (m : Mem) (n b k j : Nat) : (ring m n b k).getD j 0 = if j < k then m ((b + j) % n) else 0 := by
  rw [List.getD_eq_getElem?_getD]
  split
  · rename_i h
    rw [List.getElem?_eq_getElem (by rw [ring_length]; exact h), Option.getD_some, ring_get _ _ _ _ _ h]
  · rename_i h
    rw [List.getElem?_eq_none (by rw [ring_length]; omega)]; rfl

theorem ext_getD (a b : List Byte) (hl : a.length = b.length) (h : ∀ j < a.length, a.getD j 0 = b.getD j 0) : a = b := by
  apply List.ext_getElem hl
  intro i h1 h2
  have := h i h1
  simpa [h1, h2] using this

theorem write_law (s : Circ) (p : Loc) (off : Int) (n : Nat) (d : List Byte) (h : s.CInv) (ha : s.CAt p off n)
    (hd : d.length ≤ n) : ∃ s', s.write p d = some s' ∧ s'.CInv ∧ s'.chist.length = s.chist.length ∧ s'.free = s.free ∧
    s'.chist ++ s'.ccont = splice (s.chist ++ s.ccont) (s.chist.length + off).toNat d ∧ s'.CAt p off n ∧
    s'.xsize = s.xsize ∧ s'.totalused = s.totalused := by
  have hu := h.used
  have hi := h.init
  have hp := h.pos
  have hhd := h.head
  have hl := hist_length s
  obtain ⟨a1, a2, a3⟩ := ha
  unfold write
  by_cases h0 : d = []
  · subst h0
    exact ⟨s, by simp, h, rfl, rfl, by simp [splice], ⟨a1, a2, a3⟩, rfl, rfl⟩
  · have hlen : 0 < d.length := List.length_pos_iff.mpr h0
    obtain ⟨b1, b2, b3⟩ := a3 (by omega)
    rw [if_neg h0, if_pos ⟨b1, by omega⟩]
    have hs' : CInv { s with data := s.data.put p.idx d } := ⟨h.pos, h.head, h.used, h.init⟩
    refine ⟨_, rfl, hs', by rw [hist_length, hist_length], rfl, ?_, ⟨a1, a2, a3⟩, rfl, rfl⟩
    rw [all_eq _ hs', all_eq s h]
    have hidx : (s.chist.length + off).toNat + d.length ≤ s.totalinit := by omega
    apply ext_getD
    · rw [ring_length, splice_length _ _ _ (by rw [ring_length]; exact hidx), ring_length]
    · intro j hj
      rw [ring_length] at hj
      dsimp only at hj
      rw [splice_getD _ _ _ _ (by rw [ring_length]; omega), ring_getD, ring_getD, if_pos hj, if_pos hj]
      dsimp only
      unfold Mem.put
      rw [pos] at b3
      generalize hx : (s.chist.length + off).toNat = x at *
      have hpos : p.idx = (s.head + s.xsize - (s.totalinit - s.totalused) + x) % s.xsize := by
        rw [b3]; congr 1; omega
      rw [mod3 _ _ hp (by omega)] at hpos
      generalize hy : (s.head + s.xsize - (s.totalinit - s.totalused) + j) % s.xsize = y
      have hy' := hy
      rw [mod3 _ _ hp (by omega)] at hy
      by_cases c1 : j < x
      · rw [if_pos c1, if_neg]
        split at hpos <;> (try split at hpos) <;> split at hy <;> (try split at hy) <;> omega
      · rw [if_neg c1]
        by_cases c2 : j < x + d.length
        · rw [if_pos c2]
          have : y = p.idx + (j - x) := by
            split at hpos <;> (try split at hpos) <;> split at hy <;> (try split at hy) <;> omega
          rw [if_pos (by omega)]; congr 1; omega
        · rw [if_neg c2, if_neg]
          split at hpos <;> (try split at hpos) <;> split at hy <;> (try split at hy) <;> omega

instance : Lawful Circ where
  Inv := CInv
  hist := chist
  cont := ccont
  At := CAt
  NegOk s := s.totalused ≠ 0
  PeekOk _ _ _ := True
  used_eq s _ := (cont_length s).symm
  ungettable_eq s _ := (hist_length s).symm
  optgettable_law s h := by
    have hh := h.head
    have := cont_length s
    show s.optgettable ≤ _ ∧ (_ → 0 < s.optgettable)
    unfold optgettable
    constructor
    · dsimp only; split <;> omega
    · intro hne
      have := List.length_pos_iff.mpr hne
      dsimp only; split <;> omega
  get_law s n h hn := by
    obtain ⟨p, s', h1, h2, h3, h4, h5, h6, _⟩ := get_law s n h hn
    exact ⟨p, s', h1, h2, h3, h4, h5, h6⟩
  unget_law s n h hn := by
    obtain ⟨s', h1, h2, h3, h4, _⟩ := unget_law s n h hn
    exact ⟨s', h1, h2, h3, h4⟩
  zap_law s h := ⟨⟨h.pos, h.pos, Nat.le_refl _, Nat.zero_le _⟩, rfl, rfl⟩
  optallocable_law s h hf := by
    have hh := h.head
    have hf : 0 < s.xsize - s.totalused := hf
    show 0 < s.optallocable
    unfold optallocable
    dsimp only; split <;> omega
  alloc_law s n h hn := by
    have hf : n ≤ s.free := by
      rcases hn with hn | hn
      · exact hn
      · have hn : n ≤ s.optallocable := hn
        unfold optallocable at hn
        unfold free
        dsimp only at hn
        split at hn <;> omega
    obtain ⟨p, s', g, h1, h2, h3, h4, h5, h6, h7, _⟩ := alloc_law s n h hf
    exact ⟨p, s', g, h1, h2, h3, h4, ⟨s.chist.length, by rw [h5, List.drop_length]⟩, h6, h7⟩
  unalloc_law s n h hn := by
    obtain ⟨s', h1, h2, h3, h4, _⟩ := unalloc_law s n h hn
    exact ⟨s', h1, h2, h3, ⟨0, by rw [h4, List.drop_zero]⟩⟩
  optpeekable_law s off h h0 h1 := by
    rw [hist_length] at h0
    rw [cont_length] at h1 ⊢
    show 0 < peekableOf s.totalused (s.totalinit - s.totalused) off ∧ _ + ((peekableOf s.totalused (s.totalinit - s.totalused) off : Nat) : Int) ≤ _
    rw [peekable_in _ _ _ h0 h1]; omega
  mutablepeek_law s off n h h0 h1 hn hneg h2 := by
    have h2 : n ≤ peekableOf s.totalused (s.totalinit - s.totalused) off := h2
    have h0' := h0
    have h1' := h1
    rw [hist_length] at h0'
    rw [cont_length] at h1'
    rw [peekable_in _ _ _ h0' h1'] at h2
    obtain ⟨p, s', e1, e2, e3, e4, e5, e6, _⟩ := mutablepeek_law s off n h h0 (by rw [cont_length]; omega) hn hneg
    refine ⟨p, s', e1, e2, e3, e4, e5, e6, fun hz => ?_⟩
    have := congrArg List.length e4
    rw [cont_length, cont_length] at this
    rw [this]; exact hz
  peek_law s off n h h0 h1 hn hneg _ := by
    obtain ⟨p, s', e1, e2, e3, e4, e5, e6, _⟩ := mutablepeek_law s off n h h0 h1 hn hneg
    exact ⟨p, s', e1, e2, ⟨0, by rw [e3, List.drop_zero]⟩, fun _ => e3, e4, e6⟩
  at_bound s p off n ha := by
    rw [hist_length, cont_length]
    exact ⟨by have := ha.1; omega, ha.2.1⟩
  at_add s p off n k h ha hk := by
    have hu := h.used
    have hi := h.init
    obtain ⟨a1, a2, a3⟩ := ha
    refine ⟨by omega, by omega, ?_⟩
    intro h0
    obtain ⟨b1, b2, b3⟩ := a3 (by omega)
    refine ⟨b1, by unfold Loc.add; dsimp only; omega, ?_⟩
    unfold Loc.add
    unfold pos at b3 ⊢
    dsimp only
    have e : ((s.head : Int) + (off + (k : Int)) + s.xsize).toNat = ((s.head : Int) + off + s.xsize).toNat + k := by omega
    rw [e, ← Nat.mod_add_mod, ← b3, Nat.mod_eq_of_lt (by omega)]
  read_law s p off n m h ha hm := read_law s p off n m h ha hm
  write_law s p off n d h ha hd := by
    obtain ⟨s', h1, h2, h3, h4, h5, h6, _, h7⟩ := write_law s p off n d h ha hd
    exact ⟨s', h1, h2, h3, h4, h5, h6, fun hz => by rw [h7]; exact hz⟩

end Circ
end Wv.Buf
