import Verif.Model.Buf.InPlace
import Verif.Lemmas.Buf.Circular
/-
The in-place store is lawful.
-/
namespace Wv.Buf

theorem slice_take (m : Mem) (a n k : Nat) (h : k ≤ n) : (m.slice a n).take k = m.slice a k := by
  unfold Mem.slice
  rw [← List.map_take, List.take_range, Nat.min_eq_left h]

theorem slice_drop (m : Mem) (a n k : Nat) : (m.slice a n).drop k = m.slice (a + k) (n - k) := by
  apply List.ext_getElem
  · simp [Mem.slice]
  · intro i h1 h2; simp [Mem.slice, Nat.add_assoc]

theorem slice_append (m : Mem) (a n k : Nat) : m.slice a n ++ m.slice (a + n) k = m.slice a (n + k) := by
  have h1 := slice_take m a (n + k) n (by omega)
  have h2 := slice_drop m a (n + k) n
  rw [Nat.add_sub_cancel_left] at h2
  rw [← h1, ← h2, List.take_append_drop]

theorem slice_getD (m : Mem) (a n j : Nat) : (m.slice a n).getD j 0 = if j < n then m (a + j) else 0 := by
  rw [List.getD_eq_getElem?_getD]
  split
  · rename_i h; simp [Mem.slice, h]
  · rename_i h
    rw [List.getElem?_eq_none (by rw [slice_length]; omega)]; rfl

theorem slice_put (m : Mem) (a n i : Nat) (d : List Byte) (h : i + d.length ≤ n) :
    (m.put (a + i) d).slice a n = splice (m.slice a n) i d := by
  apply Circ.ext_getD
  · rw [slice_length, splice_length _ _ _ (by rw [slice_length]; exact h), slice_length]
  · intro j hj
    rw [slice_length] at hj
    rw [Circ.splice_getD _ _ _ _ (by rw [slice_length]; omega), slice_getD, slice_getD, if_pos hj]
    unfold Mem.put
    by_cases c1 : j < i
    · rw [if_pos c1, if_neg (by omega), if_pos hj]
    · rw [if_neg c1]
      by_cases c2 : j < i + d.length
      · rw [if_pos c2, if_pos (by omega)]; congr 1; omega
      · rw [if_neg c2, if_neg (by omega), if_pos hj]

namespace InPlace

structure PInv (s : InPlace) : Prop where
  read : s.readidx ≤ s.writeidx
  write : s.writeidx ≤ s.xsize

def phist (s : InPlace) : List Byte := s.data.slice 0 s.readidx
def pcont (s : InPlace) : List Byte := s.data.slice s.readidx (s.writeidx - s.readidx)
def PAt (s : InPlace) (p : Loc) (off : Int) (n : Nat) : Prop :=
  -(s.readidx : Int) ≤ off ∧ off + n ≤ ((s.writeidx - s.readidx : Nat) : Int) ∧
  (0 < n → p.sub = 0 ∧ (p.idx : Int) = s.readidx + off)

theorem hist_length (s : InPlace) : s.phist.length = s.readidx := slice_length ..
theorem cont_length (s : InPlace) : s.pcont.length = s.writeidx - s.readidx := slice_length ..

theorem all_eq (s : InPlace) (h : s.PInv) : s.phist ++ s.pcont = s.data.slice 0 s.writeidx := by
  have := slice_append s.data 0 s.readidx (s.writeidx - s.readidx)
  rw [Nat.zero_add] at this
  rw [phist, pcont, this]
  have := h.read
  congr 1; omega

theorem mutablepeek_law (s : InPlace) (off : Int) (n : Nat) (h0 : -(s.phist.length : Int) ≤ off)
    (h1 : off + n ≤ s.pcont.length) (hn : 0 < n) : ∃ p, s.mutablepeek off n = some (p, s) ∧ s.PAt p off n := by
  rw [hist_length] at h0
  rw [cont_length] at h1
  refine ⟨⟨0, ((s.readidx : Int) + off).toNat⟩, ?_, ⟨h0, by omega, fun _ => ⟨rfl, ?_⟩⟩⟩
  · rw [mutablepeek, if_neg (by omega), if_pos (by split <;> omega)]
  · dsimp only; omega

instance : Lawful InPlace where
  Inv := PInv
  hist := phist
  cont := pcont
  At := PAt
  NegOk _ := True
  PeekOk _ _ _ := True
  used_eq s _ := (cont_length s).symm
  ungettable_eq s _ := (hist_length s).symm
  optgettable_law s h := by
    rw [cont_length]
    refine ⟨Nat.le_refl _, fun hne => ?_⟩
    have := List.length_pos_iff.mpr hne
    rw [cont_length] at this; exact this
  get_law s n h hn := by
    have h1 := h.read
    have h2 := h.write
    rw [cont_length] at hn
    refine ⟨⟨0, s.readidx⟩, { s with readidx := s.readidx + n }, ?_, ⟨?_, h2⟩, ?_, ⟨0, ?_⟩, ⟨?_, ?_, ?_⟩, Nat.le_refl _⟩
    · show s.get n = _
      rw [get, if_pos hn]
    · show s.readidx + n ≤ s.writeidx; omega
    · show s.data.slice (s.readidx + n) (s.writeidx - (s.readidx + n)) = _
      rw [pcont, slice_drop]; congr 1; omega
    · show s.data.slice 0 (s.readidx + n) = _
      rw [List.drop_zero, phist, pcont, slice_take _ _ _ _ hn, ← slice_append, Nat.zero_add]
    · show -((s.readidx + n : Nat) : Int) ≤ _; omega
    · show _ ≤ ((s.writeidx - (s.readidx + n) : Nat) : Int); omega
    · intro _; refine ⟨rfl, ?_⟩
      show (s.readidx : Int) = ((s.readidx + n : Nat) : Int) + -(n : Int); omega
  unget_law s n h hn := by
    have h1 := h.read
    have h2 := h.write
    rw [hist_length] at hn
    refine ⟨{ s with readidx := s.readidx - n }, ?_, ⟨?_, h2⟩, ?_, ?_⟩
    · show s.unget n = _
      rw [unget, if_pos hn]
    · show s.readidx - n ≤ s.writeidx; omega
    · show s.data.slice 0 (s.readidx - n) = _
      rw [hist_length, phist, slice_take _ _ _ _ (by omega)]
    · show s.data.slice (s.readidx - n) (s.writeidx - (s.readidx - n)) = _
      rw [hist_length, phist, slice_drop, pcont, Nat.zero_add]
      have e : s.readidx = (s.readidx - n) + (s.readidx - (s.readidx - n)) := by omega
      conv_rhs => rw [show s.data.slice s.readidx = s.data.slice ((s.readidx - n) + (s.readidx - (s.readidx - n))) from by rw [← e]]
      rw [slice_append]; congr 1; omega
  zap_law s h := ⟨⟨Nat.le_refl _, Nat.zero_le _⟩, rfl, rfl⟩
  optallocable_law s h hf := hf
  alloc_law s n h hn := by
    have h1 := h.read
    have h2 := h.write
    have hn : n ≤ s.xsize - s.writeidx := by rcases hn with hn | hn <;> exact hn
    refine ⟨⟨0, s.writeidx⟩, { s with writeidx := s.writeidx + n }, s.data.slice s.writeidx n, ?_, ⟨?_, ?_⟩, slice_length ..,
      ?_, ⟨0, rfl⟩, ⟨?_, ?_, ?_⟩, ?_⟩
    · show s.alloc n = _
      rw [alloc, if_pos hn]
    · show s.readidx ≤ s.writeidx + n; omega
    · show s.writeidx + n ≤ s.xsize; omega
    · show s.data.slice s.readidx (s.writeidx + n - s.readidx) = _
      have e : s.writeidx = s.readidx + (s.writeidx - s.readidx) := by omega
      rw [pcont]
      conv_rhs => rw [show s.data.slice s.writeidx = s.data.slice (s.readidx + (s.writeidx - s.readidx)) from by rw [← e]]
      rw [slice_append]; congr 1; omega
    · show -(s.readidx : Int) ≤ _; omega
    · show _ ≤ ((s.writeidx + n - s.readidx : Nat) : Int)
      rw [cont_length]; omega
    · intro _; refine ⟨rfl, ?_⟩
      show (s.writeidx : Int) = (s.readidx : Int) + _
      rw [cont_length]; omega
    · show s.xsize - s.writeidx ≤ s.xsize - (s.writeidx + n) + n; omega
  unalloc_law s n h hn := by
    have h1 := h.read
    have h2 := h.write
    rw [cont_length] at hn
    refine ⟨{ s with writeidx := s.writeidx - n }, ?_, ⟨?_, ?_⟩, ?_, ⟨0, rfl⟩⟩
    · show s.unalloc n = _
      rw [unalloc, if_pos hn]
    · show s.readidx ≤ s.writeidx - n; omega
    · show s.writeidx - n ≤ s.xsize; omega
    · rw [cont_length, pcont, pcont, slice_take _ _ _ _ (by omega)]
      show s.data.slice s.readidx (s.writeidx - n - s.readidx) = _
      congr 1; omega
  optpeekable_law s off h h0 h1 := by
    rw [hist_length] at h0
    rw [cont_length] at h1 ⊢
    show 0 < peekableOf s.used s.readidx off ∧ off + (peekableOf s.used s.readidx off : Nat) ≤ _
    unfold used
    rw [Circ.peekable_in _ _ _ h0 h1]; omega
  mutablepeek_law s off n h h0 h1 hn _ h2 := by
    have h2 : n ≤ peekableOf s.used s.readidx off := h2
    have h0' := h0
    have h1' := h1
    rw [hist_length] at h0'
    rw [cont_length] at h1'
    unfold used at h2
    rw [Circ.peekable_in _ _ _ h0' h1'] at h2
    obtain ⟨p, e1, e2⟩ := mutablepeek_law s off n h0 (by rw [cont_length]; omega) hn
    exact ⟨p, s, e1, h, rfl, rfl, rfl, e2, fun _ => trivial⟩
  peek_law s off n h h0 h1 hn _ _ := by
    obtain ⟨p, e1, e2⟩ := mutablepeek_law s off n h0 h1 hn
    exact ⟨p, s, e1, h, ⟨0, rfl⟩, fun _ => rfl, rfl, e2⟩
  at_bound s p off n ha := by
    rw [hist_length, cont_length]
    exact ⟨ha.1, ha.2.1⟩
  at_add s p off n k h ha hk := by
    obtain ⟨a1, a2, a3⟩ := ha
    refine ⟨by omega, by omega, ?_⟩
    intro h0
    obtain ⟨b1, b2⟩ := a3 (by omega)
    refine ⟨b1, by unfold Loc.add; dsimp only; omega⟩
  read_law s p off n m h ha hm := by
    have h1 := h.read
    have h2 := h.write
    obtain ⟨a1, a2, a3⟩ := ha
    rw [all_eq s h, hist_length, slice_drop, slice_take _ _ _ _ (by omega), Nat.zero_add]
    show (if m = 0 then _ else _) = _
    by_cases h0 : m = 0
    · subst h0; rfl
    · obtain ⟨b1, b2⟩ := a3 (by omega)
      rw [if_neg h0, if_pos ⟨b1, by omega⟩]
      congr 2; omega
  write_law s p off n d h ha hd := by
    have h1 := h.read
    have h2 := h.write
    obtain ⟨a1, a2, a3⟩ := ha
    show ∃ s', (if d = [] then _ else _) = _ ∧ _
    by_cases h0 : d = []
    · subst h0
      exact ⟨s, by simp, h, rfl, rfl, by simp [splice], ⟨a1, a2, a3⟩, fun _ => trivial⟩
    · have hlen : 0 < d.length := List.length_pos_iff.mpr h0
      obtain ⟨b1, b2⟩ := a3 (by omega)
      rw [if_neg h0, if_pos ⟨b1, by omega⟩]
      have hs' : PInv { s with data := s.data.put p.idx d } := ⟨h1, h2⟩
      refine ⟨_, rfl, hs', by rw [hist_length, hist_length], rfl, ?_, ⟨a1, a2, a3⟩, fun _ => trivial⟩
      rw [all_eq _ hs', all_eq s h, hist_length]
      have e : p.idx = 0 + (s.readidx + off).toNat := by omega
      dsimp only
      rw [e, slice_put _ _ _ _ _ (by omega)]

end InPlace
end Wv.Buf
