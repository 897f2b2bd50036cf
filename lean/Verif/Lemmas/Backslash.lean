import Verif.Model.Backslash
import Verif.Spec.Backslash
import Verif.Lemmas.Basic
import Verif.Lemmas.Encoder
namespace Wv.Backslash
open Spec.Backslash

theorem encLoop_append (n a b : List Byte) : encLoop n (a ++ b) = encLoop n a ++ encLoop n b := by
  induction a with
  | nil => rfl
  | cons c a ih => simp [encLoop, ih]

theorem encoder_pure (n : List Byte) : (encoder n).Pure (fun s l => (s, encLoop n l)) where
  enc e io fl := ⟨true, rfl, fun _ => rfl⟩
  nil _ := rfl
  app _ a b := by simp [encLoop_append]

theorem decLoop_append (s : DSt) (a b : List Byte) :
    decLoop s (a ++ b) = ((decLoop (decLoop s a).1 b).1, (decLoop s a).2 ++ (decLoop (decLoop s a).1 b).2) := by
  induction a generalizing s with
  | nil => simp [decLoop]
  | cons c cs ih => simp [decLoop, ih]

/-- Between two bytes nothing is waiting in state Initial, and a known text is waiting in the others. -/
def DInv (s : DSt) : Prop :=
  match s.state with
  | .Initial => s.tmp = [] ∧ s.value = none
  | .Escape => s.tmp = [ch '\\'] ∧ s.value = none
  | .Hex1 => s.tmp = [ch '\\', ch 'x'] ∧ s.value = none
  | _ => s.tmp = [] ∧ s.value ≠ none

theorem tmp_le (s : DSt) (h : DInv s) : s.tmp.length + 1 ≤ 4 := by
  unfold DInv at h
  split at h <;> simp [h.1]

theorem inv_flush (s : DSt) (h : DInv s) : flushtmp s = (s, []) := by
  obtain ⟨st, tmp, v⟩ := s
  cases st <;> simp_all [flushtmp, DInv]

theorem flush_inv (s : DSt) (h : s.state = .Initial) : DInv (flushtmp s).1 := by
  simp [flushtmp, h, DInv]

theorem flush_state (s : DSt) : (flushtmp s).1.state = s.state := by
  unfold flushtmp; split <;> rfl

theorem switch_initial (s : DSt) (c : Byte) (h : DInv s) (hs : s.state = .Initial) :
    DInv (flushtmp (switch s c).1).1 := by
  obtain ⟨st, tmp, v⟩ := s
  simp only at hs; subst hs
  simp only [DInv] at h
  obtain ⟨rfl, rfl⟩ := h
  by_cases hc : c = ch '\\'
  · simp [switch, hc, flushtmp, DInv]
  · simp [switch, hc, flushtmp, DInv]

theorem decByte_inv (s : DSt) (c : Byte) (h : DInv s) : DInv (decByte s c).1 := by
  unfold decByte
  have key : ((switch s c).2 = true → (switch s c).1.state = .Initial) ∧
      ((switch s c).2 = false → DInv (flushtmp (switch s c).1).1) := by
    obtain ⟨st, tmp, v⟩ := s
    cases st
    · exact ⟨by simp [switch], fun _ => switch_initial _ c h rfl⟩
    · simp only [DInv] at h
      obtain ⟨rfl, rfl⟩ := h
      simp only [switch]
      split
      · simp [flushtmp, DInv]
      · split
        · rename_i h; simp [flushtmp, DInv, h]
        · split <;> simp [flushtmp, DInv]
    all_goals
      simp only [DInv] at h
      obtain ⟨rfl, hv⟩ := h
      simp only [switch]
      split <;> simp [flushtmp, DInv]
  rcases hsw : switch s c with ⟨s1, redo⟩
  rw [hsw] at key
  cases redo
  · simpa using key.2 rfl
  · simp only [if_true]
    have h1 := key.1 rfl
    have h2 := flush_inv s1 h1
    exact switch_initial _ c h2 (by rw [flush_state]; exact h1)

theorem decLoop_inv (s : DSt) (l : List Byte) (h : DInv s) : DInv (decLoop s l).1 := by
  induction l generalizing s with
  | nil => exact h
  | cons c l ih => exact ih _ (decByte_inv s c h)

theorem decoder_pure : decoder.PureOn DInv decLoop where
  enc e io h := by
    simp [decoder, dec_encode, inv_flush _ h]
  inv := decLoop_inv
  nil _ := rfl
  app := decLoop_append

theorem strchr_none (s : List Byte) (c : Byte) : strchrIdx s c = none ↔ c ∉ s := by
  simp only [strchrIdx, List.findIdx?_eq_none_iff, beq_eq_false_iff_ne]
  exact ⟨fun h hc => h c hc rfl, fun h x hx hxc => h (hxc ▸ hx)⟩

theorem strchr_isSome (s : List Byte) (c : Byte) : strchrIdx s c ≠ none ↔ c ∈ s := by
  rw [ne_eq, strchr_none]; simp

/-- The encoding of a byte not in the set of extra characters does not depend on the set. -/
theorem encByte_not_mem (n : List Byte) (c : Byte) (h : c ∉ n) : encByte n c = encByte [] c := by
  have h1 := (strchr_none n c).mpr h
  have h2 := (strchr_none [] c).mpr (by simp)
  simp only [encByte, h1, h2]

theorem encByte_mem (n : List Byte) (c : Byte) (h : c ∈ n) (h0 : c ≠ 0) : encByte n c = [ch '\\', c] := by
  have h1 := (strchr_isSome n c).mpr h
  simp [encByte, h0, h1]

theorem dec_enc_plain : ∀ c : Byte, c ≠ ch '\\' → decLoop {} (encByte [] c) = ({}, [c]) := by
  apply forall_byte
  decide +kernel

theorem dec_escaped : ∀ c : Byte, c ∉ str ['0', '1', '2', '3', 'x', 'a', 'b', 'f', 'n', 'r', 't', 'v'] →
    decLoop {} [ch '\\', c] = ({}, [c]) := by
  apply forall_byte
  decide +kernel

theorem dec_enc (n : List Byte) (hn : Good n) (c : Byte) : decLoop {} (encByte n c) = ({}, [c]) := by
  by_cases hc : c ∈ n
  · by_cases h0 : c = 0
    · subst h0
      have : encByte n 0 = encByte [] 0 := by simp [encByte]
      rw [this]; decide +kernel
    · rw [encByte_mem n c hc h0]
      apply dec_escaped
      intro h
      exact hn.2 c h hc
  · rw [encByte_not_mem n c hc]
    apply dec_enc_plain
    rintro rfl
    exact hc hn.1

theorem decLoop_encLoop (n : List Byte) (hn : Good n) (l : List Byte) : decLoop {} (encLoop n l) = ({}, l) := by
  induction l with
  | nil => rfl
  | cons c l ih => simp [encLoop, decLoop_append, dec_enc n hn c, ih]

theorem encByte_printable (n : List Byte) (c : Byte) : ∀ d ∈ encByte n c, isprint d = true ∨ d ∈ n := by
  by_cases hc : c ∈ n
  · by_cases h0 : c = 0
    · subst h0
      have : encByte n 0 = encByte [] 0 := by simp [encByte]
      rw [this]; intro d hd; left; revert d; decide +kernel
    · rw [encByte_mem n c hc h0]
      intro d hd
      simp at hd
      rcases hd with rfl | rfl
      · left; decide
      · right; exact hc
  · rw [encByte_not_mem n c hc]
    have : ∀ c : Byte, ∀ d ∈ encByte [] c, isprint d = true := by apply forall_byte; decide +kernel
    exact fun d hd => Or.inl (this c d hd)

theorem encLoop_printable (n l : List Byte) : ∀ d ∈ encLoop n l, isprint d = true ∨ d ∈ n := by
  induction l with
  | nil => simp [encLoop]
  | cons c l ih =>
    intro d hd
    simp only [encLoop, List.mem_append] at hd
    rcases hd with hd | hd
    · exact encByte_printable n c d hd
    · exact ih d hd

end Wv.Backslash
