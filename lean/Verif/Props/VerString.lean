import Verif.Lemmas.VerString
/-
C37: version numbers round trip.
-/
namespace Props
open Wv Wv.Ver

theorem ver_masks (v : Nat) : (v &&& 0xFFFF0000) >>> 16 = v / 65536 % 65536 ∧ v &&& 0x0000FFFF = v % 65536 ∧
    (v &&& 0xFF000000) >>> 24 = v / 16777216 % 256 ∧ (v &&& 0x00FF0000) >>> 16 = v / 65536 % 256 := by
  have h16 : ∀ x : Nat, x &&& 0xFFFF = x % 65536 := fun x => Nat.and_two_pow_sub_one_eq_mod x 16
  have h8 : ∀ x : Nat, x &&& 0xFF = x % 256 := fun x => Nat.and_two_pow_sub_one_eq_mod x 8
  refine ⟨?_, h16 v, ?_, ?_⟩
  · rw [Nat.shiftRight_and_distrib, Nat.shiftRight_eq_div_pow, show (0xFFFF0000 >>> 16 : Nat) = 0xFFFF from rfl, h16]
  · rw [Nat.shiftRight_and_distrib, Nat.shiftRight_eq_div_pow, show (0xFF000000 >>> 24 : Nat) = 0xFF from rfl, h8]
  · rw [Nat.shiftRight_and_distrib, Nat.shiftRight_eq_div_pow, show (0x00FF0000 >>> 16 : Nat) = 0xFF from rfl, h8]

theorem hex1_nibbles (n : Nat) (h : n < 256) : ∃ m : List Nat, hex 1 n = m.map hexchar ∧ (∀ d ∈ m, d < 16) ∧
    m.length ≤ 2 ∧ val m = n := by
  rw [hex1_eq n h]
  by_cases h1 : n < 16
  · exact ⟨[n], by simp [h1], by simp [h1], by simp, by simp [val]⟩
  · exact ⟨[n / 16, n % 16], by simp [h1], by simp; omega, by simp, by simp [val]; omega⟩

theorem hex4_nibbles (n : Nat) (h : n < 65536) : ∃ a b c d, a < 16 ∧ b < 16 ∧ c < 16 ∧ d < 16 ∧
    hex 4 n = [a, b, c, d].map hexchar ∧ val [a, b, c, d] = n := by
  refine ⟨n / 16 / 16 / 16 % 16, n / 16 / 16 % 16, n / 16 % 16, n % 16, by omega, by omega, by omega, by omega, ?_, ?_⟩
  · rw [hex_eq 4 n (by omega)]; rfl
  · simp [val]; omega

theorem hex2_nibbles (n : Nat) (h : n < 256) : ∃ e f, e < 16 ∧ f < 16 ∧
    hex 2 n = [e, f].map hexchar ∧ val [e, f] = n := by
  refine ⟨n / 16 % 16, n % 16, by omega, by omega, ?_, ?_⟩
  · rw [hex_eq 2 n (by omega)]; rfl
  · simp [val]; omega

/-- C37: string_to_ver of ver_to_string is the version number, for each 32 bit number. -/
theorem C37_ver_roundtrip (v : Nat) (h : v < 2 ^ 32) : Ver.ofString (Ver.toString v) = v := by
  obtain ⟨m1, m2, m3, m4⟩ := ver_masks v
  obtain ⟨a, b, c, d, ha, hb, hc, hd, h4, hv4⟩ := hex4_nibbles (v % 65536) (by omega)
  unfold Ver.toString
  cases hn : isNew v
  · have hsmall : v / 16777216 % 256 = 0 := by
      have : v &&& 0xFF000000 = 0 := by simpa [isNew] using hn
      rw [← m3, this]; rfl
    rw [if_neg (by simp)]
    unfold oldToString
    rw [m1, m2]
    obtain ⟨m, hm, hm1, hm2, hm3⟩ := hex1_nibbles (v / 65536 % 65536) (by omega)
    rw [hm, h4, trim_eq _ a b c d ha hb hc hd]
    have ht : ∀ x ∈ trim4 a b c d, x < 16 := by
      unfold trim4
      intro x hx
      repeat' split at hx
      all_goals simp at hx; omega
    unfold Ver.ofString
    rw [isNewStr_one m _ hm1 ht]
    simp only [Bool.false_eq_true, if_false]
    rw [oldOfString_eq m a b c d hm1 (by omega) (by omega) ha hb hc hd, hm3, hv4]
    omega
  · rw [if_pos rfl]
    unfold newToString
    rw [m2, m3, m4]
    obtain ⟨m, hm, hm1, hm2, hm3⟩ := hex1_nibbles (v / 16777216 % 256) (by omega)
    obtain ⟨e, f, he, hf, h2, hv2⟩ := hex2_nibbles (v / 65536 % 256) (by omega)
    rw [hm, h4, h2]
    unfold Ver.ofString
    rw [isNewStr_two m [e, f] _ hm1, if_pos rfl,
      newOfString_eq m e f a b c d hm1 hm2 (by omega) he hf ha hb hc hd, hm3, hv2, hv4]
    omega

/-- C37 (memory): the text and its NUL fit in the static buffers of 10 and 11 bytes. -/
theorem C37_ver_fits (v : Nat) (h : v < 2 ^ 32) :
    (isNew v = false → (Ver.toString v).length + 1 ≤ 10) ∧ (isNew v = true → (Ver.toString v).length + 1 ≤ 11) := by
  obtain ⟨m1, m2, m3, m4⟩ := ver_masks v
  obtain ⟨a, b, c, d, ha, hb, hc, hd, h4, hv4⟩ := hex4_nibbles (v % 65536) (by omega)
  unfold Ver.toString
  constructor
  · intro hn
    have hsmall : v / 16777216 % 256 = 0 := by
      have : v &&& 0xFF000000 = 0 := by simpa [isNew] using hn
      rw [← m3, this]; rfl
    rw [hn, if_neg (by simp)]
    unfold oldToString
    rw [m1, m2]
    obtain ⟨m, hm, hm1, hm2, hm3⟩ := hex1_nibbles (v / 65536 % 65536) (by omega)
    rw [hm, h4, trim_eq _ a b c d ha hb hc hd]
    have hlen : (trim4 a b c d).length ≤ 4 := by
      unfold trim4
      repeat' split
      all_goals simp
    simp; omega
  · intro hn
    rw [hn, if_pos rfl]
    unfold newToString
    rw [m2, m3, m4]
    obtain ⟨m, hm, hm1, hm2, hm3⟩ := hex1_nibbles (v / 16777216 % 256) (by omega)
    obtain ⟨e, f, he, hf, h2, hv2⟩ := hex2_nibbles (v / 65536 % 256) (by omega)
    rw [hm, h4, h2]
    simp; omega

example : Ver.toString 0x00012a00 = str ['1', '.', '2', 'a'] := by
  simp [Ver.toString, isNew, oldToString, hex, hexFrom]
  decide +kernel

end Props
