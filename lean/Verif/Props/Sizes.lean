import Verif.Lemmas.Sizes
/- C75: sizes, durations and long numbers as people read them. -/
namespace Props
open Wv Wv.Sizes Spec.Sizes Spec.Num

namespace Sz

theorem no_wrap (g : Nat) (hg : g = 1000 ∨ g = 1024) (s k : Nat) (hk : k ≤ 6) (h : g ≤ s * g ^ k) :
    ¬ (s * g ^ k % W < g ∧ s * g ^ k % W ≥ s) := by
  rcases Nat.lt_or_ge s g with hs | hs
  · rcases hg with e | e <;> subst e
    · have : ∀ k < 7, ∀ s < 1000, 1000 ≤ s * 1000 ^ k → ¬ (s * 1000 ^ k % W < 1000 ∧ s * 1000 ^ k % W ≥ s) := by decide +kernel
      exact this k (by omega) s hs h
    · have : ∀ k < 7, ∀ s < 1024, 1024 ≤ s * 1024 ^ k → ¬ (s * 1024 ^ k % W < 1024 ∧ s * 1024 ^ k % W ≥ s) := by decide +kernel
      exact this k (by omega) s hs h
  · omega

theorem large (g : Nat) (s k : Nat) (h : g ≤ s * g ^ k) (hg : 0 < g) : g ≤ s ∨ (1 ≤ k ∧ 1 ≤ s) := by
  cases k with
  | zero => left; simpa using h
  | succ k =>
    right
    refine ⟨by omega, ?_⟩
    rcases Nat.eq_zero_or_pos s with e | e
    · subst e; simp at h; omega
    · exact e

theorem small (g : Nat) (hg : 1000 ≤ g) (hgu : g < W) (s k : Nat) (h : s * g ^ k < g) : s * g ^ k % W = s * g ^ k ∧ s * g ^ k ≥ s := by
  refine ⟨Nat.mod_eq_of_lt (by omega), ?_⟩
  exact Nat.le_mul_of_pos_right _ (Nat.pow_pos (by omega))

end Sz

/-- C75: blocks of `1000 ^ k` bytes. Less than 1000 bytes are counted; more are shown in tenths of the smallest unit that gives a number below 1000,
    rounded once from the exact number, as told, for less than `2 ^ 64` tenths of a block. -/
theorem C75_size_partial (s k : Nat) (m : Method) (hk : k ≤ 6) (hs : 10 * s < 2 ^ 64) :
    (s * 1000 ^ k < 1000 → sizetoa s (1000 ^ k) m = some (decimal ((s * 1000 ^ k : Nat) : Int) ++ str [' ', 'b', 'y', 't', 'e', 's'])) ∧
    (1000 ≤ s * 1000 ^ k → ∃ t, sizetoa s (1000 ^ k) m = some t ∧ Shown 1000 siUnit s k m t) := by
  unfold sizetoa
  constructor
  · intro h
    obtain ⟨h1, h2⟩ := Sz.small 1000 (by omega) (by decide) s k h
    dsimp only
    rw [h1, if_pos ⟨h, h2⟩, C32_print_unsigned]
  · intro h
    dsimp only
    rw [if_neg (Sz.no_wrap 1000 (Or.inl rfl) s k hk h)]
    exact sizetoa'_spec si 1000 siUnit si_table s k m hk (Sz.large 1000 s k h (by omega)) hs

example : sizetoa 1234567 1 .upAtHalf = some (str ['1', '.', '2', ' ', 'M', 'B']) ∧
    sizetoa 999950 1 .upAtHalf = some (tenths 10 (siUnit 2)) ∧ sizetoa 999949 1 .upAtHalf = some (tenths 9999 (siUnit 1)) ∧
    sizetoa 5 (1000 ^ 6) .down = some (str ['5', '.', '0', ' ', 'E', 'B']) := by
  have h : ∀ n, Num.ofUnsigned n = decimal (n : Int) := C32_print_unsigned
  refine ⟨?_, ?_, ?_, ?_⟩ <;> simp only [sizetoa, sizetoa', result, h] <;> decide +kernel

/-- C75: the same for powers of 1024. -/
theorem C75_size_iec_partial (s k : Nat) (m : Method) (hk : k ≤ 6) (hs : 10 * s < 2 ^ 64) :
    (s * 1024 ^ k < 1024 → sizeitoa s (1024 ^ k) m = some (decimal ((s * 1024 ^ k : Nat) : Int) ++ str [' ', 'b', 'y', 't', 'e', 's'])) ∧
    (1024 ≤ s * 1024 ^ k → ∃ t, sizeitoa s (1024 ^ k) m = some t ∧ Shown 1024 iecUnit s k m t) := by
  unfold sizeitoa
  constructor
  · intro h
    obtain ⟨h1, h2⟩ := Sz.small 1024 (by omega) (by decide) s k h
    dsimp only
    rw [h1, if_pos ⟨h, h2⟩, C32_print_unsigned]
  · intro h
    dsimp only
    rw [if_neg (Sz.no_wrap 1024 (Or.inr rfl) s k hk h)]
    exact sizetoa'_spec iec 1024 iecUnit iec_table s k m hk (Sz.large 1024 s k h (by omega)) hs

example : sizeitoa (3 * 1024 * 1024 / 2) 1 .down = some (str ['1', '.', '5', ' ', 'M', 'i', 'B']) := by
  have h : ∀ n, Num.ofUnsigned n = decimal (n : Int) := C32_print_unsigned
  simp only [sizeitoa, sizetoa', result, h]; decide +kernel

/-- C75: sizes that are given in kilobytes. -/
theorem C75_kilobytes_partial (s : Nat) (m : Method) (hs : 10 * s < 2 ^ 64) :
    (s < 1000 → sizektoa s m = some (decimal (s : Int) ++ str [' ', 'k', 'B'])) ∧
    (1000 ≤ s → ∃ t, sizektoa s m = some t ∧ Shown 1000 siUnit s 1 m t) ∧
    (s < 1024 → sizekitoa s m = some (decimal (s : Int) ++ str [' ', 'K', 'i', 'B'])) ∧
    (1024 ≤ s → ∃ t, sizekitoa s m = some t ∧ Shown 1024 iecUnit s 1 m t) := by
  unfold sizektoa sizekitoa
  refine ⟨fun h => by rw [if_pos h, C32_print_unsigned], fun h => ?_, fun h => by rw [if_pos h, C32_print_unsigned], fun h => ?_⟩
  · rw [if_neg (by omega)]
    have := (C75_size_partial s 1 m (by omega) hs).2 (by omega)
    simpa using this
  · rw [if_neg (by omega)]
    have := (C75_size_iec_partial s 1 m (by omega) hs).2 (by omega)
    simpa using this

/-- C75 fails for large numbers and other blocks: the tenths wrap around without this being seen, so that `2 ^ 61` bytes, 2.3 EB, are
    461.2 PB; 1234 blocks of 512 bytes, 631.8 kB, are 614.4 kB; and two blocks of `2 ^ 63 + 1` bytes are 2 bytes. -/
theorem C75_size_fails :
    sizetoa (2 ^ 61) 1 .upAtHalf = some (str ['4', '6', '1', '.', '2', ' ', 'P', 'B']) ∧
    sizetoa 1234 512 .upAtHalf = some (str ['6', '1', '4', '.', '4', ' ', 'k', 'B']) ∧
    sizetoa 2 (2 ^ 63 + 1) .upAtHalf = some (str ['2', ' ', 'b', 'y', 't', 'e', 's']) := by
  have h : ∀ n, Num.ofUnsigned n = decimal (n : Int) := C32_print_unsigned
  refine ⟨?_, ?_, ?_⟩ <;> simp only [sizetoa, sizetoa', result, h] <;> decide +kernel

/-- C75: a duration. -/
theorem C75_duration (t : Nat) : secondstoa t = duration t := by
  have hd : t / 86400 = t / (3600 * 24) := rfl
  have hh : t / 3600 % 24 = t % (3600 * 24) / 3600 := by omega
  have hm : t / 60 % 60 = t % (3600 * 24) % 3600 / 60 := by omega
  have hz : t < 60 ↔ (t / (3600 * 24) = 0 ∧ t % (3600 * 24) / 3600 = 0 ∧ t % (3600 * 24) % 3600 / 60 = 0) := by omega
  have hsec : t < 60 → t % (3600 * 24) % 3600 % 60 = t := by omega
  unfold secondstoa duration
  rw [hd, hh, hm]
  dsimp only
  generalize t / (3600 * 24) = D at *
  generalize t % (3600 * 24) / 3600 = H at *
  generalize t % (3600 * 24) % 3600 / 60 = M at *
  generalize t % (3600 * 24) % 3600 % 60 = S at *
  simp only [C32_print_unsigned]
  rcases Nat.lt_or_ge t 60 with ht | ht
  · obtain ⟨rfl, rfl, rfl⟩ := hz.1 ht
    rw [if_pos ht, hsec ht]
    simp only [Nat.lt_irrefl, gt_iff_lt, if_false, and_self, if_true, List.nil_append]
    unfold count
    by_cases h1 : t = 1
    · subst h1; decide +kernel
    · rw [if_pos h1, if_neg h1]; simp [str]
  · have hn : ¬ (D = 0 ∧ H = 0 ∧ M = 0) := fun h => by have := hz.2 h; omega
    rw [if_neg (by omega : ¬ t < 60), if_neg hn]
    have plural : ∀ (n : Nat) (a b w : List Byte), 0 < n → a = str [' '] ++ w ++ str ['s'] → b = str [' '] ++ w →
        decimal (n : Int) ++ (if n > 1 then a else b) = count n w := by
      intro n a b w hn ha hb
      unfold count
      by_cases h1 : n = 1
      · subst h1; simp [hb]
      · rw [if_pos (by omega), if_neg h1, ha]; simp
    have pd := fun h => plural D (str [' ', 'd', 'a', 'y', 's']) (str [' ', 'd', 'a', 'y']) (str ['d', 'a', 'y']) h rfl rfl
    have ph := fun h => plural H (str [' ', 'h', 'o', 'u', 'r', 's']) (str [' ', 'h', 'o', 'u', 'r']) (str ['h', 'o', 'u', 'r']) h rfl rfl
    have pm := fun h => plural M (str [' ', 'm', 'i', 'n', 'u', 't', 'e', 's']) (str [' ', 'm', 'i', 'n', 'u', 't', 'e'])
      (str ['m', 'i', 'n', 'u', 't', 'e']) h rfl rfl
    have b0 : between 0 = [] := by decide
    have b1 : between 1 = str [' ', 'a', 'n', 'd', ' '] := by decide
    have b2 : between 2 = str [',', ' '] := by decide
    clear plural hz hsec hn hd hh hm ht
    by_cases h1 : D = 0 <;> by_cases h2 : H = 0 <;> by_cases h3 : M = 0
    all_goals
      first
      | (have pd := pd (Nat.pos_of_ne_zero h1)
         generalize (if D > 1 then str [' ', 'd', 'a', 'y', 's'] else str [' ', 'd', 'a', 'y']) = xd at *
         have q1 : D > 0 := Nat.pos_of_ne_zero h1
         simp only [if_pos q1, if_neg h1])
      | (subst h1; simp only [Nat.lt_irrefl, gt_iff_lt, if_false, if_true])
      first
      | (have ph := ph (Nat.pos_of_ne_zero h2)
         generalize (if H > 1 then str [' ', 'h', 'o', 'u', 'r', 's'] else str [' ', 'h', 'o', 'u', 'r']) = xh at *
         have q2 : H > 0 := Nat.pos_of_ne_zero h2
         simp only [if_pos q2, if_neg h2])
      | (subst h2; simp only [Nat.lt_irrefl, gt_iff_lt, if_false, if_true])
      first
      | (have pm := pm (Nat.pos_of_ne_zero h3)
         generalize (if M > 1 then str [' ', 'm', 'i', 'n', 'u', 't', 'e', 's'] else str [' ', 'm', 'i', 'n', 'u', 't', 'e']) = xm at *
         have q3 : M > 0 := Nat.pos_of_ne_zero h3
         simp only [if_pos q3, if_neg h3])
      | (subst h3; simp only [Nat.lt_irrefl, gt_iff_lt, if_false, if_true])
      try simp only [pd]
      simp [inARow, b0, b1, b2, ← ph, ← pm, ← pd]

example : secondstoa 93784 = str ['1', ' ', 'd', 'a', 'y', ',', ' ', '2', ' ', 'h', 'o', 'u', 'r', 's', ' ', 'a', 'n', 'd', ' ', '3', ' ', 'm', 'i', 'n', 'u', 't', 'e', 's'] := by
  rw [C75_duration]; decide +kernel

/-- C75: a number in groups of three digits; the buffer is as large as the text. -/
theorem C75_grouped_partial (i : Int) (h0 : i ≠ 0) (h : -(2 ^ 63) < i) (h' : i < 2 ^ 63) :
    ∃ t, metriculate i = some ((if i < 0 then str ['-'] else []) ++ t) ∧ Grouped (decimal (i.natAbs : Int)) t ∧
      ((if i < 0 then str ['-'] else []) ++ t).length = metricSize i := by
  have hj : 0 < i.natAbs := by omega
  have hw : i.natAbs < 10 ^ 20 := by
    have : (10 : Nat) ^ 20 = 100000000000000000000 := by decide
    omega
  have hdec : decimal (i.natAbs : Int) = Num.dec i.natAbs := by
    unfold decimal
    rw [if_neg (by omega)]
    rfl
  have hdc := digitCount_spec i.natAbs 20 hw hj
  have hl := metricLoop_spec (Num.dec i.natAbs).length i.natAbs (Num.dec i.natAbs).length 0 [] hj rfl rfl (by omega)
  simp only [Nat.lt_irrefl, and_false, if_false, spaced, List.append_nil] at hl
  refine ⟨spaced (Num.dec i.natAbs), ?_, ?_, ?_⟩
  · unfold metriculate
    dsimp only
    rw [if_neg (by omega), hdc, hl]
  · rw [hdec]
    exact spaced_grouped _ (Num.dec_ne_nil _)
  · unfold metricSize
    dsimp only
    rw [List.length_append, spaced_length, hdc]
    by_cases hi : i < 0
    · simp only [if_pos hi, str, List.length_map, List.length_cons, List.length_nil]; omega
    · simp only [if_neg hi, List.length_nil]; omega

example : metriculate 9876543210 = some (str ['9', ' ', '8', '7', '6', ' ', '5', '4', '3', ' ', '2', '1', '0']) ∧
    metriculate (-123456) = some (str ['-', '1', '2', '3', ' ', '4', '5', '6']) := by decide +kernel

/-- C75 fails for 0, which has no digits. -/
theorem C75_zero_fails : metriculate 0 = some [] := by decide +kernel

end Props
