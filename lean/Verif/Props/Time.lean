import Verif.Model.Time
/- C36: time arithmetic. -/
namespace Props
open Wv.Time

/-- Microseconds within one second. -/
def NormalTime (t : T) : Prop := 0 ≤ t.usec ∧ t.usec < 1000000

theorem tdivmod (a b : Int) (hb : 0 < b) :
    (0 ≤ a ∧ a.tdiv b = a / b ∧ a.tmod b = a % b) ∨ (a < 0 ∧ a.tdiv b = -(-a / b) ∧ a.tmod b = -(-a % b)) := by
  by_cases h : a < 0
  · right
    refine ⟨h, ?_, ?_⟩
    · rw [← Int.neg_neg a, Int.neg_tdiv, Int.tdiv_eq_ediv_of_nonneg (by omega), Int.neg_neg]
    · rw [← Int.neg_neg a, Int.neg_tmod, Int.tmod_eq_emod_of_nonneg (by omega), Int.neg_neg]
  · left
    have h : 0 ≤ a := by omega
    exact ⟨h, Int.tdiv_eq_ediv_of_nonneg h, Int.tmod_eq_emod_of_nonneg h⟩

/-- C36 (normalize): same moment, microseconds within a second; unless the microseconds are a negative multiple of a
    million. -/
theorem C36_normalize_partial (t : T) (h : ¬ (t.usec < 0 ∧ t.usec % 1000000 = 0)) :
    toMicro (normalize t) = toMicro t ∧ NormalTime (normalize t) := by
  have := tdivmod t.usec 1000000 (by omega)
  unfold normalize NormalTime toMicro
  simp only
  rcases this with ⟨h1, h2, h3⟩ | ⟨h1, h2, h3⟩
  · rw [h2, h3, if_neg (by omega), if_neg (by omega)]
    constructor <;> omega
  · rw [h2, h3, if_pos h1]
    by_cases h4 : -(-t.usec % 1000000) < 0
    · rw [if_pos h4]; constructor <;> omega
    · omega

/-- C36: `normalize` loses a second for -1000000 microseconds. -/
theorem C36_normalize_fails : ¬ ∀ t, toMicro (normalize t) = toMicro t := by
  intro h
  exact absurd (h ⟨0, -1000000⟩) (by decide)

/-- C36 (msecadd): exact and normalised. -/
theorem C36_msecadd (a : T) (msec : Int) (ha : NormalTime a) :
    toMicro (msecadd a msec) = toMicro a + msec * 1000 ∧ NormalTime (msecadd a msec) := by
  unfold NormalTime at ha
  have h := tdivmod msec 1000 (by omega)
  have hn : ¬ ((a.usec + msec.tmod 1000 * 1000) < 0 ∧ (a.usec + msec.tmod 1000 * 1000) % 1000000 = 0) := by
    rcases h with ⟨h1, h2, h3⟩ | ⟨h1, h2, h3⟩ <;> rw [h3] <;> omega
  obtain ⟨e1, e2⟩ := C36_normalize_partial ⟨a.sec + msec.tdiv 1000, a.usec + msec.tmod 1000 * 1000⟩ hn
  refine ⟨?_, e2⟩
  unfold msecadd
  rw [e1]
  unfold toMicro
  simp only
  rcases h with ⟨h1, h2, h3⟩ | ⟨h1, h2, h3⟩ <;> rw [h2, h3] <;> omega

/-- C36 (tvdiff): exact and normalised. -/
theorem C36_tvdiff (a b : T) (ha : NormalTime a) (hb : NormalTime b) :
    toMicro (tvdiff a b) = toMicro a - toMicro b ∧ NormalTime (tvdiff a b) := by
  unfold NormalTime at ha hb
  unfold tvdiff
  simp only
  by_cases h : b.usec > a.usec
  · rw [if_pos h]
    obtain ⟨e1, e2⟩ := C36_normalize_partial ⟨a.sec - b.sec - 1, a.usec + 1000000 - b.usec⟩ (by simp only; omega)
    refine ⟨?_, e2⟩
    rw [e1]; unfold toMicro; simp only; omega
  · rw [if_neg h]
    obtain ⟨e1, e2⟩ := C36_normalize_partial ⟨a.sec - b.sec, a.usec - b.usec⟩ (by simp only; omega)
    refine ⟨?_, e2⟩
    rw [e1]; unfold toMicro; simp only; omega

/-- C36 (msecdiff): when the difference fits an int, the result is less than one millisecond away from it; beyond, the
    result is the nearest int. Missing: rounding towards zero, which is false, see `C36_msecdiff_truncates_fails`. -/
theorem C36_msecdiff_partial (a b : T) :
    (-2147483647000 ≤ toMicro a - toMicro b ∧ toMicro a - toMicro b ≤ 2147483647000 →
      (toMicro a - toMicro b) - 1000 < msecdiff a b * 1000 ∧ msecdiff a b * 1000 < (toMicro a - toMicro b) + 1000) ∧
    (2147483648000 ≤ toMicro a - toMicro b → msecdiff a b = 2147483647) ∧
    (toMicro a - toMicro b ≤ -2147483649000 → msecdiff a b = -2147483648) := by
  have h := tdivmod (a.usec - b.usec) 1000 (by omega)
  unfold msecdiff toMicro
  simp only
  rcases h with ⟨h1, h2, -⟩ | ⟨h1, h2, -⟩ <;> rw [h2] <;>
  · refine ⟨fun hr => ?_, fun hr => ?_, fun hr => ?_⟩ <;> split <;> (try split) <;> omega

/-- C36: the documentation says a difference of 0.9 gives 0 (include/wvtimeutils.h:37-40). For 1.0 s and 0.9995 s the
    difference is half a millisecond, and `msecdiff` returns 1. -/
theorem C36_msecdiff_truncates_fails :
    ¬ ∀ a b, NormalTime a → NormalTime b → msecdiff a b = (toMicro a - toMicro b).tdiv 1000 := by
  intro h
  exact absurd (h ⟨1, 0⟩ ⟨0, 999500⟩ (by unfold NormalTime; decide) (by unfold NormalTime; decide)) (by decide)

/-- C36: times made from a number of microseconds stand for that number, and order is the order of moments. -/
theorem C36_micro_roundtrip (t : Int) : toMicro (ofMicro t) = t := by
  have := tdivmod t 1000000 (by omega)
  unfold toMicro ofMicro
  simp only
  rcases this with ⟨h1, h2, h3⟩ | ⟨h1, h2, h3⟩ <;> rw [h2, h3] <;> omega

/-- C36 (stepped time): synchronising forward never moves the clock back, and never beyond the time of day if it was not
    there already. -/
theorem C36_sync_forward (cur now : T) :
    toMicro cur ≤ toMicro (syncForward cur now) ∧ toMicro now ≤ toMicro (syncForward cur now) ∧
    (syncForward cur now = cur ∨ syncForward cur now = now) := by
  unfold syncForward
  split
  · exact ⟨by omega, by omega, Or.inr rfl⟩
  · exact ⟨by omega, by omega, Or.inl rfl⟩

example : NormalTime ⟨1, 999999⟩ ∧ msecadd ⟨1, 999999⟩ (-2500) = ⟨-1, 499999⟩ := by
  constructor
  · unfold NormalTime; decide
  · decide

end Props
