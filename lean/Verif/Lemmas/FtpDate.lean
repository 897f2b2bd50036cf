import Verif.Model.Ftp
import Verif.Spec.Ftp
/- Lemmas about the calendar. -/
namespace Wv.FtpDate
open Wv.Ftp Spec.Ftp

theorem leap_iff (y : Nat) : leap y = true ↔ y % 4 = 0 ∧ (y % 100 ≠ 0 ∨ y % 400 = 0) := by
  simp [leap]

theorem yearLen (y : Nat) : monthStart y 12 = if leap y = true then 366 else 365 := by
  simp only [monthStart, monthLen]
  split <;> rfl

theorem yearStart_eq (y : Nat) : yearStart y + (y + 99) / 100 = 365 * y + (y + 3) / 4 + (y + 399) / 400 := by
  induction y with
  | zero => rfl
  | succ y ih =>
    rw [yearStart, yearLen]
    by_cases h : leap y = true
    · rw [if_pos h]; rw [leap_iff] at h; omega
    · rw [if_neg h]; rw [leap_iff] at h; omega

/-- The days from March on. -/
def off (k : Nat) : Nat := (306 * k + 5) / 10

/-- The days up to the first of March of a year. -/
theorem marchStart (y : Nat) : yearStart y + monthStart y 2 + y / 100 = 60 + 365 * y + y / 4 + y / 400 := by
  have h := yearStart_eq y
  simp only [monthStart, monthLen]
  by_cases hl : leap y = true
  · rw [if_pos hl]; rw [leap_iff] at hl; omega
  · rw [if_neg hl]; rw [leap_iff] at hl; omega

theorem late (y m : Nat) (h2 : 2 ≤ m) (h : m < 12) : monthStart y m = monthStart y 2 + off (m - 2) := by
  match m, h2, h with
  | 2, _, _ => rfl
  | 3, _, _ => simp [monthStart, monthLen, off]
  | 4, _, _ => simp [monthStart, monthLen, off]
  | 5, _, _ => simp [monthStart, monthLen, off]
  | 6, _, _ => simp [monthStart, monthLen, off]
  | 7, _, _ => simp [monthStart, monthLen, off]
  | 8, _, _ => simp [monthStart, monthLen, off]
  | 9, _, _ => simp [monthStart, monthLen, off]
  | 10, _, _ => simp [monthStart, monthLen, off]
  | 11, _, _ => simp [monthStart, monthLen, off]

theorem early (y m : Nat) (h : m < 2) : yearStart (y + 1) + monthStart (y + 1) m = yearStart y + monthStart y 2 + off (m + 10) := by
  have hy : monthStart y 12 = monthStart y 2 + off 10 := by
    rw [yearLen]; simp only [monthStart, monthLen, off]; split <;> rfl
  have e : yearStart (y + 1) = yearStart y + monthStart y 12 := rfl
  rw [e, hy]
  match m, h with
  | 0, _ => show _ + 0 = _ + off 10; omega
  | 1, _ =>
    have h1 : monthStart (y + 1) 1 = 31 := rfl
    have h2 : off (1 + 10) = off 10 + 31 := rfl
    rw [h1, h2]; omega

/-- A day, counted from March. -/
theorem day_march (y m d : Nat) (hy : 1 ≤ y) (hm : m < 12) (hd : 1 ≤ d) :
    ∃ y' k : Nat, march (y : Int) (m : Int) = ((y' : Int), (k : Int)) ∧ k < 12 ∧ y ≤ y' + 1 ∧ y' ≤ y ∧
      day y m d + y' / 100 = 60 + 365 * y' + y' / 4 + y' / 400 + off k + (d - 1) ∧ (k = 11 ↔ m = 1) ∧ (m = 1 → y = y' + 1) := by
  by_cases h : 2 ≤ m
  · refine ⟨y, m - 2, ?_, by omega, by omega, by omega, ?_, by omega, by omega⟩
    · unfold march
      rw [if_pos (show (m : Int) ≥ 2 by omega)]
      have : ((m - 2 : Nat) : Int) = (m : Int) - 2 := by omega
      rw [this]
    · have h1 := late y m h hm
      have h2 := marchStart y
      simp only [day]
      omega
  · obtain ⟨z, rfl⟩ : ∃ z, y = z + 1 := ⟨y - 1, by omega⟩
    refine ⟨z, m + 10, ?_, by omega, by omega, by omega, ?_, by omega, by omega⟩
    · unfold march
      rw [if_neg (show ¬ (m : Int) ≥ 2 by omega)]
      have : ((z + 1 : Nat) : Int) - 1 = (z : Int) := by omega
      have : ((m + 10 : Nat) : Int) = (m : Int) + 10 := by omega
      rw [‹((z + 1 : Nat) : Int) - 1 = (z : Int)›, this]
    · have h1 := early z m (by omega)
      have h2 := marchStart z
      simp only [day]
      omega

theorem tdiv_nat (a b : Nat) : (a : Int).tdiv (b : Int) = ((a / b : Nat) : Int) := rfl
theorem tmod_nat (a b : Nat) : (a : Int).tmod (b : Int) = ((a % b : Nat) : Int) := rfl

/-- What `totai` computes from a year and a day that are counted from March. -/
def total (y R : Nat) : Int :=
  let a : Nat × Nat := if R = 365 then (y - 3, 1460) else (y, R + 365 * (y % 4))
  let p := a.1 / 4
  let r := a.2 + 1461 * (p % 25)
  let q := p / 25
  let b : Nat × Nat := if r = 36524 then (q - 3, 146096) else (q, r + 36524 * (q % 4))
  ((b.2 : Int) + 146097 * (((b.1 / 4 : Nat) : Int) - 5) + 11017) * 86400

theorem totai_total (y m d y' k : Nat) (h : march (y : Int) (m : Int) = ((y' : Int), (k : Int))) (hd : 1 ≤ d) (hy : 400 ≤ y') :
    totai y m d = total y' (off k + (d - 1)) := by
  have hr : (((d : Int) - 1) * 10 + 5 + 306 * (k : Int)).tdiv 10 = ((off k + (d - 1) : Nat) : Int) := by
    have : ((d : Int) - 1) * 10 + 5 + 306 * (k : Int) = (((d - 1) * 10 + 5 + 306 * k : Nat) : Int) := by omega
    rw [this, show (10 : Int) = ((10 : Nat) : Int) from rfl, tdiv_nat]
    congr 1
    unfold off
    omega
  unfold totai total
  rw [h]
  simp only [hr]
  generalize off k + (d - 1) = R
  have e1 : (if (R : Int) = 365 then ((y' : Int) - 3, (1460 : Int)) else ((y' : Int), (R : Int) + 365 * (y' : Int).tmod 4)) =
      ((((if R = 365 then (y' - 3, 1460) else (y', R + 365 * (y' % 4)) : Nat × Nat).1 : Nat) : Int),
        (((if R = 365 then (y' - 3, 1460) else (y', R + 365 * (y' % 4)) : Nat × Nat).2 : Nat) : Int)) := by
    by_cases hR : R = 365
    · rw [if_pos hR, if_pos (by omega)]
      have : ((y' - 3 : Nat) : Int) = (y' : Int) - 3 := by omega
      rw [this]; rfl
    · rw [if_neg hR, if_neg (by omega), show (4 : Int) = ((4 : Nat) : Int) from rfl, tmod_nat]
      congr 1
  rw [e1]
  have hA : 397 ≤ (if R = 365 then (y' - 3, 1460) else (y', R + 365 * (y' % 4)) : Nat × Nat).1 := by split <;> simp <;> omega
  generalize (if R = 365 then (y' - 3, 1460) else (y', R + 365 * (y' % 4)) : Nat × Nat) = a at hA
  simp only
  rw [show (4 : Int) = ((4 : Nat) : Int) from rfl, tdiv_nat, show (25 : Int) = ((25 : Nat) : Int) from rfl, tmod_nat, tdiv_nat]
  have hr2 : (a.2 : Int) + 1461 * ((a.1 / 4 % 25 : Nat) : Int) = ((a.2 + 1461 * (a.1 / 4 % 25) : Nat) : Int) := by omega
  rw [hr2]
  generalize a.2 + 1461 * (a.1 / 4 % 25) = r
  have hq : 3 ≤ a.1 / 4 / 25 := by omega
  generalize a.1 / 4 / 25 = q at hq
  rw [tmod_nat]
  have e2 : (if (r : Int) = 36524 then ((q : Int) - 3, (146096 : Int)) else ((q : Int), (r : Int) + 36524 * ((q % 4 : Nat) : Int))) =
      ((((if r = 36524 then (q - 3, 146096) else (q, r + 36524 * (q % 4)) : Nat × Nat).1 : Nat) : Int),
        (((if r = 36524 then (q - 3, 146096) else (q, r + 36524 * (q % 4)) : Nat × Nat).2 : Nat) : Int)) := by
    by_cases hR : r = 36524
    · rw [if_pos hR, if_pos (by omega)]
      have : ((q - 3 : Nat) : Int) = (q : Int) - 3 := by omega
      rw [this]; rfl
    · rw [if_neg hR, if_neg (by omega)]
      congr 1
  rw [e2]
  simp only [tdiv_nat]

theorem total_eq (y R : Nat) (hR : R ≤ 367) (hy : 400 ≤ y) (h : R = 365 → leap (y + 1) = true) :
    total y R = 86400 * ((R : Int) + 365 * y + ((y / 4 : Nat) : Int) - ((y / 100 : Nat) : Int) + ((y / 400 : Nat) : Int) - 719468) := by
  unfold total
  by_cases h365 : R = 365
  · rw [if_pos h365]
    have hl := h h365
    rw [leap_iff] at hl
    dsimp only
    by_cases hc : 1460 + 1461 * ((y - 3) / 4 % 25) = 36524
    · rw [if_pos hc]; dsimp only; omega
    · rw [if_neg hc]; dsimp only; omega
  · rw [if_neg h365]
    dsimp only
    have : ¬ R + 365 * (y % 4) + 1461 * (y / 4 % 25) = 36524 := by
      have ha : y % 4 = 0 ∨ y % 4 = 1 ∨ y % 4 = 2 ∨ y % 4 = 3 := by omega
      have hb : y / 4 % 25 < 25 := by omega
      generalize y / 4 % 25 = b at hb
      rcases ha with ha | ha | ha | ha <;> rw [ha] <;> omega
    rw [if_neg this]
    dsimp only
    omega

theorem total_le (y R : Nat) (hR : R ≤ 367) (hy : 400 ≤ y) :
    total y R ≤ 86400 * ((R : Int) + 365 * y + ((y / 4 : Nat) : Int) - ((y / 100 : Nat) : Int) + ((y / 400 : Nat) : Int) - 719468) := by
  by_cases h365 : R = 365 → leap (y + 1) = true
  · rw [total_eq y R hR hy h365]; exact Int.le_refl _
  · have h1 : R = 365 := by
      cases Nat.decEq R 365 with
      | isTrue h => exact h
      | isFalse h => exact absurd (fun e => absurd e h) h365
    have hl : ¬ leap (y + 1) = true := fun h => h365 fun _ => h
    rw [leap_iff] at hl
    unfold total
    rw [if_pos h1]
    dsimp only
    by_cases hc : 1460 + 1461 * ((y - 3) / 4 % 25) = 36524
    · rw [if_pos hc]; dsimp only; omega
    · rw [if_neg hc]; dsimp only; omega

theorem seconds_eq (y m d : Nat) : seconds y m d = 86400 * ((day y m d : Int) - 719528) := by
  have : day 1970 0 1 = 719528 := by
    have := yearStart_eq 1970
    simp only [day, monthStart]; omega
  rw [seconds, this]; rfl

theorem off_feb (k d : Nat) (hk : k < 12) (hd : 1 ≤ d) (hd31 : d ≤ 31) : off k + (d - 1) ≤ 367 ∧ (off k + (d - 1) = 365 ↔ k = 11 ∧ d = 29) := by
  have : k = 0 ∨ k = 1 ∨ k = 2 ∨ k = 3 ∨ k = 4 ∨ k = 5 ∨ k = 6 ∨ k = 7 ∨ k = 8 ∨ k = 9 ∨ k = 10 ∨ k = 11 := by omega
  rcases this with h | h | h | h | h | h | h | h | h | h | h | h <;> subst h <;> unfold off <;>
    refine ⟨by omega, ?_⟩ <;> constructor <;> intro h <;> omega

theorem monthLen_le (y m : Nat) : monthLen y m ≤ 31 := by
  unfold monthLen
  split <;> first | omega | (split <;> omega)

/-- `totai` is right. -/
theorem totai_eq (y m d : Nat) (hy : 401 ≤ y) (hv : Valid y m d) : totai y m d = seconds y m d := by
  obtain ⟨hm, hd, hl⟩ := hv
  obtain ⟨y', k, h1, h2, h3, h4, h5, h6, h7⟩ := day_march y m d (by omega) hm hd
  have hd31 := monthLen_le y m
  obtain ⟨o1, o2⟩ := off_feb k d h2 hd (by omega)
  rw [totai_total y m d y' k h1 hd (by omega), total_eq y' _ o1 (by omega) ?_, seconds_eq]
  · omega
  · intro h
    obtain ⟨e1, e2⟩ := o2.mp h
    have em := h6.mp e1
    subst em
    rw [← h7 rfl]
    subst e2
    unfold monthLen at hl
    by_cases hle : leap y = true
    · exact hle
    · simp [hle] at hl

/-- For a day that does not exist, `totai` is not after where it would be. -/
theorem totai_le (y m d : Nat) (hy : 401 ≤ y) (hm : m < 12) (hd : 1 ≤ d) (hd31 : d ≤ 31) : totai y m d ≤ seconds y m d := by
  obtain ⟨y', k, h1, h2, h3, h4, h5, h6, h7⟩ := day_march y m d (by omega) hm hd
  obtain ⟨o1, o2⟩ := off_feb k d h2 hd hd31
  have := total_le y' _ o1 (by omega)
  rw [totai_total y m d y' k h1 hd (by omega), seconds_eq]
  omega

/-- The same day of an earlier year is at least 365 days earlier. -/
theorem day_mono (y y' m d : Nat) (h : y < y') (hm : m < 12) (hy : 1 ≤ y) (hd : 1 ≤ d) : day y m d + 365 ≤ day y' m d := by
  obtain ⟨a, k, h1, h2, h3, h4, h5, h6, h7⟩ := day_march y m d hy hm hd
  obtain ⟨a', k', h1', h2', h3', h4', h5', h6', h7'⟩ := day_march y' m d (by omega) hm hd
  have hk : k = k' ∧ a < a' := by
    unfold march at h1 h1'
    by_cases hm2 : (m : Int) ≥ 2
    · rw [if_pos hm2] at h1 h1'
      have e1 := congrArg Prod.fst h1
      have e2 := congrArg Prod.snd h1
      have e3 := congrArg Prod.fst h1'
      have e4 := congrArg Prod.snd h1'
      simp only at e1 e2 e3 e4
      omega
    · rw [if_neg hm2] at h1 h1'
      have e1 := congrArg Prod.fst h1
      have e2 := congrArg Prod.snd h1
      have e3 := congrArg Prod.fst h1'
      have e4 := congrArg Prod.snd h1'
      simp only at e1 e2 e3 e4
      omega
  obtain ⟨rfl, hk2⟩ := hk
  omega

theorem floor_day (now : Int) : (if now.tmod 86400 < 0 then now.tdiv 86400 - 1 else now.tdiv 86400) = now / 86400 := by
  have h := Int.mul_tdiv_add_tmod now 86400
  have h2 := Int.tmod_lt_of_pos now (show (0 : Int) < 86400 by decide)
  have h3 : -86400 < now.tmod 86400 := by
    have := Int.tmod_lt_of_pos (-now) (show (0 : Int) < 86400 by decide)
    rw [Int.neg_tmod] at this
    omega
  split <;> omega

theorem floor_cycle (d : Int) : (if d.tmod 146097 < 0 then (5 + d.tdiv 146097 - 1, d.tmod 146097 + 146097) else (5 + d.tdiv 146097, d.tmod 146097)) =
    (5 + d / 146097, d % 146097) := by
  have h := Int.mul_tdiv_add_tmod d 146097
  have h2 := Int.tmod_lt_of_pos d (show (0 : Int) < 146097 by decide)
  have h3 : -146097 < d.tmod 146097 := by
    have := Int.tmod_lt_of_pos (-d) (show (0 : Int) < 146097 by decide)
    rw [Int.neg_tmod] at this
    omega
  split <;> congr 1 <;> omega

/-- The year of a day. -/
theorem yearOf_spec (now : Int) (h : -62135596800 ≤ now) :
    ∃ y : Nat, yearOf now = y ∧ seconds y 0 1 ≤ now ∧ now < seconds (y + 1) 0 1 := by
  unfold yearOf
  simp only [floor_day, floor_cycle]
  have hq : ∃ q e : Int, (now / 86400 - 11017) / 146097 = q ∧ (now / 86400 - 11017) % 146097 = e := ⟨_, _, rfl, rfl⟩
  obtain ⟨q, e, hq, he⟩ := hq
  rw [hq, he]
  have he0 : 0 ≤ e := by omega
  have he1 : e < 146097 := by omega
  have hN : now / 86400 = 11017 + 146097 * q + e := by omega
  have hqn : -5 ≤ q := by omega
  -- the century
  have hb : ∃ b f : Int, (if e = 146096 then ((5 + q) * 4 + 3, (36524 : Int)) else ((5 + q) * 4 + e.tdiv 36524, e.tmod 36524)) = ((5 + q) * 4 + b, f) ∧
      0 ≤ b ∧ b ≤ 3 ∧ 0 ≤ f ∧ f ≤ 36524 ∧ e = 36524 * b + f ∧ (f = 36524 → b = 3) := by
    by_cases h1 : e = 146096
    · exact ⟨3, 36524, by rw [if_pos h1], by omega, by omega, by omega, by omega, by omega, by omega⟩
    · refine ⟨e / 36524, e % 36524, ?_, by omega, by omega, by omega, by omega, by omega, by omega⟩
      rw [if_neg h1, Int.tdiv_eq_ediv_of_nonneg he0, Int.tmod_eq_emod_of_nonneg he0]
  obtain ⟨b, f, e1, hb0, hb1, hf0, hf1, hef, hfb⟩ := hb
  rw [e1]
  simp only
  rw [Int.tdiv_eq_ediv_of_nonneg hf0, Int.tmod_eq_emod_of_nonneg hf0]
  have hc : ∃ c g : Int, f / 1461 = c ∧ f % 1461 = g := ⟨_, _, rfl, rfl⟩
  obtain ⟨c, g, hc, hg⟩ := hc
  rw [hc, hg]
  have hg0 : 0 ≤ g := by omega
  have hg1 : g < 1461 := by omega
  have hc0 : 0 ≤ c ∧ c ≤ 24 := by omega
  have hfc : f = 1461 * c + g := by omega
  have hd : ∃ d R : Int, (if g = 1460 then ((((5 + q) * 4 + b) * 25 + c) * 4 + 3, (365 : Int)) else ((((5 + q) * 4 + b) * 25 + c) * 4 + g.tdiv 365, g.tmod 365)) =
      ((((5 + q) * 4 + b) * 25 + c) * 4 + d, R) ∧ 0 ≤ d ∧ d ≤ 3 ∧ 0 ≤ R ∧ R ≤ 365 ∧ g = 365 * d + R ∧ (R = 365 → d = 3) := by
    by_cases h1 : g = 1460
    · exact ⟨3, 365, by rw [if_pos h1], by omega, by omega, by omega, by omega, by omega, by omega⟩
    · refine ⟨g / 365, g % 365, ?_, by omega, by omega, by omega, by omega, by omega, by omega⟩
      rw [if_neg h1, Int.tdiv_eq_ediv_of_nonneg hg0, Int.tmod_eq_emod_of_nonneg hg0]
  obtain ⟨d, R, e2, hd0, hd1, hR0, hR1, hgd, hRd⟩ := hd
  rw [e2]
  simp only
  rw [Int.tdiv_eq_ediv_of_nonneg (by omega)]
  have hy0 : 0 ≤ (((5 + q) * 4 + b) * 25 + c) * 4 + d := by omega
  obtain ⟨y, hy⟩ := Int.eq_ofNat_of_zero_le hy0
  rw [hy]
  have hday : now / 86400 + 719528 = 60 + 365 * (y : Int) + ((y / 4 : Nat) : Int) - ((y / 100 : Nat) : Int) + ((y / 400 : Nat) : Int) + R := by
    have a1 : ((y / 4 : Nat) : Int) = ((5 + q) * 4 + b) * 25 + c := by omega
    have a2 : ((y / 100 : Nat) : Int) = (5 + q) * 4 + b := by omega
    have a3 : ((y / 400 : Nat) : Int) = 5 + q := by omega
    omega
  have m0 := marchStart y
  have m1 := early y 0 (by decide)
  have o10 : off (0 + 10) = 306 := rfl
  have z0 : monthStart (y + 1) 0 = 0 := rfl
  have m2 : yearStart (y + 1 + 1) = yearStart (y + 1) + monthStart (y + 1) 12 := rfl
  have m3 : 365 ≤ monthStart (y + 1) 12 := by rw [yearLen]; split <;> omega
  rw [o10, z0] at m1
  clear hy hy0 e1 e2 hgd hRd hd0 hd1 hfc hc0 hg0 hg1 hc hg hef hfb hb0 hb1 hf0 hf1 hqn hN he0 he1 hq he
  have d0 : ∀ z, day z 0 1 = yearStart z := fun z => by simp [day, monthStart]
  by_cases hl : (R * 10 + 5) / 306 ≥ 10
  · rw [if_pos hl]
    refine ⟨y + 1, by omega, ?_, ?_⟩ <;> rw [seconds_eq, d0] <;> omega
  · rw [if_neg hl]
    refine ⟨y, rfl, ?_, ?_⟩ <;> rw [seconds_eq, d0] <;> omega

/-- The loop finds a year, if it is the first that is not too long ago. -/
theorem guessFrom_eq (now month mday : Int) : ∀ (n k : Nat) (y : Int), k < n →
    (∀ i : Nat, i < k → ¬ now - totai (y + i) month mday < 350 * 86400) → now - totai (y + k) month mday < 350 * 86400 →
    guessFrom now month mday n y = totai (y + k) month mday
  | 0, _, _, h, _, _ => absurd h (Nat.not_lt_zero _)
  | n + 1, 0, y, _, _, h => by
    rw [guessFrom]
    have e : y + ((0 : Nat) : Int) = y := by simp
    rw [e] at h ⊢
    exact if_pos h
  | n + 1, k + 1, y, hk, h1, h2 => by
    rw [guessFrom]
    have h0 := h1 0 (by omega)
    have e : y + ((0 : Nat) : Int) = y := by simp
    rw [e] at h0
    have e2 : y + ((k + 1 : Nat) : Int) = y + 1 + (k : Int) := by omega
    rw [e2] at h2 ⊢
    rw [← guessFrom_eq now month mday n k (y + 1) (by omega) (fun i hi => ?_) h2]
    · exact if_neg h0
    · have := h1 (i + 1) (by omega)
      have e3 : y + ((i + 1 : Nat) : Int) = y + 1 + (i : Int) := by omega
      rw [e3] at this
      exact this

end Wv.FtpDate
