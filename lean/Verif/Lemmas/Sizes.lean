import Verif.Model.Sizes
import Verif.Props.Num
namespace Wv.Sizes
open Spec.Sizes Spec.Num Wv.Num

theorem rounder_spec (m : Method) (x base : Nat) (hb : 0 < base) (h2 : 2 ∣ base) :
    ∃ n, rounder m x 0 base = some n ∧ Rounded m x base n := by
  unfold rounder
  rw [if_neg (by omega)]
  refine ⟨_, rfl, ?_⟩
  have hx : x / base * base + x % base = x := by rw [Nat.mul_comm]; exact Nat.div_add_mod x base
  have hr : x % base < base := Nat.mod_lt _ hb
  obtain ⟨h, rfl⟩ := h2
  have hh : 2 * h / 2 = h := by omega
  rw [hh]
  generalize x / (2 * h) = q at hx ⊢
  generalize x % (2 * h) = r at hx hr ⊢
  have h1 : (q + 1) * (2 * h) = q * (2 * h) + 2 * h := Nat.succ_mul _ _
  generalize ht : q * (2 * h) = t at hx h1
  cases m with
  | down => simp only [Rounded, ht]; omega
  | up =>
    simp only [Rounded]
    split
    · rw [h1]; omega
    · rw [ht]; omega
  | upAtHalf =>
    simp only [Rounded]
    split
    · rw [h1]; omega
    · rw [ht]; omega
  | downAtHalf =>
    simp only [Rounded]
    split
    · rw [h1]; omega
    · rw [ht]; omega

/-- The two tables. -/
structure Table (ps : Prefixes) (g : Nat) (unit : Nat → Text) : Prop where
  g_eq : g = 1000 ∨ g = 1024
  base : ∀ i, i ≤ 5 → ∃ name, ps[i]? = some (name, g ^ (i + 1))
  name : ∀ i, i ≤ 7 → ∃ b name, ps[i]? = some (some name, b) ∧ name ++ str ['B'] = unit (i + 1)
  last : ∃ b, ps[8]? = some (none, b)

theorem si_table : Table si 1000 siUnit := by
  refine ⟨Or.inl rfl, ?_, ?_, ⟨0, by decide +kernel⟩⟩
  · intro i hi
    rcases i with _ | _ | _ | _ | _ | _ | i
    · exact ⟨_, by rfl⟩
    · exact ⟨_, by rfl⟩
    · exact ⟨_, by rfl⟩
    · exact ⟨_, by rfl⟩
    · exact ⟨_, by rfl⟩
    · exact ⟨_, by rfl⟩
    · omega
  · intro i hi
    rcases i with _ | _ | _ | _ | _ | _ | _ | _ | i
    · exact ⟨_, _, rfl, by decide +kernel⟩
    · exact ⟨_, _, rfl, by decide +kernel⟩
    · exact ⟨_, _, rfl, by decide +kernel⟩
    · exact ⟨_, _, rfl, by decide +kernel⟩
    · exact ⟨_, _, rfl, by decide +kernel⟩
    · exact ⟨_, _, rfl, by decide +kernel⟩
    · exact ⟨_, _, rfl, by decide +kernel⟩
    · exact ⟨_, _, rfl, by decide +kernel⟩
    · omega

theorem iec_table : Table iec 1024 iecUnit := by
  refine ⟨Or.inr rfl, ?_, ?_, ⟨0, by decide +kernel⟩⟩
  · intro i hi
    rcases i with _ | _ | _ | _ | _ | _ | i
    · exact ⟨_, by rfl⟩
    · exact ⟨_, by rfl⟩
    · exact ⟨_, by rfl⟩
    · exact ⟨_, by rfl⟩
    · exact ⟨_, by rfl⟩
    · exact ⟨_, by rfl⟩
    · omega
  · intro i hi
    rcases i with _ | _ | _ | _ | _ | _ | _ | _ | i
    · exact ⟨_, _, rfl, by decide +kernel⟩
    · exact ⟨_, _, rfl, by decide +kernel⟩
    · exact ⟨_, _, rfl, by decide +kernel⟩
    · exact ⟨_, _, rfl, by decide +kernel⟩
    · exact ⟨_, _, rfl, by decide +kernel⟩
    · exact ⟨_, _, rfl, by decide +kernel⟩
    · exact ⟨_, _, rfl, by decide +kernel⟩
    · exact ⟨_, _, rfl, by decide +kernel⟩
    · omega

theorem even_pow (g i : Nat) (h : g = 1000 ∨ g = 1024) : 0 < g ^ (i + 1) ∧ 2 ∣ g ^ (i + 1) := by
  refine ⟨Nat.pow_pos (by omega), ?_⟩
  rw [Nat.pow_succ]
  exact Nat.dvd_mul_left_of_dvd (by omega) _

theorem rounded_le (m : Method) (x d n : Nat) (h : Rounded m x d n) : n * d ≤ x + d := by
  unfold Rounded at h
  cases m <;> simp only at h <;> omega

theorem sizeLoop_spec (ps : Prefixes) (g : Nat) (unit : Nat → Text) (T : Table ps g unit) (m : Method) (size shift : Nat) (hs : size * 10 < W) (f : Nat) :
    ∀ i, i ≤ 5 → 6 ≤ i + f → i + 1 + shift ≤ 8 →
    ∃ n j, sizeLoop m ps g size 0 shift f i = some (n, j) ∧ i < j ∧ j + shift ≤ 8 ∧ Rounded m (size * 10) (g ^ j) n ∧
      (n < g * 10 ∨ j + shift = 8) ∧ (j = i + 1 ∨ ∃ n', Rounded m (size * 10) (g ^ (j - 1)) n' ∧ g * 10 ≤ n') := by
  induction f with
  | zero => intro i h1 h2; omega
  | succ f ih =>
    intro i h1 h2 h3
    obtain ⟨nm, hb⟩ := T.base i h1
    obtain ⟨e1, e2⟩ := even_pow g i T.g_eq
    obtain ⟨n, hn, hr⟩ := rounder_spec m (size * 10) (g ^ (i + 1)) e1 e2
    rw [sizeLoop, hb]
    simp only [Option.bind_some]
    rw [Nat.mod_eq_of_lt hs, hn]
    simp only [Option.bind_some]
    have hname : ∃ name b, ps[i + 1 + shift]? = some (name, b) ∧ (name = none ↔ i + 1 + shift = 8) := by
      by_cases h8 : i + 1 + shift = 8
      · obtain ⟨b, hl⟩ := T.last
        exact ⟨none, b, by rw [h8]; exact hl, by simp [h8]⟩
      · obtain ⟨b, name, hl, -⟩ := T.name (i + 1 + shift) (by omega)
        exact ⟨some name, b, hl, by simp [h8]⟩
    obtain ⟨name, b, hl, hnone⟩ := hname
    rw [hl]
    simp only [Option.bind_some]
    by_cases hc : n < g * 10 ∨ name = none
    · rw [if_pos hc]
      exact ⟨n, i + 1, rfl, by omega, h3, hr, hc.imp id hnone.1, Or.inl rfl⟩
    · rw [if_neg hc]
      simp only [not_or] at hc
      have hne : i + 1 + shift ≠ 8 := fun h => hc.2 (hnone.2 h)
      have hi : i ≠ 5 := by
        intro h5
        subst h5
        have := rounded_le m _ _ _ hr
        have hge : g * 10 ≤ n := by omega
        have hmul : g * 10 * g ^ (5 + 1) ≤ n * g ^ (5 + 1) := Nat.mul_le_mul_right _ hge
        have hW : W = 18446744073709551616 := by decide
        rcases T.g_eq with e | e
        · subst e
          have : (1000 : Nat) ^ (5 + 1) = 1000000000000000000 := by decide
          rw [this] at *
          omega
        · subst e
          have : (1024 : Nat) ^ (5 + 1) = 1152921504606846976 := by decide
          rw [this] at *
          omega
      obtain ⟨n', j, a1, a2, a3, a4, a5, a6⟩ := ih (i + 1) (by omega) (by omega) (by omega)
      refine ⟨n', j, a1, by omega, a3, a4, a5, ?_⟩
      rcases a6 with e | e
      · subst e
        exact Or.inr ⟨n, hr, by omega⟩
      · exact Or.inr e

/-- The number is not below 1.0. -/
theorem rounded_ge (m : Method) (g x d n n' : Nat) (hg : 1000 ≤ g) (hd : 0 < d) (h' : Rounded m x d n') (hn' : g * 10 ≤ n') (h : Rounded m x (d * g) n) :
    10 ≤ n := by
  rcases Nat.lt_or_ge n 10 with hlt | hge
  · exfalso
    have h1 : n * (d * g) ≤ 9 * (d * g) := Nat.mul_le_mul_right _ (by omega)
    have h2 : g * 10 * d ≤ n' * d := Nat.mul_le_mul_right _ hn'
    have h3 : g * 10 * d = 10 * (d * g) := by rw [Nat.mul_comm g 10, Nat.mul_assoc, Nat.mul_comm g d]
    have h4 : 1000 * d ≤ d * g := by rw [Nat.mul_comm]; exact Nat.mul_le_mul_left d hg
    unfold Rounded at h h'
    cases m <;> simp only at h h' <;> omega
  · exact hge

theorem shift_pow (g : Nat) (hg : g = 1000 ∨ g = 1024) (k : Nat) (hk : k ≤ 6) :
    shiftLoop g 64 (g ^ k) 0 0 = (1, (if k = 0 then 0 else g), k) := by
  rcases hg with e | e <;> subst e
  · have : ∀ k, k < 7 → shiftLoop 1000 64 (1000 ^ k) 0 0 = (1, (if k = 0 then 0 else 1000), k) := by decide +kernel
    exact this k (by omega)
  · have : ∀ k, k < 7 → shiftLoop 1024 64 (1024 ^ k) 0 0 = (1, (if k = 0 then 0 else 1024), k) := by decide +kernel
    exact this k (by omega)

theorem result_eq (ps : Prefixes) (g : Nat) (unit : Nat → Text) (T : Table ps g unit) (shift sd i : Nat) (h1 : 1 ≤ i + shift) (h8 : i + shift ≤ 8) :
    result ps (str ['B']) shift sd i = some (tenths sd (unit (i + shift))) := by
  unfold result
  rw [if_neg (by omega)]
  obtain ⟨b, name, hl, hu⟩ := T.name (i + shift - 1) (by omega)
  rw [hl]
  simp only [Option.bind_some, Option.map_some, Props.C32_print_unsigned, tenths]
  rw [show i + shift - 1 + 1 = i + shift from by omega] at hu
  rw [← hu]
  simp [List.append_assoc]

theorem rounded_one (m : Method) (x : Nat) : Rounded m x 1 x := by
  cases m <;> simp [Rounded]

theorem sizetoa'_spec (ps : Prefixes) (g : Nat) (unit : Nat → Text) (T : Table ps g unit) (s k : Nat) (m : Method) (hk : k ≤ 6)
    (hs : g ≤ s ∨ (1 ≤ k ∧ 1 ≤ s)) (h : 10 * s < W) :
    ∃ t, sizetoa' s (g ^ k) m ps (str ['B']) = some t ∧ Shown g unit s k m t := by
  have hg0 : 0 < g := by rcases T.g_eq with e | e <;> omega
  unfold sizetoa'
  rw [if_neg (by have := Nat.pow_pos (n := k) hg0; omega)]
  obtain ⟨nm, hb⟩ := T.base 0 (by omega)
  rw [hb]
  simp only [Option.bind_some, Nat.zero_add, Nat.pow_one]
  rw [shift_pow g T.g_eq k hk]
  have hcond : ¬ ((if k = 0 then 0 else g) ≠ 0 ∧ (if k = 0 then 0 else g) ≠ g) := by
    by_cases hk0 : k = 0 <;> simp [hk0]
  dsimp only
  rw [if_neg hcond]
  dsimp only
  rw [Nat.mod_eq_of_lt (show s * 10 < W from by omega), if_neg (show ¬ s * 10 < s from by omega)]
  dsimp only
  by_cases hsg : s ≥ g
  · rw [if_pos hsg]
    obtain ⟨n, j, a1, a2, a3, a4, a5, a6⟩ := sizeLoop_spec ps g unit T m s k (by omega) 10 0 (by omega) (by omega) (by omega)
    rw [a1]
    simp only [Option.bind_some]
    rw [if_neg (by omega)]
    simp only [Option.bind_some]
    rw [result_eq ps g unit T k n j (by omega) a3]
    refine ⟨_, rfl, j, n, rfl, by omega, a3, by rw [Nat.mul_comm]; exact a4, ?_, by rw [Nat.mul_comm 10]; exact a5, Or.inr ?_⟩
    · have hpow : g ^ j = g ^ (j - 1) * g := by rw [← Nat.pow_succ]; congr 1; omega
      rw [hpow] at a4
      rcases a6 with e | ⟨n', b1, b2⟩
      · subst e
        refine rounded_ge m g _ _ n (s * 10) (by rcases T.g_eq with e | e <;> omega) (by simp) ?_ (by omega) a4
        simpa using rounded_one m (s * 10)
      · exact rounded_ge m g _ _ n n' (by rcases T.g_eq with e | e <;> omega) (Nat.pow_pos hg0) b1 b2 a4
    · rcases a6 with e | ⟨n', b1, b2⟩
      · subst e
        exact ⟨10 * s, by simpa using rounded_one m (10 * s), by omega⟩
      · exact ⟨n', by rw [Nat.mul_comm 10]; exact b1, by omega⟩
  · rw [if_neg hsg]
    simp only [Option.bind_some]
    rw [if_neg (by omega)]
    simp only [Option.bind_some]
    rw [result_eq ps g unit T k (s * 10) 0 (by omega) (by omega)]
    refine ⟨_, rfl, 0, s * 10, rfl, by omega, by omega, ?_, by omega, Or.inl (by omega), Or.inl rfl⟩
    rw [Nat.mul_comm 10]
    simpa using rounded_one m (s * 10)

/-! `metriculate` -/

/-- Spaces before every three digits. -/
def spaced : Text → Text
  | [] => []
  | c :: r => c :: (if r.length % 3 = 0 ∧ r ≠ [] then 32 :: spaced r else spaced r)

theorem spaced_grouped (ds : Text) (h : ds ≠ []) : Grouped ds (spaced ds) := by
  induction ds with
  | nil => contradiction
  | cons c r ih =>
    by_cases hr : r = []
    · subst hr
      exact ⟨[c], [], by simp, by simp [spaced], by simp, by simp, by simp⟩
    · obtain ⟨f, rest, h1, h2, h3, h4, h5⟩ := ih hr
      have hlen : rest.flatten.length = 3 * rest.length := by
        clear h1 h2
        induction rest with
        | nil => rfl
        | cons a l ihl =>
          rw [List.flatten_cons, List.length_append, ihl (fun g hg => h5 g (by simp [hg])), h5 a (by simp), List.length_cons]
          omega
      have hl : r.length = f.length + 3 * rest.length := by rw [h1, List.length_append, hlen]
      rw [spaced]
      by_cases h0 : r.length % 3 = 0
      · rw [if_pos ⟨h0, hr⟩]
        refine ⟨[c], f :: rest, by rw [h1]; simp, by rw [h2]; simp, by simp, by simp, ?_⟩
        intro g hg
        rcases List.mem_cons.1 hg with hg | hg
        · rw [hg]; omega
        · exact h5 g hg
      · rw [if_neg (by simp [h0])]
        refine ⟨c :: f, rest, by rw [h1]; simp, by rw [h2]; simp, by simp, by rw [List.length_cons]; omega, h5⟩

theorem metricLoop_spec (digits j : Nat) : ∀ (f d : Nat) (suf : Text), 0 < j → f = (dec j).length → suf.length = d → d + f = digits →
    metricLoop digits f d j ((if d % 3 = 0 ∧ 0 < d then [32] else []) ++ spaced suf) = spaced (dec j ++ suf) := by
  induction j using Nat.strongRecOn with
  | ind j ih =>
    intro f d suf hj hf hd hdf
    have hdig := (dec_digit (j % 10) (Nat.mod_lt _ (by omega))).1
    have hc : (UInt8.ofNat (48 + j % 10) : Byte) = ch '0' + UInt8.ofNat (j % 10) := by
      have : ∀ n < 10, (UInt8.ofNat (48 + n) : Byte) = ch '0' + UInt8.ofNat n := by decide +kernel
      exact this _ (Nat.mod_lt _ (by omega))
    have hsp : ∀ c, c :: ((if d % 3 = 0 ∧ 0 < d then [32] else []) ++ spaced suf) = spaced (c :: suf) := by
      intro c
      rw [spaced, hd]
      have : (suf ≠ []) ↔ 0 < d := by rw [← hd, List.length_pos_iff]
      by_cases h3 : d % 3 = 0 ∧ 0 < d
      · rw [if_pos h3, if_pos ⟨h3.1, this.2 h3.2⟩]; rfl
      · rw [if_neg h3, if_neg (fun hh => h3 ⟨hh.1, this.1 hh.2⟩)]; rfl
    by_cases h10 : 10 ≤ j
    · have hstep := dec_step j h10
      rw [hdig] at hstep
      obtain ⟨f', hf'⟩ : ∃ f', f = f' + 1 := ⟨(dec (j / 10)).length, by rw [hf, hstep]; simp⟩
      have hlen : f' = (dec (j / 10)).length := by
        rw [hstep, List.length_append, List.length_singleton] at hf
        omega
      have hpos : 0 < (dec (j / 10)).length := List.length_pos_iff.2 (dec_ne_nil _)
      rw [hf', metricLoop, hsp, hstep, List.append_assoc, List.singleton_append, ← hc]
      have := ih (j / 10) (by omega) f' (d + 1) (UInt8.ofNat (48 + j % 10) :: suf) (by omega) hlen (by simp [hd]) (by omega)
      rw [← this]
      congr 1
      by_cases h3 : (d + 1) % 3 = 0
      · rw [if_pos ⟨h3, by omega⟩, if_pos ⟨h3, by omega⟩]; rfl
      · rw [if_neg (by simp [h3]), if_neg (by simp [h3])]; rfl
    · have e : j % 10 = j := by omega
      rw [e] at hdig hc
      have : f = 1 := by rw [hf, hdig]; rfl
      subst this
      rw [metricLoop, hsp, e, hc]
      rw [if_neg (by omega), metricLoop, hdig]
      rfl

theorem digitCount_spec (j : Nat) : ∀ f, j < 10 ^ f → 0 < j → digitCount f j = (dec j).length := by
  induction j using Nat.strongRecOn with
  | ind j ih =>
    intro f hf hj
    cases f with
    | zero => simp at hf; omega
    | succ f =>
      rw [digitCount, if_neg (by omega)]
      by_cases h10 : 10 ≤ j
      · rw [ih (j / 10) (by omega) f (by rw [Nat.pow_succ] at hf; omega) (by omega), dec_step j h10,
          (dec_digit (j % 10) (Nat.mod_lt _ (by omega))).1]
        simp
      · have : j / 10 = 0 := by omega
        rw [this]
        have h0 : digitCount f 0 = 0 := by cases f <;> simp [digitCount]
        rw [h0, (dec_digit j (by omega)).1]
        rfl

theorem spaced_length (ds : Text) : (spaced ds).length = ds.length + (ds.length - 1) / 3 := by
  induction ds with
  | nil => rfl
  | cons c r ih =>
    rw [spaced, List.length_cons, List.length_cons]
    by_cases hr : r = []
    · subst hr; simp [spaced]
    · have := List.length_pos_iff.2 hr
      split
      · rw [List.length_cons, ih]; omega
      · rename_i hh
        have : r.length % 3 ≠ 0 := fun h => hh ⟨h, hr⟩
        rw [ih]; omega

end Wv.Sizes
