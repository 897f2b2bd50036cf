import Verif.Model.Timed
import Verif.Spec.Timed
import Verif.Props.Time
/- Lemmas for C77. -/
namespace Wv.Timed
open Wv.Time Spec.Timed Props

theorem sec_pos {t : T} (hn : NormalTime t) (h : 1000000 ≤ toMicro t) : t.sec ≠ 0 := by
  unfold NormalTime at hn; unfold toMicro at h; omega

/-- `msecdiff` to a moment that is not due. -/
theorem msecdiff_bounds (a b : T) (h : -2147483647000 ≤ toMicro a - toMicro b ∧ toMicro a - toMicro b ≤ 2147483647000) :
    (toMicro a - toMicro b) - 1000 < msecdiff a b * 1000 ∧ msecdiff a b * 1000 < (toMicro a - toMicro b) + 1000 :=
  (C36_msecdiff_partial a b).1 h

/-- `msecdiff` never says more than there is, rounded up, on the side of the negative. -/
theorem msecdiff_le (a b : T) (h : toMicro a - toMicro b ≤ 2147483647000) :
    msecdiff a b * 1000 < (toMicro a - toMicro b) + 1000 ∨ msecdiff a b = -2147483648 := by
  have h' := tdivmod (a.usec - b.usec) 1000 (by omega)
  unfold msecdiff
  unfold toMicro at *
  simp only
  rcases h' with ⟨h1, h2, -⟩ | ⟨h1, h2, -⟩ <;> rw [h2] <;> split <;> (try split) <;> omega

theorem remaining_eq (a : Alarm) (now : T) (hs : a.time.sec ≠ 0) (ha : NormalTime a.time) (hl : NormalTime a.last)
    (hn : NormalTime now) :
    NormalTime (a.remaining now).2.time ∧ (a.remaining now).2.last = now ∧
    toMicro (a.remaining now).2.time
      = toMicro a.time - (if toMicro now < toMicro a.last then toMicro a.last - toMicro now else 0) ∧
    (a.remaining now).1 = (if msecdiff (a.remaining now).2.time now < 0 then 0
      else msecdiff (a.remaining now).2.time now) := by
  unfold Alarm.remaining
  rw [if_pos hs]
  simp only
  obtain ⟨d1, d2⟩ := C36_tvdiff a.last now hl hn
  obtain ⟨e1, e2⟩ := C36_tvdiff a.time (tvdiff a.last now) ha d2
  by_cases h : toMicro now < toMicro a.last
  · simp only [if_pos h]
    refine ⟨e2, trivial, ?_, trivial⟩
    rw [e1, d1]
  · simp only [if_neg h]
    refine ⟨ha, trivial, ?_, trivial⟩
    omega

theorem elapsed_nonneg (us : List Int) : ∀ t, 0 ≤ elapsed t us := by
  induction us with
  | nil => intro t; exact Int.le_refl 0
  | cons u us ih =>
    intro t
    have := ih u
    show 0 ≤ (if t ≤ u then u - t else 0) + elapsed u us
    split <;> omega

/-- After the alarm was looked at: it is as far from the clock as the time that passed says. -/
theorem checks_eq (ts : List T) : ∀ (a : Alarm) (rem : Int) (now : T), NormalTime a.time → NormalTime a.last →
    1000000 ≤ toMicro a.last → toMicro a.time = toMicro a.last + rem → elapsed (toMicro a.last) (ts.map toMicro) ≤ rem →
    (∀ t ∈ ts ++ [now], NormalTime t ∧ 1000000 ≤ toMicro t) →
    toMicro (a.checks ts now).2.time
      = toMicro now + rem - elapsed (toMicro a.last) ((ts ++ [now]).map toMicro) ∧
    (a.checks ts now).1 = (if msecdiff (a.checks ts now).2.time now < 0 then 0
      else msecdiff (a.checks ts now).2.time now) := by
  induction ts with
  | nil =>
    intro a rem now ha hl h1 he hr hall
    have hr : (0 : Int) ≤ rem := hr
    obtain ⟨hn, hn1⟩ := hall now (by simp)
    obtain ⟨-, -, e3, e4⟩ := remaining_eq a now (sec_pos ha (by omega)) ha hl hn
    refine ⟨?_, e4⟩
    show toMicro (a.remaining now).2.time
      = toMicro now + rem - ((if toMicro a.last ≤ toMicro now then toMicro now - toMicro a.last else 0) + 0)
    rw [e3]
    split <;> split <;> omega
  | cons t ts ih =>
    intro a rem now ha hl h1 he hr hall
    have hr : (if toMicro a.last ≤ toMicro t then toMicro t - toMicro a.last else 0)
      + elapsed (toMicro t) (ts.map toMicro) ≤ rem := hr
    obtain ⟨hn, hn1⟩ := hall t (by simp)
    have hp := elapsed_nonneg (ts.map toMicro) (toMicro t)
    have hrem : 0 ≤ rem := by split at hr <;> omega
    obtain ⟨e1, e2, e3, -⟩ := remaining_eq a t (sec_pos ha (by omega)) ha hl hn
    have := ih (a.remaining t).2
      (rem - (if toMicro a.last ≤ toMicro t then toMicro t - toMicro a.last else 0)) now e1 (by rw [e2]; exact hn)
      (by rw [e2]; exact hn1) (by rw [e2, e3]; split <;> split <;> omega) (by rw [e2]; omega)
      (fun u hu => hall u (by simp at hu ⊢; exact Or.inr hu))
    rw [e2] at this
    refine ⟨?_, this.2⟩
    show toMicro ((a.remaining t).2.checks ts now).2.time = toMicro now + rem
      - ((if toMicro a.last ≤ toMicro t then toMicro t - toMicro a.last else 0)
        + elapsed (toMicro t) ((ts ++ [now]).map toMicro))
    rw [this.1]
    omega

theorem msecdiff_max (a b : T) : msecdiff a b ≤ 2147483647 := by
  unfold msecdiff; simp only; split <;> (try split) <;> omega

/-- If the difference is at most `c` milliseconds, `msecdiff` does not say more than `c`. -/
theorem msecdiff_le_of (a b : T) (c : Int) (hc : -2147483648 ≤ c) (h : toMicro a - toMicro b ≤ c * 1000) :
    msecdiff a b ≤ c := by
  have h1 := msecdiff_max a b
  by_cases h2 : toMicro a - toMicro b ≤ 2147483647000
  · rcases msecdiff_le a b h2 with h3 | h3 <;> omega
  · omega

/-- If the difference is at least `c + 1` milliseconds, `msecdiff` says more than `c`. -/
theorem msecdiff_gt_of (a b : T) (c : Int) (hc : 0 ≤ c ∧ c < 2147483647) (h : (c + 1) * 1000 ≤ toMicro a - toMicro b) :
    c < msecdiff a b := by
  obtain ⟨h1, h2, -⟩ := C36_msecdiff_partial a b
  by_cases h3 : 2147483648000 ≤ toMicro a - toMicro b
  · rw [h2 h3]; omega
  · by_cases h4 : toMicro a - toMicro b ≤ 2147483647000
    · have := h1 ⟨by omega, h4⟩; omega
    · have h' := tdivmod (a.usec - b.usec) 1000 (by omega)
      unfold msecdiff
      unfold toMicro at *
      simp only
      rcases h' with ⟨h1, h2, -⟩ | ⟨h1, h2, -⟩ <;> rw [h2] <;> split <;> (try split) <;> omega

theorem due_succ (start ms : Int) (k : Nat) : due start ms (k + 1) = due start ms k + ms * 1000 := by
  unfold due
  have : ((k + 1 : Nat) + 1 : Int) * ms = ((k : Int) + 1) * ms + ms := by
    rw [show ((k + 1 : Nat) + 1 : Int) = ((k : Int) + 1) + 1 by omega, Int.add_mul, Int.one_mul]
  rw [this]; omega

theorem due_zero (start ms : Int) : due start ms 0 = start + ms * 1000 := by
  unfold due; omega

/-- pre_select on a clock that goes forwards. -/
theorem pre_forward (s : Tick) (now : T) (timeout : Int) (h : s.ms ≠ 0) (hf : toMicro s.last ≤ toMicro now) :
    (s.preSelect now timeout).2 = { s with last := now } := by
  unfold Tick.preSelect
  rw [if_pos h]
  simp only
  rw [if_neg (show ¬ toMicro now < toMicro s.last by omega)]
  split <;> rfl

/-- Where the next tick can be after `execute`. -/
theorem execute_next (s : Tick) (now : T) (hn : NormalTime now) (hx : NormalTime s.next) :
    NormalTime (s.execute now false).next ∧ (s.execute now false).ms = s.ms ∧
    ((s.execute now false).last = s.last ∨ (s.execute now false).last = now) ∧
    (toMicro (s.execute now false).next = toMicro s.next + s.ms * 1000 ∨
      toMicro (s.execute now false).next = toMicro now + s.ms * 1000) := by
  obtain ⟨a1, a2⟩ := C36_msecadd s.next s.ms hx
  obtain ⟨b1, b2⟩ := C36_msecadd now s.ms hn
  unfold Tick.execute
  simp only [Bool.not_false, if_true]
  split
  · exact ⟨b2, rfl, Or.inr rfl, Or.inr b1⟩
  · split
    · exact ⟨b2, rfl, Or.inl rfl, Or.inr b1⟩
    · exact ⟨a2, rfl, Or.inl rfl, Or.inl a1⟩

/-- A tick that is not too late moves the next one by a period. -/
theorem execute_steady (s : Tick) (now : T) (hx : NormalTime s.next) (hms : 0 < s.ms)
    (h1 : toMicro s.next ≤ toMicro now) (h2 : toMicro now ≤ toMicro s.next + 101 * s.ms * 1000) :
    s.execute now false = { s with next := msecadd s.next s.ms } := by
  obtain ⟨a1, -⟩ := C36_msecadd s.next s.ms hx
  have e1 := msecdiff_le_of (msecadd s.next s.ms) now s.ms (by omega) (by rw [a1]; omega)
  have e2 := msecdiff_le_of now (msecadd s.next s.ms) (s.ms * 100) (by omega) (by rw [a1]; omega)
  unfold Tick.execute
  simp only [Bool.not_false, if_true]
  rw [if_neg (by omega), if_neg (by omega)]

/-- A timer never gets ahead: `k` ticks were before, and the clock shows `c`. -/
structure Behind (start ms : Int) (s : Tick) (c : Int) (k : Nat) : Prop where
  ms_eq : s.ms = ms
  normal : NormalTime s.next
  last_le : toMicro s.last ≤ c
  done : due start ms k - ms * 1000 ≤ c
  next : due start ms k ≤ toMicro s.next

theorem round_behind {start ms : Int} (hms : 0 < ms) {s : Tick} {c : Int} {k : Nat} (h : Behind start ms s c k)
    (r : Round) (h1 : c ≤ toMicro r.pre) (h2 : toMicro r.pre ≤ toMicro r.post) (hn : NormalTime r.post) :
    Behind start ms (s.round r).2 (toMicro r.post) (k + if (s.round r).1 then 1 else 0) := by
  obtain ⟨m, nn, l, d, x⟩ := h
  have hpre := pre_forward s r.pre (-1) (by omega) (by omega)
  unfold Tick.round
  simp only
  rw [hpre]
  by_cases hp : ({ s with last := r.pre } : Tick).postSelect r.post r.base = true
  · rw [if_pos hp]
    simp only
    cases ha : r.alarm with
    | true =>
      simp only [Bool.not_true, Bool.and_false]
      refine ⟨m, nn, h2, ?_, x⟩
      show due start ms k - ms * 1000 ≤ _
      omega
    | false =>
      obtain ⟨e1, e2, e3, e4⟩ := execute_next { s with last := r.pre } r.post hn nn
      have e4 : toMicro (({ s with last := r.pre } : Tick).execute r.post false).next = toMicro s.next + s.ms * 1000 ∨
        toMicro (({ s with last := r.pre } : Tick).execute r.post false).next = toMicro r.post + s.ms * 1000 := e4
      have hlast : toMicro (({ s with last := r.pre } : Tick).execute r.post false).last ≤ toMicro r.post := by
        rcases e3 with e3 | e3 <;> rw [e3]
        · exact h2
        · exact Int.le_refl _
      by_cases ht : toMicro s.next ≤ toMicro r.post
      · have hd : (decide (s.ms ≠ 0) && decide (toMicro s.next ≤ toMicro r.post) && !false) = true := by
          simp only [Bool.not_false, Bool.and_true, Bool.and_eq_true, decide_eq_true_eq]
          exact ⟨by omega, ht⟩
        rw [hd]
        simp only [if_true]
        have := due_succ start ms k
        exact ⟨e2.trans m, e1, hlast, by omega, by omega⟩
      · have hd : (decide (s.ms ≠ 0) && decide (toMicro s.next ≤ toMicro r.post) && !false) = false := by
          simp [ht]
        rw [hd]
        simp only [Bool.false_eq_true, if_false, Nat.add_zero]
        exact ⟨e2.trans m, e1, hlast, by omega, by omega⟩
  · rw [if_neg hp]
    simp only [Bool.false_eq_true, if_false, Nat.add_zero]
    exact ⟨m, nn, h2, by omega, x⟩

/-- The moments of these rounds. -/
def times (rs : List Round) : List Int := rs.flatMap fun r => [toMicro r.pre, toMicro r.post]

theorem rounds_behind {start ms : Int} (hms : 0 < ms) (rs : List Round) : ∀ (s : Tick) (c : Int) (k : Nat) (r : Round),
    Behind start ms s c k → Forwards c (times (rs ++ [r])) → (∀ r' ∈ rs ++ [r], NormalTime r'.post) →
    Behind start ms (s.rounds (rs ++ [r])).2 (toMicro r.post) (k + (s.rounds (rs ++ [r])).1.count true) := by
  induction rs with
  | nil =>
    intro s c k r h hf hn
    obtain ⟨f1, f2, -⟩ := hf
    have := round_behind hms h r f1 f2 (hn r (by simp))
    show Behind start ms (s.round r).2 (toMicro r.post) (k + [(s.round r).1].count true)
    cases hb : (s.round r).1 <;> rw [hb] at this <;> exact this
  | cons r' rs ih =>
    intro s c k r h hf hn
    obtain ⟨f1, f2, f3⟩ := hf
    have h' := round_behind hms h r' f1 f2 (hn r' (by simp))
    have := ih _ _ _ r h' f3 (fun q hq => hn q (by simp at hq ⊢; exact Or.inr hq))
    show Behind start ms ((s.round r').2.rounds (rs ++ [r])).2 (toMicro r.post)
      (k + ((s.round r').1 :: ((s.round r').2.rounds (rs ++ [r])).1).count true)
    cases hb : (s.round r').1 with
    | true =>
      rw [hb] at this
      rw [List.count_cons_self]
      simp only [if_true] at this
      rw [show k + (((s.round r').2.rounds (rs ++ [r])).1.count true + 1)
        = k + 1 + ((s.round r').2.rounds (rs ++ [r])).1.count true by omega]
      exact this
    | false =>
      rw [hb] at this
      rw [List.count_cons_of_ne (by decide)]
      exact this

theorem rounds_ticks {start ms : Int} (hms : 0 < ms) (rs : List Round) : ∀ (s : Tick) (c : Int) (k : Nat),
    s.ms = ms → NormalTime s.next → toMicro s.next = due start ms k → toMicro s.last ≤ c → Forwards c (times rs) →
    (∀ r ∈ rs, r.base = false ∧ r.alarm = false) → keepsUp start ms k (rs.map fun r => toMicro r.post) →
    (s.rounds rs).1 = ticks start ms k (rs.map fun r => toMicro r.post) := by
  induction rs with
  | nil => intros; rfl
  | cons r rs ih =>
    intro s c k m nn hx hl hf hb hk
    obtain ⟨f1, f2, f3⟩ := hf
    obtain ⟨k1, k2⟩ := hk
    have k1 : toMicro r.post ≤ due start ms k + 101 * ms * 1000 := k1
    have k2 : if due start ms k ≤ toMicro r.post then keepsUp start ms (k + 1) (rs.map fun r => toMicro r.post)
      else keepsUp start ms k (rs.map fun r => toMicro r.post) := k2
    obtain ⟨b1, b2⟩ := hb r (by simp)
    have hb' : ∀ r ∈ rs, r.base = false ∧ r.alarm = false := fun q hq => hb q (List.mem_cons_of_mem _ hq)
    have hpre := pre_forward s r.pre (-1) (by omega) (by omega)
    show (s.round r).1 :: ((s.round r).2.rounds rs).1 = if due start ms k ≤ toMicro r.post
      then true :: ticks start ms (k + 1) (rs.map fun r => toMicro r.post)
      else false :: ticks start ms k (rs.map fun r => toMicro r.post)
    by_cases ht : toMicro s.next ≤ toMicro r.post
    · have hr : s.round r = (true, { s with last := r.pre, next := msecadd s.next s.ms }) := by
        unfold Tick.round
        simp only
        rw [hpre, b1, b2]
        rw [if_pos (by unfold Tick.postSelect; simp [ht]; omega)]
        rw [execute_steady { s with last := r.pre } _ nn (by show 0 < s.ms; omega) ht
          (by show toMicro r.post ≤ toMicro s.next + 101 * s.ms * 1000; rw [hx, m]; exact k1)]
        simp [ht]; omega
      rw [if_pos (by omega)] at k2
      rw [hr, if_pos (by omega)]
      obtain ⟨a1, a2⟩ := C36_msecadd s.next s.ms nn
      rw [ih { s with last := r.pre, next := msecadd s.next s.ms } _ (k + 1) m a2 (by show toMicro (msecadd s.next s.ms) = _; rw [a1, due_succ, hx, m]) f2 f3 hb' k2]
    · have hr : s.round r = (false, { s with last := r.pre }) := by
        unfold Tick.round
        simp only
        rw [hpre, b1, b2]
        rw [if_neg (by unfold Tick.postSelect; simp; omega)]
      rw [if_neg (by omega)] at k2
      rw [hr, if_neg (by omega)]
      rw [ih { s with last := r.pre } _ k m nn hx f2 f3 hb' k2]

theorem pre_next (s : Tick) (now : T) (timeout : Int) (hms : s.ms ≠ 0) (hx : NormalTime s.next) (hl : NormalTime s.last)
    (hn : NormalTime now) :
    (s.preSelect now timeout).2.ms = s.ms ∧ (s.preSelect now timeout).2.last = now ∧
    NormalTime (s.preSelect now timeout).2.next ∧
    toMicro (s.preSelect now timeout).2.next
      = toMicro s.next - (if toMicro now < toMicro s.last then toMicro s.last - toMicro now else 0) := by
  obtain ⟨d1, d2⟩ := C36_tvdiff s.last now hl hn
  obtain ⟨e1, e2⟩ := C36_tvdiff s.next (tvdiff s.last now) hx d2
  unfold Tick.preSelect
  rw [if_pos hms]
  simp only
  by_cases h : toMicro now < toMicro s.last
  · simp only [if_pos h]
    split
    · exact ⟨rfl, rfl, e2, e1.trans (by rw [d1])⟩
    · exact ⟨rfl, rfl, e2, e1.trans (by rw [d1])⟩
  · simp only [if_neg h]
    split
    · exact ⟨rfl, rfl, hx, (Int.sub_zero _).symm⟩
    · exact ⟨rfl, rfl, hx, (Int.sub_zero _).symm⟩

theorem looks_next (ts : List T) : ∀ (s : Tick) (rem : Int), s.ms ≠ 0 → NormalTime s.next → NormalTime s.last →
    (∀ t ∈ ts, NormalTime t) → toMicro s.next = toMicro s.last + rem →
    (ts.foldl (fun s t => (s.preSelect t (-1)).2) s).ms = s.ms ∧
    toMicro (ts.foldl (fun s t => (s.preSelect t (-1)).2) s).next
      = toMicro (ts.foldl (fun s t => (s.preSelect t (-1)).2) s).last + rem
        - elapsed (toMicro s.last) (ts.map toMicro) ∧
    (ts.foldl (fun s t => (s.preSelect t (-1)).2) s).last = (ts.getLast?).getD s.last := by
  induction ts with
  | nil =>
    intro s rem _ _ _ _ h
    refine ⟨rfl, ?_, rfl⟩
    show toMicro s.next = toMicro s.last + rem - 0
    omega
  | cons t ts ih =>
    intro s rem hms hx hl hall h
    obtain ⟨p1, p2, p3, p4⟩ := pre_next s t (-1) hms hx hl (hall t (by simp))
    obtain ⟨i1, i2, i3⟩ := ih (s.preSelect t (-1)).2
      (rem - (if toMicro s.last ≤ toMicro t then toMicro t - toMicro s.last else 0)) (by rw [p1]; exact hms) p3
      (by rw [p2]; exact hall t (by simp)) (fun u hu => hall u (List.mem_cons_of_mem _ hu))
      (by rw [p2, p4]; split <;> split <;> omega)
    rw [List.foldl_cons]
    refine ⟨i1.trans p1, ?_, ?_⟩
    · rw [i2, p2]
      show _ = _ + rem - ((if toMicro s.last ≤ toMicro t then toMicro t - toMicro s.last else 0)
        + elapsed (toMicro t) (ts.map toMicro))
      omega
    · rw [i3, p2]
      cases ts <;> simp [List.getLast?_cons]

theorem off_rounds (rs : List Round) : ∀ s : Tick, s.ms = 0 → (s.rounds rs).2.ms = 0 := by
  induction rs with
  | nil => intro s h; exact h
  | cons r rs ih =>
    intro s h
    show ((s.round r).2.rounds rs).2.ms = 0
    refine ih _ ?_
    have hp : (s.preSelect r.pre (-1)).2 = s := by
      unfold Tick.preSelect; rw [if_neg (by omega)]
    unfold Tick.round
    simp only
    rw [hp]
    split
    · show (s.execute r.post r.alarm).ms = 0
      unfold Tick.execute
      split
      · simp only; split
        · exact h
        · split <;> exact h
      · exact h
    · exact h

/-! ### Days -/

theorem skipTo_spec (I nu : Int) (hI : 0 < I) : ∀ (fuel : Nat) (next : Int), nu - next ≤ fuel →
    (I ∣ skipTo I nu fuel next - next) ∧ next ≤ skipTo I nu fuel next ∧ nu ≤ skipTo I nu fuel next ∧
    (skipTo I nu fuel next = next ∨ skipTo I nu fuel next - I < nu) := by
  intro fuel
  induction fuel with
  | zero =>
    intro next h
    show (I ∣ next - next) ∧ next ≤ next ∧ nu ≤ next ∧ (next = next ∨ next - I < nu)
    refine ⟨by rw [Int.sub_self]; exact Int.dvd_zero I, Int.le_refl _, by omega, Or.inl rfl⟩
  | succ fuel ih =>
    intro next h
    have heq : skipTo I nu (fuel + 1) next = if next < nu then skipTo I nu fuel (next + I) else next := rfl
    rw [heq]
    by_cases hlt : next < nu
    · rw [if_pos hlt]
      obtain ⟨a, b, c, d⟩ := ih (next + I) (by omega)
      refine ⟨?_, by omega, c, Or.inr ?_⟩
      · have := Int.dvd_add a (Int.dvd_refl I)
        rwa [show skipTo I nu fuel (next + I) - (next + I) + I = skipTo I nu fuel (next + I) - next by omega] at this
      · omega
    · rw [if_neg hlt]
      exact ⟨by rw [Int.sub_self]; exact Int.dvd_zero I, Int.le_refl _, by omega, Or.inl rfl⟩

theorem dvd_small {I x : Int} (hI : 0 < I) (hd : I ∣ x) (h : -I < x) : 0 ≤ x := by
  obtain ⟨k, rfl⟩ := hd
  have : -1 < k := by
    by_cases h' : -1 < k
    · exact h'
    · have := Int.mul_le_mul_of_nonneg_left (show k ≤ -1 by omega) (Int.le_of_lt hI)
      omega
  exact Int.mul_nonneg (Int.le_of_lt hI) (by omega)

/-- The first event after `prev`. -/
theorem next_first (off : Int) (d : Daily) (hn : 0 < d.num) (hdvd : d.num ∣ 86400) (hh : 0 ≤ d.hour ∧ d.hour ≤ 23)
    (hp : 100000 < d.prev) :
    ∃ t, d.nextEvent off = some t ∧
      FirstEvent off d.hour d.num d.prev (if d.skip then d.notUntil else d.prev) t := by
  obtain ⟨hI0, hI1⟩ : 0 < 86400 / d.num ∧ (86400 / d.num) * d.num = 86400 := by
    have h1 : 86400 / d.num * d.num = 86400 := Int.ediv_mul_cancel hdvd
    refine ⟨?_, h1⟩
    have := Int.le_of_dvd (by decide) hdvd
    exact Int.ediv_pos_of_pos_of_dvd (by decide) (Int.le_of_lt hn) hdvd
  have hI2 : (86400 / d.num) ∣ 86400 := ⟨d.num, hI1.symm⟩
  have htd : (86400 : Int).tdiv d.num = 86400 / d.num := Int.tdiv_eq_ediv_of_nonneg (by decide)
  generalize hI : 86400 / d.num = I at hI0 hI1 hI2 htd
  -- where counting starts
  obtain ⟨X, hX⟩ : ∃ X, X = (if localHour off (d.prev + I) < d.hour then d.prev - 86400 + 1 else d.prev + I) := ⟨_, rfl⟩
  have hS : atHour off X d.hour ≤ d.prev + I := by
    rw [hX]
    unfold localHour atHour
    split <;> omega
  have hSd : I ∣ atHour off X d.hour + off - d.hour * 3600 := by
    refine Int.dvd_trans hI2 ⟨(X + off) / 86400, ?_⟩
    unfold atHour; omega
  generalize hSS : atHour off X d.hour = S at hS hSd
  -- the next event
  have hnx : (if (d.prev + I - S).tmod I ≠ 0 then S + (d.prev + I - S).tdiv I * I else d.prev + I)
      = d.prev + I - (d.prev + I - S) % I := by
    rw [Int.tmod_eq_emod_of_nonneg (by omega), Int.tdiv_eq_ediv_of_nonneg (by omega)]
    have := Int.mul_ediv_add_emod (d.prev + I - S) I
    rw [Int.mul_comm] at this
    split <;> omega
  have hm0 := Int.emod_nonneg (d.prev + I - S) (show I ≠ 0 by omega)
  have hm1 := Int.emod_lt_of_pos (d.prev + I - S) hI0
  have hNd : I ∣ (d.prev + I - (d.prev + I - S) % I) + off - d.hour * 3600 := by
    have h1 : I ∣ (d.prev + I - S) - (d.prev + I - S) % I := Int.dvd_self_sub_emod
    have := Int.dvd_add h1 hSd
    rwa [show (d.prev + I - S) - (d.prev + I - S) % I + (S + off - d.hour * 3600)
      = (d.prev + I - (d.prev + I - S) % I) + off - d.hour * 3600 by omega] at this
  generalize hN : d.prev + I - (d.prev + I - S) % I = N at hnx hNd
  have hN1 : d.prev < N := by omega
  have hN2 : N ≤ d.prev + I := by omega
  have hleast : ∀ u, I ∣ u + off - d.hour * 3600 → d.prev < u → N ≤ u := by
    intro u hu h
    have h1 : I ∣ u - N := by
      have := Int.dvd_sub hu hNd
      rwa [show u + off - d.hour * 3600 - (N + off - d.hour * 3600) = u - N by omega] at this
    have := dvd_small hI0 h1 (by omega)
    omega
  have hev : d.nextEvent off = some (if d.skip then skipTo I d.notUntil (d.notUntil - N).toNat N else N) := by
    unfold Daily.nextEvent
    rw [if_neg (by omega), if_neg (by omega)]
    simp only
    rw [htd, ← hX, hSS, hnx, if_neg (by omega)]
  have hE : ∀ u, Event off d.hour d.num u ↔ I ∣ u + off - d.hour * 3600 := by
    intro u
    unfold Event
    rw [hI]
    exact (Int.dvd_iff_emod_eq_zero).symm
  cases hs : d.skip with
  | false =>
    rw [hs] at hev
    refine ⟨N, hev, (hE N).2 hNd, hN1, by simp; omega, ?_⟩
    intro u hu h _
    exact hleast u ((hE u).1 hu) h
  | true =>
    rw [hs] at hev
    obtain ⟨s1, s2, s3, s4⟩ := skipTo_spec I d.notUntil hI0 (d.notUntil - N).toNat N (by omega)
    generalize hR : skipTo I d.notUntil (d.notUntil - N).toNat N = R at hev s1 s2 s3 s4
    have hRd : I ∣ R + off - d.hour * 3600 := by
      have := Int.dvd_add s1 hNd
      rwa [show R - N + (N + off - d.hour * 3600) = R + off - d.hour * 3600 by omega] at this
    refine ⟨R, hev, (hE R).2 hRd, by omega, by simpa using s3, ?_⟩
    intro u hu h1 h2
    have hu := (hE u).1 hu
    have h2 : d.notUntil ≤ u := by simpa using h2
    rcases s4 with s4 | s4
    · rw [s4]; exact hleast u hu h1
    · have h3 : I ∣ u - R := by
        have := Int.dvd_sub hu hRd
        rwa [show u + off - d.hour * 3600 - (R + off - d.hour * 3600) = u - R by omega] at this
      have := dvd_small hI0 h3 (by omega)
      omega

/-! ### Rates -/

theorem drain_eq (m : Int) (hm : 0 < m) : ∀ (fuel : Nat) (b : Int), 0 ≤ b → b ≤ fuel →
    drain m fuel b = some ((b / m).toNat, b % m) := by
  intro fuel
  induction fuel with
  | zero =>
    intro b h0 h
    have hb : b = 0 := by omega
    subst hb
    unfold drain
    rw [if_neg (show ¬ (0 : Int) ≥ m by omega)]
    simp
  | succ fuel ih =>
    intro b h0 h
    unfold drain
    by_cases hb : b ≥ m
    · rw [if_pos hb]
      have e1 : (b - m) / m = b / m - 1 := by
        have := Int.sub_mul_ediv_right b 1 (show m ≠ 0 by omega)
        rwa [Int.one_mul] at this
      have e2 : (b - m) % m = b % m := Int.sub_emod_right b m
      have e3 : 1 ≤ b / m := (Int.le_ediv_iff_mul_le hm).2 (by omega)
      show (drain m fuel (b - m)).map _ = _
      rw [ih (b - m) (by omega) (by omega), e1, e2]
      simp only [Option.map_some, Option.some.injEq, Prod.mk.injEq, and_true]
      omega
    · rw [if_neg hb]
      rw [Int.ediv_eq_zero_of_lt h0 (by omega), Int.emod_eq_of_lt h0 (by omega)]
      rfl

theorem copy_eq {α : Type} (p m : Int) (hm : 0 < m) (hp : 0 ≤ p) (xs : List α) : ∀ (acc done : Int),
    0 ≤ acc - m * done → xs ≠ [] →
    copy p m (acc - m * done) xs = some (resample p m acc done xs, (acc + xs.length * p) % m) := by
  induction xs with
  | nil => intro _ _ _ h; exact absurd rfl h
  | cons x xs ih =>
    intro acc done h0 _
    have e0 : acc - m * done + p = (acc + p) + (-done) * m := by
      rw [Int.neg_mul, Int.mul_comm done m]; omega
    have e1 : (acc - m * done + p) / m = (acc + p) / m - done := by
      rw [e0, Int.add_mul_ediv_right _ _ (show m ≠ 0 by omega)]; omega
    have e2 : (acc - m * done + p) % m = (acc + p) % m := by
      rw [e0, Int.add_mul_emod_self_right]
    have e3 : (acc + p) % m = acc + p - m * ((acc + p) / m) := by
      have := Int.mul_ediv_add_emod (acc + p) m; omega
    unfold copy
    rw [drain_eq m hm _ _ (by omega) (by omega), e1, e2]
    simp only
    by_cases hx : xs = []
    · subst hx
      simp [copy, resample]
    · rw [e3, ih (acc + p) ((acc + p) / m) (by rw [← e3]; exact Int.emod_nonneg _ (by omega)) hx]
      simp only [Option.map_some, Option.some.injEq, Prod.mk.injEq, List.length_cons]
      refine ⟨rfl, ?_⟩
      have : ((xs.length + 1 : Nat) : Int) * p = p + xs.length * p := by
        rw [show ((xs.length + 1 : Nat) : Int) = 1 + xs.length by omega, Int.add_mul, Int.one_mul]
      rw [this, Int.add_assoc]

theorem resample_length {α : Type} (p m : Int) (hm : 0 < m) (hp : 0 ≤ p) (xs : List α) : ∀ (acc done : Int),
    m * done ≤ acc → xs ≠ [] →
    ((resample p m acc done xs).length : Int) = (acc + xs.length * p) / m - done := by
  induction xs with
  | nil => intro _ _ _ h; exact absurd rfl h
  | cons x xs ih =>
    intro acc done h0 _
    have hge : done ≤ (acc + p) / m := (Int.le_ediv_iff_mul_le hm).2 (by rw [Int.mul_comm]; omega)
    unfold resample
    rw [List.length_append, List.length_replicate]
    by_cases hx : xs = []
    · subst hx
      simp [resample]
      omega
    · have hle : m * ((acc + p) / m) ≤ acc + p := Int.mul_ediv_self_le (by omega)
      have := ih (acc + p) ((acc + p) / m) hle hx
      have e : ((xs.length + 1 : Nat) : Int) * p = p + xs.length * p := by
        rw [show ((xs.length + 1 : Nat) : Int) = 1 + xs.length by omega, Int.add_mul, Int.one_mul]
      rw [List.length_cons, e, ← Int.add_assoc]
      omega

/-- What holds of a rate adjuster at all times, as long as the clock is not set back. -/
structure Rate.WF (r : Rate) : Prop where
  iN : 0 ≤ r.iN
  iD : 0 < r.iD
  oN : 0 ≤ r.oN
  oD : 0 < r.oD
  bucket : 0 ≤ r.bucket
  epoch : r.epoch.sec ≠ 0

theorem estimate_wf (r : Rate) (now : T) (k : Int) (h : r.WF) (hk : 0 < k) (hnow : toMicro r.epoch ≤ toMicro now)
    (hpos : 0 < r.epoch.sec) :
    (r.estimate now k).WF ∧ 0 < (r.estimate now k).iN ∧ (r.estimate now k).bucket = r.bucket ∧
    (r.estimate now k).oN = r.oN ∧ (r.estimate now k).oD = r.oD := by
  obtain ⟨a, b, c, d, e, f⟩ := h
  have hd : 0 ≤ msecdiff now r.epoch := by
    have h' := tdivmod (now.usec - r.epoch.usec) 1000 (by omega)
    unfold msecdiff
    unfold toMicro at *
    simp only
    rcases h' with ⟨h1, h2, -⟩ | ⟨h1, h2, -⟩ <;> rw [h2] <;> split <;> (try split) <;> omega
  unfold Rate.estimate
  rw [if_neg f]
  simp only
  rw [Int.tdiv_eq_ediv_of_nonneg hd]
  have hq : 0 ≤ msecdiff now r.epoch / 100 := by omega
  generalize msecdiff now r.epoch / 100 = q at hq
  have hD : 0 < (if q = 0 then 1 else q) := by split <;> omega
  generalize (if q = 0 then 1 else q) = D at hD
  split
  · rename_i hD'
    have hN : 0 < ((r.iN + k * 10) * (D - 10)).tdiv D := by
      rw [Int.tdiv_eq_ediv_of_nonneg (Int.mul_nonneg (by omega) (by omega))]
      have h1 : 10 * (D - 10) ≤ (r.iN + k * 10) * (D - 10) := Int.mul_le_mul_of_nonneg_right (by omega) (by omega)
      have := (Int.le_ediv_iff_mul_le hD (a := 1) (b := (r.iN + k * 10) * (D - 10))).2 (by omega)
      omega
    refine ⟨⟨by show 0 ≤ ((r.iN + k * 10) * (D - 10)).tdiv D; omega, by show 0 < D - 10; omega, c, d, e,
      by show r.epoch.sec + 1 ≠ 0; omega⟩, hN, rfl, rfl, rfl⟩
  · refine ⟨⟨by show 0 ≤ r.iN + k * 10; omega, hD, c, d, e, f⟩, by show 0 < r.iN + k * 10; omega, rfl, rfl, rfl⟩

theorem estimate_early (r : Rate) (now : T) (k : Int) (he : r.epoch.sec ≠ 0) (h1 : toMicro r.epoch + 1000000 ≤ toMicro now)
    (h2 : toMicro now ≤ toMicro r.epoch + 10000000) :
    (r.estimate now k).iN = r.iN + k * 10 ∧ (r.estimate now k).epoch = r.epoch ∧
    (r.estimate now k).iD * 100000 < toMicro now - toMicro r.epoch + 1000 ∧
    toMicro now - toMicro r.epoch < ((r.estimate now k).iD + 1) * 100000 + 1000 := by
  have hb := msecdiff_bounds now r.epoch (by omega)
  have hle := msecdiff_le_of now r.epoch 10000 (by omega) (by omega)
  unfold Rate.estimate
  rw [if_neg he]
  simp only
  rw [Int.tdiv_eq_ediv_of_nonneg (by omega), if_neg (show ¬ msecdiff now r.epoch / 100 = 0 by omega),
    if_neg (show ¬ msecdiff now r.epoch / 100 > 100 by omega)]
  refine ⟨rfl, rfl, ?_, ?_⟩ <;> simp only <;> omega

theorem estimates_early (evs : List (T × Int)) : ∀ (r : Rate), r.epoch.sec ≠ 0 →
    (∀ e ∈ evs, toMicro r.epoch + 1000000 ≤ toMicro e.1 ∧ toMicro e.1 ≤ toMicro r.epoch + 10000000) →
    (evs.foldl (fun r e => r.estimate e.1 e.2) r).iN = r.iN + (evs.map (·.2)).sum * 10 ∧
    (evs.foldl (fun r e => r.estimate e.1 e.2) r).epoch = r.epoch := by
  induction evs with
  | nil => intro r _ _; simp
  | cons e evs ih =>
    intro r he hall
    obtain ⟨a, b⟩ := hall e (by simp)
    obtain ⟨e1, e2, -⟩ := estimate_early r e.1 e.2 he a b
    obtain ⟨i1, i2⟩ := ih (r.estimate e.1 e.2) (by rw [e2]; exact he)
      (by rw [e2]; exact fun x hx => hall x (List.mem_cons_of_mem _ hx))
    rw [List.foldl_cons, i1, i2, e1, e2, List.map_cons, List.sum_cons]
    exact ⟨by omega, rfl⟩

end Wv.Timed
