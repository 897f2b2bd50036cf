import Verif.Lemmas.Timed
/- C77: what waits for a moment. -/
namespace Props
open Wv.Time Wv.Timed Spec.Timed

/-! ### The alarm of a stream -/

/-- C77 (alarm): an alarm of `ms` milliseconds is set at `t0`. However often the stream is looked at afterwards and
    whatever the clock does meanwhile, also if it is set back: the alarm rings once `ms` milliseconds have passed, counting
    only the steps forwards, and otherwise `alarm_remaining` says how much is left of them, give or take less than a
    millisecond. Hypothesis that cannot be dropped: the clock was not set back since the stream was last looked at before
    (`C77_alarm_fails`). -/
theorem C77_alarm_partial (a : Alarm) (t0 now : T) (ms : Int) (ts : List T) (hms : 0 ≤ ms ∧ ms ≤ 2147483647)
    (hl : NormalTime a.last) (hback : toMicro a.last ≤ toMicro t0)
    (ht0 : NormalTime t0 ∧ 1000000 ≤ toMicro t0)
    (hall : ∀ t ∈ ts ++ [now], NormalTime t ∧ 1000000 ≤ toMicro t)
    (hfirst : ∀ t ∈ (ts ++ [now]).head?, toMicro t0 ≤ toMicro t)
    (hnot : elapsed (toMicro t0) (ts.map toMicro) ≤ ms * 1000) :
    (ms * 1000 ≤ elapsed (toMicro t0) ((ts ++ [now]).map toMicro) → ((a.set t0 ms).checks ts now).1 = 0) ∧
    (elapsed (toMicro t0) ((ts ++ [now]).map toMicro) < ms * 1000 →
      ms * 1000 - elapsed (toMicro t0) ((ts ++ [now]).map toMicro) - 1000 < ((a.set t0 ms).checks ts now).1 * 1000 ∧
      ((a.set t0 ms).checks ts now).1 * 1000 < ms * 1000 - elapsed (toMicro t0) ((ts ++ [now]).map toMicro) + 1000) := by
  have hset : a.set t0 ms = ⟨msecadd t0 ms, a.last⟩ := by
    unfold Alarm.set; rw [if_pos (by omega)]
  obtain ⟨m1, m2⟩ := C36_msecadd t0 ms ht0.1
  have key : toMicro ((a.set t0 ms).checks ts now).2.time
      = toMicro now + ms * 1000 - elapsed (toMicro t0) ((ts ++ [now]).map toMicro) ∧
    ((a.set t0 ms).checks ts now).1 = (if msecdiff ((a.set t0 ms).checks ts now).2.time now < 0 then 0
      else msecdiff ((a.set t0 ms).checks ts now).2.time now) := by
    rw [hset]
    cases ts with
    | nil =>
      obtain ⟨hn, hn1⟩ := hall now (by simp)
      have hf : toMicro t0 ≤ toMicro now := hfirst now (by simp)
      obtain ⟨-, -, e3, e4⟩ := remaining_eq ⟨msecadd t0 ms, a.last⟩ now (sec_pos m2 (show 1000000 ≤ toMicro (msecadd t0 ms) by omega)) m2 hl hn
      refine ⟨?_, e4⟩
      show toMicro ((Alarm.mk (msecadd t0 ms) a.last).remaining now).2.time
        = toMicro now + ms * 1000 - ((if toMicro t0 ≤ toMicro now then toMicro now - toMicro t0 else 0) + 0)
      rw [e3, if_pos hf, if_neg (show ¬ toMicro now < toMicro a.last by omega)]
      show toMicro (msecadd t0 ms) - 0 = _
      rw [m1]; omega
    | cons t ts =>
      obtain ⟨hn, hn1⟩ := hall t (by simp)
      have hf : toMicro t0 ≤ toMicro t := hfirst t (by simp)
      have hnot : (if toMicro t0 ≤ toMicro t then toMicro t - toMicro t0 else 0)
        + elapsed (toMicro t) (ts.map toMicro) ≤ ms * 1000 := hnot
      rw [if_pos hf] at hnot
      obtain ⟨e1, e2, e3, -⟩ := remaining_eq ⟨msecadd t0 ms, a.last⟩ t (sec_pos m2 (show 1000000 ≤ toMicro (msecadd t0 ms) by omega)) m2 hl hn
      rw [if_neg (show ¬ toMicro t < toMicro a.last by omega)] at e3
      have e3 : _ = toMicro (msecadd t0 ms) - 0 := e3
      have := checks_eq ts ((Alarm.mk (msecadd t0 ms) a.last).remaining t).2 (ms * 1000 - (toMicro t - toMicro t0)) now e1
        (by rw [e2]; exact hn) (by rw [e2]; exact hn1) (by rw [e2, e3, m1]; omega) (by rw [e2]; omega)
        (fun u hu => hall u (by simp at hu ⊢; exact Or.inr hu))
      rw [e2] at this
      refine ⟨?_, this.2⟩
      show toMicro (((Alarm.mk (msecadd t0 ms) a.last).remaining t).2.checks ts now).2.time = toMicro now + ms * 1000
        - ((if toMicro t0 ≤ toMicro t then toMicro t - toMicro t0 else 0)
          + elapsed (toMicro t) ((ts ++ [now]).map toMicro))
      rw [this.1, if_pos hf]; omega
  obtain ⟨k1, k2⟩ := key
  have hp := elapsed_nonneg ((ts ++ [now]).map toMicro) (toMicro t0)
  constructor
  · intro h
    rw [k2]
    have := msecdiff_le ((a.set t0 ms).checks ts now).2.time now (by omega)
    split <;> omega
  · intro h
    rw [k2]
    have := msecdiff_bounds ((a.set t0 ms).checks ts now).2.time now (by omega)
    split <;> omega

/-- Three seconds; the clock is set back by a minute after one of them, and two more pass. -/
example : ((Alarm.init.set ⟨1000, 0⟩ 3000).checks [⟨1001, 0⟩, ⟨941, 0⟩, ⟨942, 500⟩] ⟨943, 0⟩).1 = 0 ∧
    ((Alarm.init.set ⟨1000, 0⟩ 3000).checks [⟨1001, 0⟩, ⟨941, 0⟩] ⟨942, 0⟩).1 = 1000 := by decide

/-- C77: an alarm that is set after the clock was set back rings too early. The stream was looked at at 1000 seconds, the
    clock was set back to 500 seconds, and an alarm of 100 seconds rings at once. -/
theorem C77_alarm_fails : ¬ ∀ (a : Alarm) (t0 : T) (ms : Int), 0 < ms → 1000000 ≤ toMicro t0 → NormalTime t0 →
    NormalTime a.last → ((a.set t0 ms).remaining t0).1 = ms := by
  intro h
  exact absurd (h ⟨⟨0, 0⟩, ⟨1000, 0⟩⟩ ⟨500, 0⟩ 100000 (by decide) (by decide) (by unfold NormalTime; decide)
    (by unfold NormalTime; decide)) (by decide)

/-- C77 (no alarm): without an alarm nothing rings and the wait is as long as it was; a negative number of milliseconds
    takes the alarm away; and an alarm that rang is gone after the callback. -/
theorem C77_no_alarm (a : Alarm) (now then_ : T) (timeout ms : Int) (hms : ms < 0) :
    (Alarm.init.remaining now).1 = -1 ∧
    ((a.set now ms).remaining then_).1 = -1 ∧
    ((a.set now ms).preSelect then_ timeout).1 = timeout ∧
    ((a.set now ms).postSelect then_).1 = false ∧
    ((a.callback now).1 = true → ((a.callback now).2.remaining then_).1 = -1) ∧
    ((a.callback now).1 = true ↔ (a.remaining now).1 = 0) := by
  have hset : a.set now ms = ⟨⟨0, 0⟩, a.last⟩ := by
    unfold Alarm.set; rw [if_neg (by omega)]
  have hr : ∀ l t, (Alarm.mk ⟨0, 0⟩ l).remaining t = (-1, ⟨⟨0, 0⟩, l⟩) := by
    intro l t; unfold Alarm.remaining; rw [if_neg (fun h => h rfl)]
  refine ⟨by rw [show Alarm.init = ⟨⟨0, 0⟩, ⟨0, 0⟩⟩ from rfl, hr], by rw [hset, hr], ?_, ?_, ?_, ?_⟩
  · rw [hset]; unfold Alarm.preSelect; rw [hr]; simp
  · rw [hset]; unfold Alarm.postSelect; rw [hr]; simp
  · unfold Alarm.callback
    simp only
    by_cases h : (a.remaining now).1 = 0
    · rw [if_pos h]; intro _; simp only; rw [hr]
    · rw [if_neg h]; intro h'; cases h'
  · unfold Alarm.callback
    simp only
    by_cases h : (a.remaining now).1 = 0
    · rw [if_pos h]; simp [h]
    · rw [if_neg h]; simp [h]

/-- C77 (waiting for the alarm): the program does not sleep more than 10 milliseconds beyond the alarm, does not sleep
    longer than it was going to unless by less than 10 milliseconds, does not sleep at all if the alarm rings, and the
    stream is ready exactly if the alarm rings. -/
theorem C77_alarm_wait (a : Alarm) (now : T) (timeout : Int) :
    ((a.remaining now).1 = 0 → (a.preSelect now timeout).1 = 0) ∧
    (0 < (a.remaining now).1 → 0 ≤ (a.preSelect now timeout).1 ∧ (a.preSelect now timeout).1 ≤ (a.remaining now).1 + 10) ∧
    (0 ≤ timeout → 0 ≤ (a.preSelect now timeout).1 ∧ (a.preSelect now timeout).1 < timeout + 10) ∧
    ((a.postSelect now).1 = true ↔ (a.remaining now).1 = 0) := by
  unfold Alarm.preSelect Alarm.postSelect
  simp only
  refine ⟨fun h => by rw [if_pos h], fun h => ?_, fun h => ?_, by simp⟩
  · rw [if_neg (by omega)]
    split
    · simp only; omega
    · simp only; omega
  · split
    · simp only; omega
    · split <;> simp only <;> omega

example : (Alarm.preSelect ⟨⟨1000, 0⟩, ⟨990, 0⟩⟩ ⟨999, 995000⟩ 6).1 = 15 := by decide

/-! ### A stream that ticks -/

/-- C77 (ticks, never too many): a timer of `ms` milliseconds is started, and then the program goes round its loop in
    whatever way, with the stream being ready for other reasons or its alarm ringing in any of the rounds. On a clock that
    goes forwards `k` ticks take at least `k * ms` milliseconds. -/
theorem C77_tick_rate (start : T) (ms : Int) (rs : List Round) (r : Round) (hms : 0 < ms) (hs : NormalTime start)
    (hn : ∀ r' ∈ rs ++ [r], NormalTime r'.post) (hf : Forwards (toMicro start) (times (rs ++ [r]))) :
    ((((Tick.setTimer start ms).rounds (rs ++ [r])).1.count true : Nat) : Int) * ms * 1000
      ≤ toMicro r.post - toMicro start := by
  obtain ⟨a1, a2⟩ := C36_msecadd start ms hs
  have hset : Tick.setTimer start ms = ⟨start, msecadd start ms, ms⟩ := by
    unfold Tick.setTimer; simp only; rw [if_pos hms]
  have h0 : Behind (toMicro start) ms (Tick.setTimer start ms) (toMicro start) 0 := by
    rw [hset]
    refine ⟨rfl, a2, Int.le_refl _, ?_, ?_⟩
    · rw [due_zero]; omega
    · rw [due_zero]; show _ ≤ toMicro (msecadd start ms); rw [a1]; exact Int.le_refl _
  have := (rounds_behind hms rs _ _ 0 r h0 hf hn).done
  unfold due at this
  rw [Nat.zero_add] at this
  generalize hc : ((Tick.setTimer start ms).rounds (rs ++ [r])).1.count true = c at this ⊢
  have e : ((c : Int) + 1) * ms = (c : Int) * ms + ms := by rw [Int.add_mul, Int.one_mul]
  rw [e] at this
  omega

/-- C77 (ticks, no drift): if nothing but the timer makes the stream ready and no tick is seen more than 101 periods
    late, the ticks are those of an ideal clock: tick number `k` is seen in the first round after `start + (k + 1) * ms`, at
    most one in a round, and no tick is lost. Missing: later than that ticks are dropped, see `C77_tick_dropped_partial`;
    and a round in which the stream is ready for another reason loses a tick, see `C77_tick_lost_fails`. -/
theorem C77_tick_steady_partial (start : T) (ms : Int) (rs : List Round) (hms : 0 < ms) (hs : NormalTime start)
    (hf : Forwards (toMicro start) (times rs)) (hb : ∀ r ∈ rs, r.base = false ∧ r.alarm = false)
    (hk : keepsUp (toMicro start) ms 0 (rs.map fun r => toMicro r.post)) :
    ((Tick.setTimer start ms).rounds rs).1 = ticks (toMicro start) ms 0 (rs.map fun r => toMicro r.post) := by
  obtain ⟨a1, a2⟩ := C36_msecadd start ms hs
  have hset : Tick.setTimer start ms = ⟨start, msecadd start ms, ms⟩ := by
    unfold Tick.setTimer; simp only; rw [if_pos hms]
  rw [hset]
  exact rounds_ticks hms rs _ _ 0 rfl a2 (by show toMicro (msecadd start ms) = _; rw [a1, due_zero]) (Int.le_refl _) hf hb hk

/-- Every 100 ms; the program looks after 50, 130, 450, 451, 452 and 501 ms. -/
example : ((Tick.setTimer ⟨1000, 0⟩ 100).rounds ([50, 130, 450, 451, 452, 501].map fun n =>
      ⟨⟨1000, n * 1000⟩, ⟨1000, n * 1000⟩, false, false⟩)).1 = [false, true, true, true, true, true] ∧
    keepsUp 1000000000 100 0 ([50, 130, 450, 451, 452, 501].map fun n => 1000000000 + n * 1000) := by
  constructor
  · decide
  · simp [keepsUp, due]

/-- C77: a timer of 100 ms; after 50 ms the stream is ready for another reason. The tick that is due after 100 ms is not
    seen after 150 ms. -/
theorem C77_tick_lost_fails : ¬ ∀ (start : T) (ms : Int) (rs : List Round), 0 < ms → NormalTime start →
    Forwards (toMicro start) (times rs) → keepsUp (toMicro start) ms 0 (rs.map fun r => toMicro r.post) →
    ((Tick.setTimer start ms).rounds rs).1 = ticks (toMicro start) ms 0 (rs.map fun r => toMicro r.post) := by
  intro h
  have := h ⟨1000, 0⟩ 100 [⟨⟨1000, 50000⟩, ⟨1000, 50000⟩, true, false⟩, ⟨⟨1000, 150000⟩, ⟨1000, 150000⟩, false, false⟩]
    (by decide) (by unfold NormalTime; decide) (by simp [times, Forwards, toMicro]) (by simp [keepsUp, due, toMicro])
  exact absurd this (by decide)

/-- C77 (ticks that were missed): a tick that is more than 101 periods and a millisecond late starts anew: the next one is
    due a period later. The period is at most 21474836 ms (about six hours), see `C77_tick_dropped_fails`. -/
theorem C77_tick_dropped_partial (s : Tick) (now : T) (hn : NormalTime now) (hx : NormalTime s.next)
    (hms : 0 < s.ms ∧ s.ms ≤ 21474836) (hlate : toMicro s.next + 101 * s.ms * 1000 + 1000 ≤ toMicro now) :
    toMicro (s.execute now false).next = toMicro now + s.ms * 1000 := by
  obtain ⟨a1, a2⟩ := C36_msecadd s.next s.ms hx
  obtain ⟨b1, b2⟩ := C36_msecadd now s.ms hn
  have e := msecdiff_gt_of now (msecadd s.next s.ms) (s.ms * 100) (by omega) (by rw [a1]; omega)
  unfold Tick.execute
  simp only [Bool.not_false, if_true]
  rw [if_pos (Or.inr e)]
  exact b1

example : ((Tick.mk ⟨1000, 0⟩ ⟨1000, 0⟩ 100).execute ⟨1010, 102000⟩ false).next = ⟨1010, 202000⟩ ∧
    ((Tick.mk ⟨1000, 0⟩ ⟨1000, 0⟩ 100).execute ⟨1010, 100000⟩ false).next = ⟨1000, 100000⟩ := by decide

/-- C77: a period of 30000 seconds is never started anew, since 100 periods are more milliseconds than the difference
    between two times can be. After 200 periods the next tick is long due. -/
theorem C77_tick_dropped_fails : ¬ ∀ (s : Tick) (now : T), NormalTime now → NormalTime s.next → 0 < s.ms →
    toMicro s.next + 101 * s.ms * 1000 + 1000 ≤ toMicro now →
    toMicro (s.execute now false).next = toMicro now + s.ms * 1000 := by
  intro h
  exact absurd (h ⟨⟨1000, 0⟩, ⟨1000, 0⟩, 30000000⟩ ⟨6001000, 0⟩ (by unfold NormalTime; decide) (by unfold NormalTime; decide)
    (by decide) (by decide)) (by decide)

/-- C77: the code means to compensate when a timer is more than ten periods late (streams/wvtimestream.cc:93-95), but it
    compares the wrong way round: 50 periods late, the next tick is due at once. -/
theorem C77_tick_compensate_fails : ¬ ∀ (s : Tick) (now : T), NormalTime now → NormalTime s.next → 0 < s.ms →
    toMicro s.next + 12 * s.ms * 1000 ≤ toMicro now → toMicro now < toMicro (s.execute now false).next := by
  intro h
  exact absurd (h ⟨⟨1000, 0⟩, ⟨1000, 0⟩, 100⟩ ⟨1005, 0⟩ (by unfold NormalTime; decide) (by unfold NormalTime; decide)
    (by decide) (by decide)) (by decide)

/-- C77 (a clock that is set back): whatever the clock does between the looks, the first tick is due when `ms`
    milliseconds have passed, counting only the steps forwards. -/
theorem C77_tick_clock (start now : T) (ms : Int) (ts : List T) (hms : 0 < ms) (hs : NormalTime start)
    (hall : ∀ t ∈ ts ++ [now], NormalTime t) :
    ((ts ++ [now]).foldl (fun s t => (s.preSelect t (-1)).2) (Tick.setTimer start ms)).postSelect now false = true ↔
      ms * 1000 ≤ elapsed (toMicro start) ((ts ++ [now]).map toMicro) := by
  obtain ⟨a1, a2⟩ := C36_msecadd start ms hs
  have hset : Tick.setTimer start ms = ⟨start, msecadd start ms, ms⟩ := by
    unfold Tick.setTimer; simp only; rw [if_pos hms]
  rw [hset]
  obtain ⟨i1, i2, i3⟩ := looks_next (ts ++ [now]) ⟨start, msecadd start ms, ms⟩ (ms * 1000) (by show ms ≠ 0; omega) a2 hs hall
    a1
  rw [List.getLast?_append] at i3
  simp only [List.getLast?_singleton, Option.some_or, Option.getD_some] at i3
  unfold Tick.postSelect
  have i1 : _ = ms := i1
  have i2 : _ = _ + ms * 1000 - elapsed (toMicro start) ((ts ++ [now]).map toMicro) := i2
  rw [i1, i2, i3]
  simp only [Bool.false_or, Bool.and_eq_true, decide_eq_true_eq]
  omega

example : ([⟨1000, 60000⟩, ⟨500, 0⟩, ⟨500, 40000⟩].foldl (fun s t => (s.preSelect t (-1)).2)
    (Tick.setTimer ⟨1000, 0⟩ 100)).postSelect ⟨500, 40000⟩ false = true := by decide

/-- C77 (waiting for a tick): the program does not wait longer than it was going to; it does not wait at all if a tick is
    due, and otherwise until the tick, less than a millisecond beyond it; and less than a millisecond short of it, unless it
    was not going to wait that long. The stream is ready if the tick is due. -/
theorem C77_tick_wait (s : Tick) (now : T) (timeout : Int) (hms : s.ms ≠ 0)
    (hfar : toMicro (s.preSelect now timeout).2.next - toMicro now ≤ 2147483647000) :
    (toMicro (s.preSelect now timeout).2.next ≤ toMicro now → (s.preSelect now timeout).1 = 0) ∧
    (toMicro now < toMicro (s.preSelect now timeout).2.next →
      toMicro now + (s.preSelect now timeout).1 * 1000 < toMicro (s.preSelect now timeout).2.next + 1000 ∧
      (toMicro (s.preSelect now timeout).2.next < toMicro now + (s.preSelect now timeout).1 * 1000 + 1000 ∨
        (s.preSelect now timeout).1 = timeout)) ∧
    0 ≤ (s.preSelect now timeout).1 ∧ (0 ≤ timeout → (s.preSelect now timeout).1 ≤ timeout) ∧
    ((s.preSelect now timeout).2.postSelect now false = true ↔ toMicro (s.preSelect now timeout).2.next ≤ toMicro now) := by
  have hms' : (s.preSelect now timeout).2.ms = s.ms := by
    unfold Tick.preSelect; rw [if_pos hms]; simp only
    generalize (if toMicro now < toMicro s.last then tvdiff s.next (tvdiff s.last now) else s.next) = nx
    split <;> rfl
  have hpost : (s.preSelect now timeout).2.postSelect now false = true ↔
      toMicro (s.preSelect now timeout).2.next ≤ toMicro now := by
    unfold Tick.postSelect; rw [hms']; simp [hms]
  have hd : (s.preSelect now timeout).1 = (if toMicro (s.preSelect now timeout).2.next ≤ toMicro now then 0 else
      if (if msecdiff (s.preSelect now timeout).2.next now < 0 then 0 else msecdiff (s.preSelect now timeout).2.next now)
        < timeout ∨ timeout < 0 then
        (if msecdiff (s.preSelect now timeout).2.next now < 0 then 0 else msecdiff (s.preSelect now timeout).2.next now)
      else timeout) := by
    unfold Tick.preSelect; rw [if_pos hms]; simp only
    generalize (if toMicro now < toMicro s.last then tvdiff s.next (tvdiff s.last now) else s.next) = nx
    by_cases h : toMicro nx ≤ toMicro now
    · simp only [if_pos h]
    · simp only [if_neg h]
  refine ⟨fun h => by rw [hd, if_pos h], fun h => ?_, ?_, fun h => ?_, hpost⟩
  · rw [hd, if_neg (by omega)]
    have := msecdiff_bounds (s.preSelect now timeout).2.next now (by omega)
    split <;> split <;> omega
  · rw [hd]; repeat' split
    all_goals omega
  · rw [hd]; repeat' split
    all_goals omega

/-- C77 (no timer): with no milliseconds, or less, the timer is off: it never makes the stream ready and does not change
    how long the program waits, whatever happened before. -/
theorem C77_tick_off (start now : T) (msec timeout : Int) (base : Bool) (rs : List Round) (h : msec ≤ 0) :
    ((Tick.setTimer start msec).rounds rs).2.postSelect now base = base ∧
    (((Tick.setTimer start msec).rounds rs).2.preSelect now timeout).1 = timeout ∧
    (Tick.init.rounds rs).2.postSelect now base = base := by
  have h1 := off_rounds rs (Tick.setTimer start msec) (by unfold Tick.setTimer; simp only; rw [if_neg (by omega)])
  have h2 := off_rounds rs Tick.init rfl
  unfold Tick.postSelect Tick.preSelect
  rw [h1, h2]
  simp

/-! ### Events every day -/

/-- C77 (daily events): if the number of events divides the seconds of a day, the next event is the first of the moments
    that are spread evenly over the day, one of them at the hour that was asked for, after the last one (and, if the first
    are to be skipped, not before that time). Missing: other numbers, see `C77_daily_even_fails`; summer time. -/
theorem C77_daily_next_partial (off : Int) (d : Daily) (hn : 0 < d.num) (hdvd : d.num ∣ 86400)
    (hh : 0 ≤ d.hour ∧ d.hour ≤ 23) (hp : 100000 < d.prev) :
    ∃ t, d.nextEvent off = some t ∧
      FirstEvent off d.hour d.num d.prev (if d.skip then d.notUntil else d.prev) t :=
  next_first off d hn hdvd hh hp

/-- C77 (daily events, from one to the next): the event after an event is a period later. -/
theorem C77_daily_even_partial (off : Int) (d : Daily) (hn : 0 < d.num) (hdvd : d.num ∣ 86400)
    (hh : 0 ≤ d.hour ∧ d.hour ≤ 23) (hp : 100000 < d.prev) (hs : d.skip = false ∨ d.notUntil ≤ d.prev)
    (hev : Event off d.hour d.num d.prev) : d.nextEvent off = some (d.prev + 86400 / d.num) := by
  obtain ⟨t, h1, h2, h3, h4, h5⟩ := next_first off d hn hdvd hh hp
  have hI0 : 0 < 86400 / d.num := Int.ediv_pos_of_pos_of_dvd (by decide) (Int.le_of_lt hn) hdvd
  unfold Event at *
  have hu := h5 (d.prev + 86400 / d.num) (by
    rw [show d.prev + 86400 / d.num + off - d.hour * 3600 = d.prev + off - d.hour * 3600 + 86400 / d.num by omega,
      Int.add_emod_right]
    exact hev) (by omega) (by
      rcases hs with hs | hs
      · rw [hs]; simp only [Bool.false_eq_true, if_false]; omega
      · split <;> omega)
  have hd1 := Int.dvd_of_emod_eq_zero hev
  have hd2 := Int.dvd_of_emod_eq_zero h2
  have hd : (86400 / d.num) ∣ (t - (d.prev + 86400 / d.num)) := by
    have := Int.dvd_sub (Int.dvd_sub hd2 hd1) (Int.dvd_refl (86400 / d.num))
    rwa [show t + off - d.hour * 3600 - (d.prev + off - d.hour * 3600) - 86400 / d.num
      = t - (d.prev + 86400 / d.num) by omega] at this
  have := dvd_small hI0 hd (by omega)
  rw [h1]
  congr 1
  omega

/-- Six events a day, one of them at 5 o'clock; the first is asked for at 22:08:30. -/
example : (Daily.mk 5 6 false false 864079710 0).nextEvent 0 = some (864000000 + 86400 + 3600) ∧
    (Daily.mk 5 6 false false (864000000 + 86400 + 3600) 0).nextEvent 0 = some (864000000 + 86400 + 5 * 3600) := by decide

/-- C77 (daily events, new): a stream for `n` events a day that is made at `now` has its first event after `now`, and if
    the first is to be skipped, not before a period, or six hours if that is less, has passed. -/
theorem C77_daily_new_partial (off now hour n : Int) (skip : Bool) (hn : 0 < n ∧ n ≤ 1440) (hdvd : n ∣ 86400)
    (hh : 0 ≤ hour ∧ hour ≤ 23) (hnow : 100000 < now) :
    ∃ t, (Daily.new now hour n skip).nextEvent off = some t ∧
      FirstEvent off hour n now (if skip then now + min (86400 / n) 21600 else now) t := by
  have hnew : Daily.new now hour n skip = ⟨hour, n, false, skip, now, now + min (86400 / n) 21600⟩ := by
    unfold Daily.new Daily.configure Daily.setNum
    simp only
    rw [if_neg (show ¬ n > 1440 by omega), if_neg (show ¬ n < 0 by omega), if_neg (show ¬ n > 86400 by omega),
      if_pos (show n ≠ 0 by omega), Int.tdiv_eq_ediv_of_nonneg (by decide)]
    congr 2
    split <;> omega
  rw [hnew]
  exact next_first off ⟨hour, n, false, skip, now, now + min (86400 / n) 21600⟩ hn.1 hdvd hh hnow

/-- C77 (daily events, set up anew): `configure` on an event that ran before starts from now, whatever was set up before; so does
    `set_num_per_day`. -/
theorem C77_daily_configure_partial (off now hour n : Int) (d : Daily) (skip : Bool) (hn : 0 < n ∧ n ≤ 1440) (hdvd : n ∣ 86400)
    (hh : 0 ≤ hour ∧ hour ≤ 23) (hnow : 100000 < now) :
    (∃ t, (d.configure now hour n skip).nextEvent off = some t ∧
      FirstEvent off hour n now (if skip then now + min (86400 / n) 21600 else now) t) ∧
    (0 ≤ d.hour ∧ d.hour ≤ 23 → ∃ t, (d.setNum now n).nextEvent off = some t ∧
      FirstEvent off d.hour n now (if d.skip then now + min (86400 / n) 21600 else now) t) := by
  have hset : ∀ d : Daily, d.setNum now n = ⟨d.hour, n, d.needReset, d.skip, now, now + min (86400 / n) 21600⟩ := by
    intro d
    unfold Daily.setNum
    simp only
    rw [if_neg (show ¬ n < 0 by omega), if_neg (show ¬ n > 86400 by omega),
      if_pos (show n ≠ 0 by omega), Int.tdiv_eq_ediv_of_nonneg (by decide)]
    congr 2
    split <;> omega
  constructor
  · unfold Daily.configure
    simp only
    rw [if_neg (show ¬ n > 1440 by omega), hset]
    exact next_first off ⟨hour, n, d.needReset, skip, now, now + min (86400 / n) 21600⟩ hn.1 hdvd hh hnow
  · intro hd
    rw [hset]
    exact next_first off ⟨d.hour, n, d.needReset, d.skip, now, now + min (86400 / n) 21600⟩ hn.1 hdvd hd hnow

example : ((Daily.new 764014400 7 3 true).configure 864014400 5 1 false).nextEvent 0 = some 864018000 := by decide

example : (Daily.new 864014400 5 1 true).nextEvent 0 = some (864018000 + 86400) ∧
    (Daily.new 864014400 5 1 false).nextEvent 0 = some 864018000 := by decide

/-- C77 (daily events, not too early): while the event is not due the stream is not ready, and nothing is changed. -/
theorem C77_daily_not_early (off : Int) (d : Daily) (t now : Int) (wall : T) (hn : d.num ≠ 0) (hr : d.needReset = false)
    (hp : 100000 < d.prev) (ht : d.nextEvent off = some t) (ht1 : 100000 < t) (hnow : now < t)
    (hwall : toMicro wall ≤ t * 1000000) : d.round off now wall = some (false, d) := by
  unfold Daily.round Daily.preSelect
  rw [if_pos hn, ht]
  simp only
  rw [if_neg (by omega), if_pos hnow]
  simp only
  unfold Daily.postSelect
  rw [ht]
  simp only
  rw [if_neg (show ¬ toMicro ⟨t, 0⟩ < toMicro wall by show ¬ t * 1000000 + 0 < _; omega), hr]
  rfl

example : (Daily.new 864014400 5 1 false).round 0 864017999 ⟨864017999, 999999⟩
    = some (false, Daily.new 864014400 5 1 false) := by decide

/-- C77 (daily events, ringing): when the event is due at the beginning of a round, the program does not wait, the stream
    is ready, and events are counted from this one on. -/
theorem C77_daily_rings (off : Int) (d : Daily) (t now timeout : Int) (wall : T) (hn : d.num ≠ 0)
    (hr : d.needReset = false) (hp : 100000 < d.prev) (ht : d.nextEvent off = some t) (ht1 : 100000 < t) (hnow : t ≤ now)
    (u : Int) (hu : ({ d with needReset := true, prev := t } : Daily).nextEvent off = some u)
    (hwall : toMicro wall ≤ u * 1000000) :
    d.preSelect off now timeout = some (0, { d with needReset := true, prev := t }) ∧
    d.round off now wall = some (true, { d with needReset := true, prev := t }) := by
  have hpre : ∀ timeout, d.preSelect off now timeout = some (0, { d with needReset := true, prev := t }) := by
    intro timeout
    unfold Daily.preSelect
    rw [if_pos hn, ht]
    simp only
    rw [if_neg (by omega), if_neg (by omega), hr]
    simp
  refine ⟨hpre timeout, ?_⟩
  unfold Daily.round
  rw [hpre]
  simp only
  unfold Daily.postSelect
  rw [hu]
  simp only
  rw [if_neg (show ¬ toMicro ⟨u, 0⟩ < toMicro wall by show ¬ u * 1000000 + 0 < _; omega)]
  rfl

example : ∃ d', (Daily.new 864014400 5 1 false).round 0 864018000 ⟨864018000, 1⟩ = some (true, d') ∧
    d'.prev = 864018000 := ⟨_, rfl, by decide⟩

/-- C77: with seven events a day there is one at 01:34:06 and one at 01:34:12, although events are to be spread evenly and
    never more than one in a minute. -/
theorem C77_daily_even_fails : ¬ ∀ (off : Int) (d : Daily) (t u : Int), 0 < d.num → d.num ≤ 1440 → 0 ≤ d.hour →
    d.hour ≤ 23 → 100000 < d.prev → d.skip = false → d.nextEvent off = some t →
    ({ d with prev := t } : Daily).nextEvent off = some u → 60 ≤ u - t := by
  intro h
  exact absurd (h 0 ⟨5, 7, false, false, 864079710, 0⟩ 864092046 864092052 (by decide) (by decide) (by decide) (by decide)
    (by decide) rfl (by decide) (by decide)) (by decide)

/-- C77: an hour before the event the program is told to wait without end: the seconds are taken for microseconds, and
    subtracted the wrong way round. -/
theorem C77_daily_wait_fails : ¬ ∀ (off : Int) (d d' : Daily) (t now timeout w : Int), 0 < d.num → 100000 < d.prev →
    d.nextEvent off = some t → now < t → d.preSelect off now timeout = some (w, d') → 0 ≤ w ∧ w ≤ (t - now) * 1000 := by
  intro h
  exact absurd (h 0 ⟨5, 1, false, false, 864014400, 0⟩ _ 864018000 864014400 (-1) (-3) (by decide) (by decide) (by decide)
    (by decide) rfl) (by decide)

/-- C77: an event that rang rings again in every round: nothing ever resets it. -/
theorem C77_daily_once_fails : ¬ ∀ (off : Int) (d d1 d2 : Daily) (u now now' : Int) (wall wall' : T), 0 < d.num →
    d.needReset = false → 100000 < d.prev → d.round off now wall = some (true, d1) → d1.nextEvent off = some u →
    now' < u → toMicro wall' ≤ u * 1000000 → d1.round off now' wall' ≠ some (true, d2) := by
  intro h
  exact h 0 ⟨5, 1, false, false, 864014400, 0⟩ ⟨5, 1, true, false, 864018000, 0⟩ ⟨5, 1, true, false, 864018000, 0⟩
    (864018000 + 86400) 864018000 864018001 ⟨864018000, 1⟩ ⟨864018001, 1⟩ (by decide) rfl (by decide) (by decide) (by decide)
    (by decide) (by decide) (by decide)

/-- C77: if the event becomes due while the program waits, it rings, but the next one is then a million times later: the
    time of the event is put down in microseconds. -/
theorem C77_daily_again_fails : ¬ ∀ (off : Int) (d d' : Daily) (now u : Int) (wall : T), 0 < d.num → d.skip = false →
    100000 < d.prev → d.round off now wall = some (true, d') → d'.nextEvent off = some u → u ≤ wall.sec + 86400 := by
  intro h
  exact absurd (h 0 ⟨5, 1, false, false, 864014400, 0⟩ ⟨5, 1, false, false, 864018000000000, 0⟩ 864017999 864018000075600
    ⟨864018000, 1⟩ (by decide) rfl (by decide) (by decide) (by decide)) (by decide)

/-- C77: without a number of events (the default, once a day according to the documentation, no events according to the
    code), the stream is ready in every round. -/
theorem C77_daily_zero_fails : ¬ ∀ (off now hour : Int) (wall : T) (d' : Daily), 100000 < now → toMicro wall < (now + 60) * 1000000 →
    (Daily.new now hour 0 true).round off now wall ≠ some (true, d') := by
  intro h
  exact h 0 864014400 5 ⟨864014400, 1⟩ ⟨5, 0, false, true, 0, 864014400 + 21600⟩ (by decide) (by decide) (by decide)

/-! ### A rate that is adjusted -/

/-- The rate adjuster to match, if there is one, has a rate. -/
def GoodRate : Option (Int × Int) → Prop
  | none => True
  | some (n, d) => 0 ≤ n ∧ 0 < d

/-- C77 (resampling): on a clock that is not set back, every sample that comes in is used, in order, repeated or left out
    so that the samples that are out are to those that came in as the two rates are to each other, to less than one
    sample; the remainder is kept for the next time. -/
theorem C77_resample_partial {α : Type} (r : Rate) (now : T) (rate : Option (Int × Int)) (xs : List α) (h : r.WF)
    (hrate : GoodRate rate) (hx : xs ≠ []) (hpos : 0 < r.epoch.sec) (hnow : toMicro r.epoch ≤ toMicro now) :
    ∃ out r', r.encode now rate xs = some (out, r') ∧ r'.WF ∧
      out = resample (r'.oN * r'.iD) (r'.iN * r'.oD) r.bucket 0 xs ∧
      out.length * (r'.iN * r'.oD) + r'.bucket = r.bucket + xs.length * (r'.oN * r'.iD) ∧
      0 ≤ r'.bucket ∧ r'.bucket < r'.iN * r'.oD := by
  obtain ⟨r1, hr1, hwf1, hb1, he1⟩ : ∃ r1 : Rate, r1 = r.matching rate ∧ r1.WF ∧ r1.bucket = r.bucket ∧ r1.epoch = r.epoch := by
    obtain ⟨a, b, c, d, e, f⟩ := h
    match rate, hrate with
    | none, _ => exact ⟨r, rfl, ⟨a, b, c, d, e, f⟩, rfl, rfl⟩
    | some (n, d'), ⟨g1, g2⟩ => exact ⟨{ r with oN := n, oD := d' }, rfl, ⟨a, b, g1, g2, e, f⟩, rfl, rfl⟩
  have hlen : 0 < (xs.length : Int) := by
    cases xs with
    | nil => exact absurd rfl hx
    | cons x xs => simp only [List.length_cons]; omega
  obtain ⟨⟨a, b, c, d, e, f⟩, hN, hb, hoN, hoD⟩ := estimate_wf r1 now xs.length hwf1 hlen (by rw [he1]; exact hnow)
    (by rw [he1]; exact hpos)
  generalize hr2 : r1.estimate now xs.length = r2 at a b c d e f hN hb hoN hoD
  have hm : 0 < r2.iN * r2.oD := Int.mul_pos hN d
  have hp : 0 ≤ r2.oN * r2.iD := Int.mul_nonneg c (Int.le_of_lt b)
  have hcopy := copy_eq (r2.oN * r2.iD) (r2.iN * r2.oD) hm hp xs r2.bucket 0 (by omega) hx
  have hl := resample_length (r2.oN * r2.iD) (r2.iN * r2.oD) hm hp xs r2.bucket 0 (by omega) hx
  rw [show r2.bucket - r2.iN * r2.oD * 0 = r2.bucket by omega] at hcopy
  have hbb : r2.bucket = r.bucket := hb.trans hb1
  refine ⟨resample (r2.oN * r2.iD) (r2.iN * r2.oD) r2.bucket 0 xs,
    { r2 with bucket := (r2.bucket + xs.length * (r2.oN * r2.iD)) % (r2.iN * r2.oD) }, ?_, ?_, ?_, ?_, ?_, ?_⟩
  · unfold Rate.encode
    rw [if_neg (by cases xs <;> simp_all)]
    simp only
    rw [← hr1, hr2, hcopy]
  · exact ⟨a, b, c, d, Int.emod_nonneg _ (by omega), f⟩
  · rw [hbb]
  · rw [hl]
    have := Int.mul_ediv_add_emod (r2.bucket + xs.length * (r2.oN * r2.iD)) (r2.iN * r2.oD)
    rw [Int.mul_comm] at this
    simp only [Int.sub_zero]
    omega
  · exact Int.emod_nonneg _ (by omega)
  · exact Int.emod_lt_of_pos _ hm

/-- C77 (a new rate adjuster) is in order, so that `C77_resample_partial` holds for every call after the other. -/
theorem C77_rate_new (now : T) (base oN oD : Int) (hb : 0 ≤ base) (hn : 0 ≤ oN) (hd : 0 < oD) (hnow : 2 ≤ now.sec) :
    (Rate.new now base oN oD).WF := by
  unfold Rate.new
  exact ⟨by show 0 ≤ base * 10; omega, by show (0 : Int) < 10; omega, hn, hd, Int.le_refl 0,
    by show now.sec - 1 ≠ 0; omega⟩

/-- 10 samples a second come in, 15 are to go out. -/
example : ((Rate.new ⟨1000, 0⟩ 10 15 1).encode ⟨1001, 0⟩ none [1, 2, 3, 4, 5, 6, 7, 8, 9, 10]).map (·.1)
    = some [1, 2, 2, 3, 4, 4, 5, 6, 6, 7, 8, 8, 9, 10, 10] := by decide

/-- C77 (the rate of the input): in the first nine seconds the estimate is the number of samples that came, and those of
    one second at the rate that was expected, over that one second and the time since, in tenths of a second. -/
theorem C77_rate_estimate (start now : T) (base oN oD k : Int) (evs : List (T × Int)) (hs : 2 ≤ start.sec)
    (hall : ∀ e ∈ evs ++ [(now, k)], toMicro start ≤ toMicro e.1 ∧ toMicro e.1 ≤ toMicro start + 9000000) :
    ((evs ++ [(now, k)]).foldl (fun r e => r.estimate e.1 e.2) (Rate.new start base oN oD)).iN
      = 10 * (base + (evs.map (·.2)).sum + k) ∧
    ((evs ++ [(now, k)]).foldl (fun r e => r.estimate e.1 e.2) (Rate.new start base oN oD)).iD * 100000
      < toMicro now - toMicro start + 1000000 + 1000 ∧
    toMicro now - toMicro start + 1000000
      < (((evs ++ [(now, k)]).foldl (fun r e => r.estimate e.1 e.2) (Rate.new start base oN oD)).iD + 1) * 100000 + 1000 := by
  have he : toMicro (Rate.new start base oN oD).epoch = toMicro start - 1000000 := by
    unfold Rate.new toMicro; simp only; omega
  have hz : (Rate.new start base oN oD).epoch.sec ≠ 0 := by
    show start.sec - 1 ≠ 0; omega
  obtain ⟨i1, i2⟩ := estimates_early evs (Rate.new start base oN oD) hz (by
    rw [he]; intro e hx; have := hall e (by simp [hx]); omega)
  rw [List.foldl_append]
  show ((evs.foldl _ (Rate.new start base oN oD)).estimate now k).iN = _ ∧
    ((evs.foldl _ (Rate.new start base oN oD)).estimate now k).iD * 100000 < _ ∧
    _ < (((evs.foldl _ (Rate.new start base oN oD)).estimate now k).iD + 1) * 100000 + 1000
  have hl := hall (now, k) (by simp)
  have hl : toMicro start ≤ toMicro now ∧ toMicro now ≤ toMicro start + 9000000 := hl
  obtain ⟨e1, -, e3, e4⟩ := estimate_early (evs.foldl (fun r e => r.estimate e.1 e.2) (Rate.new start base oN oD)) now k
    (by rw [i2]; exact hz) (by rw [i2, he]; omega) (by rw [i2, he]; omega)
  rw [i2, he] at e3 e4
  refine ⟨?_, by omega, by omega⟩
  show (Rate.estimate _ now k).iN = _
  rw [e1, i1]
  show base * 10 + _ + _ = _
  omega

/-- C77 (an old estimate): once there are more than ten seconds to count, the first second is left out, and the estimate
    stays the same to less than one of its units. -/
theorem C77_rate_forgets (r : Rate) (now : T) (k : Int) (he : 0 < r.epoch.sec) (hn : 0 ≤ r.iN) (hk : 0 ≤ k)
    (hlong : toMicro r.epoch + 10101000 ≤ toMicro now) (hmax : toMicro now - toMicro r.epoch ≤ 2147483647000) :
    toMicro (r.estimate now k).epoch = toMicro r.epoch + 1000000 ∧
    (r.estimate now k).iD * 100000 < toMicro now - toMicro (r.estimate now k).epoch + 1000 ∧
    toMicro now - toMicro (r.estimate now k).epoch < ((r.estimate now k).iD + 1) * 100000 + 1000 ∧
    (r.estimate now k).iN * ((r.estimate now k).iD + 10) ≤ (r.iN + k * 10) * (r.estimate now k).iD ∧
    (r.iN + k * 10) * (r.estimate now k).iD < ((r.estimate now k).iN + 1) * ((r.estimate now k).iD + 10) := by
  have hb := msecdiff_bounds now r.epoch (by omega)
  unfold Rate.estimate
  rw [if_neg (show ¬ r.epoch.sec = 0 by omega)]
  simp only
  rw [Int.tdiv_eq_ediv_of_nonneg (by omega), if_neg (show ¬ msecdiff now r.epoch / 100 = 0 by omega),
    if_pos (show msecdiff now r.epoch / 100 > 100 by omega)]
  have hD : 0 < msecdiff now r.epoch / 100 := by omega
  have hepoch : toMicro ⟨r.epoch.sec + 1, r.epoch.usec⟩ = toMicro r.epoch + 1000000 := by
    unfold toMicro; simp only; omega
  simp only
  rw [hepoch]
  have hnn : 0 ≤ (r.iN + k * 10) * (msecdiff now r.epoch / 100 - 10) := Int.mul_nonneg (by omega) (by omega)
  rw [Int.tdiv_eq_ediv_of_nonneg hnn, show msecdiff now r.epoch / 100 - 10 + 10 = msecdiff now r.epoch / 100 by omega]
  refine ⟨rfl, by omega, by omega, ?_, ?_⟩
  · exact Int.ediv_mul_le _ (by omega)
  · have := Int.lt_ediv_add_one_mul_self ((r.iN + k * 10) * (msecdiff now r.epoch / 100 - 10)) hD
    exact this

/-- C77: the rates are the same, and two samples come while the clock is 40 seconds back. Of the 20 samples that come
    after the clock is right again none goes out: the bucket is in debt. -/
theorem C77_resample_fails : ¬ ∀ (start now now' : T) (xs ys : List Nat) (out out' : List Nat) (r r' : Rate),
    (Rate.new start 10 10 1).encode now none xs = some (out, r) → r.encode now' none ys = some (out', r') →
    toMicro start ≤ toMicro now' → xs.length = 2 → ys.length = 20 → out' ≠ [] := by
  intro h
  exact h ⟨1000, 0⟩ ⟨960, 0⟩ ⟨1001, 0⟩ [1, 2] (List.replicate 20 7) [] []
    ⟨120, -390, 10, 1, ⟨999, 0⟩, -7800⟩ ⟨320, 20, 10, 1, ⟨999, 0⟩, -3800⟩ (by decide) (by decide) (by decide) rfl rfl rfl

end Props
