/-
What C77 says, without the model: time that has passed on a clock that may be set back, ticks at a steady rate, moments
that are evenly spread over the day, and a signal whose samples are repeated or left out to fit another rate. Moments are
numbers of microseconds, except where seconds are said.
-/
namespace Spec.Timed

/-- The time that has passed when a clock was read at these moments one after the other: each step forwards counts, a step
    back does not. -/
def elapsed : Int → List Int → Int
  | _, [] => 0
  | t, u :: us => (if t ≤ u then u - t else 0) + elapsed u us

/-- Each moment is not before the one before it. -/
def Forwards : Int → List Int → Prop
  | _, [] => True
  | t, u :: us => t ≤ u ∧ Forwards u us

/-- When tick number `k` (the first is number 0) of a timer of `ms` milliseconds that was started at `start` is due. -/
def due (start ms : Int) (k : Nat) : Int := start + (k + 1) * ms * 1000

/-- Which of the looks at the clock are ticks, if each look at which the next tick is due is that tick; `k` ticks were
    before. -/
def ticks (start ms : Int) : Nat → List Int → List Bool
  | _, [] => []
  | k, t :: ts => if due start ms k ≤ t then true :: ticks start ms (k + 1) ts else false :: ticks start ms k ts

/-- No look is more than 101 periods later than the tick it should see. -/
def keepsUp (start ms : Int) : Nat → List Int → Prop
  | _, [] => True
  | k, t :: ts => t ≤ due start ms k + 101 * ms * 1000 ∧
      (if due start ms k ≤ t then keepsUp start ms (k + 1) ts else keepsUp start ms k ts)

/-- `t` (in seconds) is a moment of the day's events: every 86400 / n seconds, one of them at `hour` o'clock, where the
    local time is `off` seconds ahead. -/
def Event (off hour n t : Int) : Prop := (t + off - hour * 3600) % (86400 / n) = 0

/-- `t` is the first event after `prev` and not before `notUntil`. -/
def FirstEvent (off hour n prev notUntil t : Int) : Prop :=
  Event off hour n t ∧ prev < t ∧ notUntil ≤ t ∧ ∀ u, Event off hour n u → prev < u → notUntil ≤ u → t ≤ u

/-- The samples `xs`, each as often as it takes for `(b + i * p) / m` samples to be out after the `i`-th of them; `done` are
    out. -/
def resample {α : Type} (p m : Int) : Int → Int → List α → List α
  | _, _, [] => []
  | acc, done, x :: xs => List.replicate (((acc + p) / m) - done).toNat x ++ resample p m (acc + p) ((acc + p) / m) xs

end Spec.Timed
