import Verif.Model.GenDelta
import Verif.Spec.Held
/- C24: held notifications are delivered in order, exactly once. -/
namespace Props
open Wv Wv.GenDelta Spec.Held
namespace Held

/-- The calls of the specification as calls of the model. -/
def op {α : Type} : Call α → Op α
  | .hold => .hold
  | .unhold => .unhold
  | .notify d => .delta d
  | .flush => .flush
  | .clear => .clear

/-- The events of the model as events of the specification. -/
def ev {α : Type} : GenDelta.Event α → Spec.Held.Event α
  | .issue d => .issue d
  | .deliver d => .deliver d
  | .clear => .clear

theorem delivered_append {α : Type} (a b : List (GenDelta.Event α)) : delivered (a ++ b) = delivered a ++ delivered b := by
  induction a with
  | nil => rfl
  | cons x a ih => cases x <;> simp [delivered, ih]

theorem fifo_append {α : Type} (a b : List (Spec.Held.Event α)) (q r s : List α) (h1 : Fifo q a r) (h2 : Fifo r b s) :
    Fifo q (a ++ b) s := by
  induction h1 with
  | done q => exact h2
  | issue q d _ _ _ ih => exact .issue _ _ _ _ (ih h2)
  | deliver q d _ _ _ ih => exact .deliver _ _ _ _ (ih h2)
  | clear q _ _ _ ih => exact .clear _ _ _ (ih h2)

/-- Nothing waits when nothing is held, and the trace is one of a queue. -/
def Sound {α : Type} (s : GenDelta.State α) : Prop := (s.nesting ≤ 0 → s.queue = []) ∧ Fifo [] (s.trace.map ev) s.queue

theorem runOps_ind {α : Type} (P : GenDelta.State α → Prop) (f : GenDelta.State α → Op α → Option (GenDelta.State α))
    (hf : ∀ s o s', P s → f s o = some s' → P s') (ops : List (Op α)) :
    ∀ s s', P s → runOps f s ops = some s' → P s' := by
  induction ops with
  | nil => rintro s s' hs ⟨⟩; exact hs
  | cons o r ih =>
    intro s s' hs h
    rw [runOps] at h
    cases ho : f s o with
    | none => rw [ho] at h; simp at h
    | some t => rw [ho] at h; exact ih t s' (hf s o t hs ho) h

theorem flush_sound {α : Type} (dispatch : GenDelta.State α → α → Option (GenDelta.State α))
    (hd : ∀ s d s', (s.nesting ≤ 0 → s.queue = []) → Fifo [] (s.trace.map ev) (d :: s.queue) → dispatch s d = some s' → Sound s') (n : Nat) :
    ∀ s s', Sound s → flush dispatch n s = some s' → Sound s' ∧ s'.queue = [] := by
  induction n with
  | zero => intro s s' _ h; simp [flush] at h
  | succ n ih =>
    intro s s' hs h
    rw [flush] at h
    cases hq : s.queue with
    | nil => rw [hq] at h; cases h; exact ⟨hs, hq⟩
    | cons d q =>
      rw [hq] at h
      simp only [] at h
      cases ho : dispatch { s with queue := q } d with
      | none => rw [ho] at h; simp at h
      | some t =>
        rw [ho] at h
        refine ih t s' (hd _ d t ?_ ?_ ho) h
        · intro hn; have := hs.1 hn; rw [hq] at this; cases this
        · have := hs.2; rw [hq] at this; exact this

theorem unhold_sound {α : Type} (fl : GenDelta.State α → Option (GenDelta.State α))
    (hf : ∀ s s', Sound s → fl s = some s' → Sound s' ∧ s'.queue = []) (s s' : GenDelta.State α) (hs : Sound s)
    (h : unhold fl s = some s') : Sound s' := by
  unfold unhold at h
  split at h
  · rename_i hp
    by_cases h1 : s.nesting = 1
    · rw [if_pos h1] at h
      cases ho : fl s with
      | none => rw [ho] at h; simp at h
      | some t =>
        rw [ho] at h
        obtain ⟨a, b⟩ := hf s t hs ho
        cases h
        exact ⟨fun _ => b, a.2⟩
    · rw [if_neg h1] at h
      cases h
      exact ⟨fun h => by dsimp only at h; omega, hs.2⟩
  · cases h

theorem exec_sound {α : Type} (cb : List α → List (Op α)) (n : Nat) : ∀ s o s', Sound s → exec cb n s o = some s' → Sound s' := by
  induction n with
  | zero => intro s o s' _ h; simp [exec] at h
  | succ n ih =>
    intro s o s' hs h
    have hdisp : ∀ (s : GenDelta.State α) d s', (s.nesting ≤ 0 → s.queue = []) → Fifo [] (s.trace.map ev) (d :: s.queue) →
        runOps (exec cb n) { s with trace := s.trace ++ [.deliver d] } (cb (delivered (s.trace ++ [.deliver d]))) = some s' →
        Sound s' := by
      intro s d s' h1 h2 h3
      refine runOps_ind Sound _ ih _ { s with trace := s.trace ++ [.deliver d] } s' ⟨h1, ?_⟩ h3
      simp only [List.map_append]
      exact fifo_append _ _ _ _ _ h2 (.deliver _ _ _ _ (.done _))
    cases o with
    | hold =>
      cases h
      refine ⟨fun h => hs.1 (by dsimp only at h; omega), hs.2⟩
    | unhold => exact unhold_sound _ (flush_sound _ hdisp n) s s' hs h
    | flush => exact (flush_sound _ hdisp n s s' hs h).1
    | clear =>
      cases h
      refine ⟨fun _ => rfl, ?_⟩
      simp only [List.map_append]
      exact fifo_append _ _ _ _ _ hs.2 (.clear _ _ _ (.done _))
    | delta d =>
      simp only [exec] at h
      by_cases h0 : s.nesting = 0
      · rw [if_pos h0] at h
        refine hdisp { s with trace := s.trace ++ [.issue d] } d s' hs.1 ?_ h
        have hq := hs.1 (by omega)
        simp only [List.map_append]
        have := hs.2
        rw [hq] at this ⊢
        exact fifo_append _ _ _ _ _ this (.issue _ _ _ _ (.done _))
      · rw [if_neg h0] at h
        by_cases hp : 0 < s.nesting
        · refine unhold_sound _ (flush_sound _ hdisp n) _ s' ⟨fun h => ?_, ?_⟩ h
          · dsimp only at h; omega
          · simp only [List.map_append]
            exact fifo_append _ _ _ _ _ hs.2 (.issue _ _ _ _ (.done _))
        · unfold unhold at h
          rw [if_neg (by dsimp only; omega)] at h
          cases h

/-- What waits at a depth of holds is delivered, if released. -/
theorem run_eq {α : Type} (ops : List (Call α)) : ∀ (n fuel : Nat) (s : GenDelta.State α), s.nesting = n → (n = 0 → s.queue = []) →
    Balanced n ops → s.queue.length + ops.length + 2 ≤ fuel →
    ∃ s', run (fun _ => []) fuel s (ops.map op) = some s' ∧
      delivered s'.trace = delivered s.trace ++ (if released n ops then s.queue else []) ++ deliveries n ops := by
  -- a flush delivers all that waits
  have hfl : ∀ (m k : Nat) (s : GenDelta.State α), s.queue.length < m →
      flush (fun s d => runOps (exec (fun _ => []) k) { s with trace := s.trace ++ [.deliver d] } []) m s =
        some { s with queue := [], trace := s.trace ++ s.queue.map .deliver } := by
    intro m
    induction m with
    | zero => intro k s h; omega
    | succ m ih =>
      intro k s h
      rw [flush]
      cases hq : s.queue with
      | nil => simp [hq]; cases s; simp_all
      | cons d q =>
        show flush _ m { s with queue := q, trace := s.trace ++ [.deliver d] } = _
        rw [ih]
        · simp
        · rw [hq] at h; simp only [List.length_cons] at h; dsimp only; omega
  have hdel : ∀ l : List α, delivered (l.map GenDelta.Event.deliver) = l := by
    intro l; induction l with
    | nil => rfl
    | cons d l ih => simp [delivered, ih]
  induction ops with
  | nil =>
    intro n fuel s hn hq _ _
    refine ⟨s, rfl, ?_⟩
    cases n with
    | zero => simp [deliveries, hq rfl]
    | succ n => simp [deliveries, released]
  | cons o ops ih =>
    intro n fuel s hn hq hb hf
    obtain ⟨f, rfl⟩ : ∃ f, fuel = f + 1 := ⟨fuel - 1, by omega⟩
    have step : ∀ t, exec (fun _ => []) (f + 1) s (op o) = some t →
        run (fun _ => []) (f + 1) s ((o :: ops).map op) = run (fun _ => []) (f + 1) t (ops.map op) := by
      intro t ht
      simp only [List.map_cons, run, runOps, ht, Option.bind_some]
    simp only [List.length_cons] at hf
    cases o with
    | hold =>
      rw [step _ rfl]
      obtain ⟨s', h1, h2⟩ := ih (n + 1) (f + 1) { s with nesting := s.nesting + 1 } (by simp [hn]) (by simp) hb (by dsimp only; omega)
      refine ⟨s', h1, ?_⟩
      rw [h2]
      cases n with
      | zero => simp [deliveries, hq rfl]
      | succ n =>
        have e : released (n + 1) (.hold :: ops) = released (n + 2) ops := by rw [released]
        rw [e]; simp [deliveries]
    | unhold =>
      cases n with
      | zero => exact absurd hb (by simp [Balanced])
      | succ n =>
        have hpos : s.nesting > 0 := by omega
        cases n with
        | zero =>
          have h1 : s.nesting = 1 := by omega
          have : exec (fun _ => []) (f + 1) s .unhold =
              some { s with nesting := s.nesting - 1, queue := [], trace := s.trace ++ s.queue.map .deliver } := by
            rw [exec]
            unfold unhold
            rw [if_pos hpos, if_pos h1, hfl]
            · rfl
            · omega
          rw [step _ this]
          obtain ⟨s', h2, h3⟩ := ih 0 (f + 1) { s with nesting := s.nesting - 1, queue := [], trace := s.trace ++ s.queue.map .deliver }
            (by simp [h1]) (by simp) hb (by simp; omega)
          refine ⟨s', h2, ?_⟩
          rw [h3]
          simp [delivered_append, hdel, released, deliveries]
        | succ n =>
          have h1 : ¬ s.nesting = 1 := by omega
          have : exec (fun _ => []) (f + 1) s .unhold = some { s with nesting := s.nesting - 1 } := by
            rw [exec]
            simp only [unhold, hpos, h1, if_true, if_false]
            rfl
          rw [step _ this]
          obtain ⟨s', h2, h3⟩ := ih (n + 1) (f + 1) { s with nesting := s.nesting - 1 }
            (by dsimp only; omega) (by simp) hb (by dsimp only; omega)
          refine ⟨s', h2, ?_⟩
          rw [h3]
          have e : released (n + 2) (.unhold :: ops) = released (n + 1) ops := by rw [released]
          rw [e]; simp [deliveries]
    | notify d =>
      cases n with
      | zero =>
        have h0 : s.nesting = 0 := by omega
        have : exec (fun _ => []) (f + 1) s (.delta d) = some { s with trace := s.trace ++ [.issue d] ++ [.deliver d] } := by
          rw [exec]
          simp only [h0, if_true]
          rfl
        rw [step _ this]
        obtain ⟨s', h2, h3⟩ := ih 0 (f + 1) { s with trace := s.trace ++ [.issue d] ++ [.deliver d] } (by simp [h0])
          (by simp [hq rfl]) hb (by dsimp only; omega)
        refine ⟨s', h2, ?_⟩
        rw [h3]
        simp [delivered_append, delivered, deliveries, released, hq rfl]
      | succ n =>
        have h0 : ¬ s.nesting = 0 := by omega
        have h1 : s.nesting + 1 > 0 := by omega
        have h2 : ¬ s.nesting + 1 = 1 := by omega
        have : exec (fun _ => []) (f + 1) s (.delta d) = some { s with queue := s.queue ++ [d], trace := s.trace ++ [.issue d] } := by
          rw [exec]
          simp only [h0, if_false, unhold, h1, h2, if_true, Option.bind_some]
          congr 2
          omega
        rw [step _ this]
        obtain ⟨s', h3, h4⟩ := ih (n + 1) (f + 1) { s with queue := s.queue ++ [d], trace := s.trace ++ [.issue d] } (by simp [hn])
          (by simp) hb (by simp; omega)
        refine ⟨s', h3, ?_⟩
        rw [h4]
        by_cases hr : released (n + 1) ops <;> simp [delivered_append, delivered, deliveries, released, hr]
    | flush =>
      have : exec (fun _ => []) (f + 1) s .flush = some { s with queue := [], trace := s.trace ++ s.queue.map .deliver } := by
        rw [exec]
        simp only []
        rw [hfl]
        omega
      rw [step _ this]
      obtain ⟨s', h2, h3⟩ := ih n (f + 1) { s with queue := [], trace := s.trace ++ s.queue.map .deliver }
        hn (by simp) (by cases n <;> exact hb) (by simp; omega)
      refine ⟨s', h2, ?_⟩
      rw [h3]
      cases n <;> simp [delivered_append, hdel, released, deliveries]
    | clear =>
      rw [step _ rfl]
      obtain ⟨s', h2, h3⟩ := ih n (f + 1) { s with queue := [], trace := s.trace ++ [.clear] }
        hn (by simp) (by cases n <;> exact hb) (by simp; omega)
      refine ⟨s', h2, ?_⟩
      rw [h3]
      cases n with
      | zero => simp [delivered_append, delivered, released, deliveries, hq rfl]
      | succ n => simp [delivered_append, delivered, released, deliveries]

end Held
open Held

/-- For every sequence of calls in which no unhold comes before its hold, what has been delivered at its end is exactly what was
    issued, in order and once each, as far as a point where nothing is held any more, or a flush, came after it before a call of
    clear. This holds for all prefixes too, so that it says when each is delivered. -/
theorem C24_deliveries {α : Type} (calls : List (Call α)) (h : Balanced 0 calls) (fuel : Nat) (hf : calls.length + 2 ≤ fuel) :
    ∃ s, run (fun _ => []) fuel (new α) (calls.map op) = some s ∧ delivered s.trace = deliveries 0 calls := by
  obtain ⟨s, h1, h2⟩ := run_eq calls 0 fuel (new α) rfl (fun _ => rfl) h (by simpa [new] using hf)
  exact ⟨s, h1, by rw [h2]; simp [new, delivered]⟩

example : ∃ s, run (fun _ => []) 20 (new Nat)
    [.delta 1, .hold, .delta 2, .hold, .delta 3, .unhold, .clear, .delta 4, .flush, .delta 5, .unhold, .delta 6] = some s ∧
    delivered s.trace = [1, 4, 5, 6] := ⟨_, rfl, rfl⟩

/-- Whatever calls the callbacks themselves make, when they are called, the deliveries are those of a first-in-first-out queue:
    each notification issued is delivered at most once, in the order they were issued; what is left at the end is what is queued;
    and nothing is queued when nothing is held. -/
theorem C24_reentrant {α : Type} (cb : List α → List (Op α)) (fuel : Nat) (calls : List (Call α)) (s : GenDelta.State α)
    (h : run cb fuel (new α) (calls.map op) = some s) :
    Fifo [] (s.trace.map ev) s.queue ∧ (s.nesting ≤ 0 → s.queue = []) := by
  have := runOps_ind Sound _ (exec_sound cb fuel) _ (new α) s ⟨fun _ => rfl, .done _⟩ h
  exact ⟨this.2, this.1⟩

/-- A callback that issues a notification, holds and lets go again, while others wait. -/
example : ∃ s, run (fun l => if l = [1] then [.delta 7, .hold, .delta 8, .unhold] else []) 20 (new Nat)
    ([.hold, .notify 1, .notify 2, .unhold].map op) = some s ∧ delivered s.trace = [1, 2, 7, 8] ∧ s.nesting = 0 := ⟨_, rfl, rfl, rfl⟩

/-- An unhold without a hold fails an assertion. -/
theorem C24_unhold_checked {α : Type} (cb : List α → List (Op α)) (fuel : Nat) (s : GenDelta.State α) (h : s.nesting ≤ 0) :
    exec cb fuel s .unhold = none := by
  cases fuel with
  | zero => rfl
  | succ n => rw [exec]; simp only [unhold]; rw [if_neg (by omega)]

example : (new Nat).nesting ≤ 0 := by decide

end Props
