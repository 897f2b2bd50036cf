import Verif.Model.SelfRun
import Verif.Props.ProcQueue
/- C139: streams that wake themselves. -/
namespace Props
open Wv Wv.SelfRun
open Spec.SelfRun (Ev Clock Quick)
open Spec.ProcQueue (Event Limited InOrder Synced)

namespace SrP

theorem after_append (s : S) (a b : List Ev) : after s (a ++ b) = after (after s a) b := List.foldl_append

/-- The queue is one that `add` and `go` make. -/
theorem is_queue (l : List Ev) : ∀ (s : S) (max : Nat) (h : List ProcQueue.Op), s.q = ProcQueue.run (ProcQueue.new max) h →
    ∃ h', (after s l).q = ProcQueue.run (ProcQueue.new max) h' := by
  induction l with
  | nil => intro s max h e; exact ⟨h, e⟩
  | cons o l ih =>
    intro s max h e
    have one : ∃ h', (step s o).q = ProcQueue.run (ProcQueue.new max) h' := by
      cases o with
      | add c =>
        refine ⟨h ++ [.add c], ?_⟩
        show ProcQueue.add s.q c = _
        unfold ProcQueue.run at e ⊢
        rw [List.foldl_append, ← e]; rfl
      | run t d =>
        unfold step
        dsimp only
        split
        · refine ⟨h ++ [.go d], ?_⟩
          show ProcQueue.go d s.q = _
          unfold ProcQueue.run at e ⊢
          rw [List.foldl_append, ← e]; rfl
        · exact ⟨h, e⟩
    obtain ⟨h', e'⟩ := one
    exact ih _ max h' e'

end SrP

/-- C139: whatever is added and whenever the list is run, never more processes run than allowed, they start in order, and those with cookies wait for
    those before them. -/
theorem C139_rules (max now : Nat) (l : List Ev) :
    Limited max (after (new max now) l).q.trace ∧ InOrder (after (new max now) l).q.trace ∧ Synced (after (new max now) l).q.trace := by
  obtain ⟨h, e⟩ := SrP.is_queue l (new max now) max [] rfl
  rw [e]
  exact ⟨C44_limit max h, C44_order max h, C44_sync max h⟩

namespace SrP

/-- The alarm is set, for at most 1000 ms after the last time. -/
def Set1000 (s : S) (t : Nat) : Prop := ∃ a, s.alarm = some a ∧ a ≤ t + 1000

theorem step_set (s : S) (t : Nat) (h : Set1000 s t) (u : Nat) (hu : t ≤ u) (d : Nat → Bool) : Set1000 (step s (.run u d)) u := by
  unfold step
  dsimp only
  split
  · refine ⟨_, rfl, ?_⟩
    dsimp only
    split
    · omega
    · split <;> omega
  · obtain ⟨a, e, ha⟩ := h
    exact ⟨a, e, by omega⟩

/-- The last time the list was run. -/
def lastT (t : Nat) : List Ev → Nat
  | [] => t
  | .add _ :: l => lastT t l
  | .run u _ :: l => lastT u l

theorem after_set (l : List Ev) : ∀ (s : S) (t : Nat), Set1000 s t → Clock t l → Set1000 (after s l) (lastT t l) := by
  induction l with
  | nil => intro s t h _; exact h
  | cons o l ih =>
    intro s t h hc
    cases o with
    | add c => exact ih _ t h hc
    | run u d => exact ih _ u (step_set s t h u hc.1 d) hc.2

theorem clock_append (a : List Ev) : ∀ t b, Clock t (a ++ b) → Clock t a ∧ Clock (lastT t a) b := by
  induction a with
  | nil => intro t b h; exact ⟨trivial, h⟩
  | cons o a ih =>
    intro t b h
    cases o with
    | add c => exact ih t b h
    | run u d => obtain ⟨h1, h2⟩ := ih u b h.2; exact ⟨⟨h.1, h1⟩, h2⟩

/-- As long as nothing is looked at the alarm stays. -/
theorem looks_mono (l : List Ev) : ∀ s : S, s.looks ≤ (after s l).looks ∧ ((after s l).looks = s.looks → (after s l).alarm = s.alarm) := by
  induction l with
  | nil => intro s; exact ⟨Nat.le_refl _, fun _ => rfl⟩
  | cons o l ih =>
    intro s
    have h := ih (step s o)
    have one : s.looks ≤ (step s o).looks ∧ ((step s o).looks = s.looks → (step s o).alarm = s.alarm) := by
      cases o with
      | add c => exact ⟨Nat.le_refl _, fun _ => rfl⟩
      | run t d =>
        unfold step
        dsimp only
        split
        · exact ⟨Nat.le_succ _, fun e => by simp [execute] at e⟩
        · exact ⟨Nat.le_refl _, fun _ => rfl⟩
    refine ⟨Nat.le_trans one.1 h.1, fun e => ?_⟩
    have e : (after (step s o) l).looks = s.looks := e
    show (after (step s o) l).alarm = s.alarm
    rw [h.2 (by omega), one.2 (by omega)]

theorem window (s : S) (a : Nat) (ha : s.alarm = some a) (m : List Ev) (t : Nat) (d : Nat → Bool) (ht : a ≤ t) :
    s.looks < (after s (m ++ [.run t d])).looks := by
  rw [after_append]
  have h := looks_mono m s
  show _ < (step (after s m) (.run t d)).looks
  unfold step
  dsimp only
  by_cases e : (after s m).looks = s.looks
  · rw [h.2 e, ha, if_pos (show due (some a) t = true from by simpa [due] using ht)]
    show _ < (after s m).looks + 1
    omega
  · split
    · show _ < (after s m).looks + 1
      omega
    · omega

end SrP

/-- C139: if the list is run at some time, and again at least a second later, the queue is looked at in between or then. -/
theorem C139_second (max now : Nat) (l m : List Ev) (t t' : Nat) (d d' : Nat → Bool) (hc : Clock now (l ++ [.run t d])) (ht : t + 1000 ≤ t') :
    (after (new max now) (l ++ [.run t d])).looks < (after (new max now) (l ++ [.run t d] ++ m ++ [.run t' d'])).looks := by
  have hs := SrP.after_set (l ++ [.run t d]) (new max now) now ⟨now, rfl, by omega⟩ hc
  have hl : ∀ (l : List Ev) x, SrP.lastT x (l ++ [.run t d]) = t := by
    intro l
    induction l with
    | nil => intro x; rfl
    | cons o l ih => intro x; cases o <;> exact ih _
  rw [hl] at hs
  obtain ⟨a, e, ha⟩ := hs
  rw [List.append_assoc, SrP.after_append _ (l ++ [Ev.run t d])]
  exact SrP.window _ a e m t' d' (by omega)

theorem SrP.starts_count (l : List Spec.ProcQueue.Event) : starts l = Spec.SelfRun.startCount l := by
  induction l with
  | nil => rfl
  | cons e l ih =>
    unfold Spec.SelfRun.startCount at ih ⊢
    cases e <;> simp [starts, ih]

/-- C139: if the queue was looked at and there is something left, it is looked at again when the list is run at least a tenth of a second later; and at
    once if something was started. -/
theorem C139_busy (s : S) (m : List Ev) (t t' : Nat) (d d' : Nat → Bool) (hl : s.looks < (step s (.run t d)).looks)
    (hr : (step s (.run t d)).q.runq ≠ [] ∨ (step s (.run t d)).q.waitq ≠ [])
    (ht : t + 100 ≤ t' ∨ (t ≤ t' ∧ Spec.SelfRun.startCount s.q.trace < Spec.SelfRun.startCount (step s (.run t d)).q.trace)) :
    (step s (.run t d)).looks < (after (step s (.run t d)) (m ++ [.run t' d'])).looks := by
  have hst : step s (.run t d) = execute { s with alarm := none } t d := by
    unfold step at hl ⊢
    dsimp only at hl ⊢
    split
    · rfl
    · rename_i h; rw [if_neg h] at hl; omega
  rw [← SrP.starts_count, ← SrP.starts_count] at ht
  rw [hst] at hr ht ⊢
  have hrem : remaining (ProcQueue.go d s.q) ≠ 0 := by
    unfold remaining
    rcases hr with h | h
    · have := List.length_pos_iff.2 h
      have this : 0 < (ProcQueue.go d s.q).runq.length := this
      omega
    · have := List.length_pos_iff.2 h
      have this : 0 < (ProcQueue.go d s.q).waitq.length := this
      omega
  refine SrP.window _ _ rfl m t' d' ?_
  dsimp only
  rw [if_neg hrem]
  split
  · rcases ht with h | h <;> omega
  · rename_i hn
    rcases ht with h | ⟨_, h⟩
    · omega
    · have h : starts s.q.trace < starts (ProcQueue.go d s.q).trace := h
      omega

namespace SrP
open Wv.ProcQueue (State Ent)

theorem reap_all (d : Nat → Bool) (hd : ∀ x, d x = true) (l : List Ent) : ∀ q : State, ∃ w,
    (l.foldl (ProcQueue.reap d) q).waitq = q.waitq ++ w ∧ (l.foldl (ProcQueue.reap d) q).max = q.max ∧
    ∀ x ∈ (l.foldl (ProcQueue.reap d) q).runq, x ∈ q.runq ∧ ∀ e ∈ l, x.ticket ≠ e.ticket := by
  induction l with
  | nil => intro q; exact ⟨[], by simp, rfl, fun x hx => ⟨hx, by simp⟩⟩
  | cons e l ih =>
    intro q
    rw [List.foldl_cons]
    obtain ⟨w, h1, h2, h3⟩ := ih (ProcQueue.reap d q e)
    have one : ∃ w', (ProcQueue.reap d q e).waitq = q.waitq ++ w' ∧ (ProcQueue.reap d q e).max = q.max ∧
        (ProcQueue.reap d q e).runq = q.runq.filter (fun x => x.ticket ≠ e.ticket) := by
      unfold ProcQueue.reap
      rw [if_pos (hd _)]
      split
      · exact ⟨_, rfl, rfl, rfl⟩
      · exact ⟨[], by simp [ProcQueue.finish], rfl, rfl⟩
    obtain ⟨w', g1, g2, g3⟩ := one
    refine ⟨w' ++ w, by rw [h1, g1, List.append_assoc], h2.trans g2, fun x hx => ?_⟩
    obtain ⟨k1, k2⟩ := h3 x hx
    rw [g3, List.mem_filter] at k1
    refine ⟨k1.1, fun y hy => ?_⟩
    rcases List.mem_cons.1 hy with rfl | hy
    · simpa using k1.2
    · exact k2 y hy

theorem startLoop_trace (f : Nat) : ∀ q : State, ∀ x ∈ q.trace, x ∈ (ProcQueue.startLoop f q).trace := by
  induction f with
  | zero => intro q x hx; exact hx
  | succ f ih =>
    intro q x hx
    unfold ProcQueue.startLoop
    split
    · exact hx
    · split
      · split
        · exact hx
        · exact ih _ x (by simp [ProcQueue.start, hx])
      · exact hx

theorem reap_trace (d : Nat → Bool) (l : List Ent) : ∀ q : State, ∀ x ∈ q.trace, x ∈ (l.foldl (ProcQueue.reap d) q).trace := by
  induction l with
  | nil => intro q x hx; exact hx
  | cons e l ih =>
    intro q x hx
    refine ih _ x ?_
    unfold ProcQueue.reap
    split
    · split
      · simp [ProcQueue.enqueue, ProcQueue.finish, hx]
      · simp [ProcQueue.finish, hx]
    · exact hx

theorem step_trace (s : S) (o : Ev) : ∀ x ∈ s.q.trace, x ∈ (step s o).q.trace := by
  intro x hx
  cases o with
  | add c =>
    show x ∈ (ProcQueue.add s.q c).trace
    unfold ProcQueue.add
    split
    · simp [ProcQueue.enqueue, hx]
    · split
      · exact hx
      · simp [ProcQueue.enqueue, hx]
  | run t d =>
    unfold step
    dsimp only
    split
    · exact startLoop_trace _ _ x (reap_trace d _ _ x hx)
    · exact hx

theorem after_trace (l : List Ev) : ∀ s : S, ∀ x ∈ s.q.trace, x ∈ (after s l).q.trace := by
  induction l with
  | nil => intro s x hx; exact hx
  | cons o l ih => intro s x hx; exact ih _ x (step_trace s o x hx)

/-- A look when all have finished starts the first that waits. -/
theorem go_starts (d : Nat → Bool) (hd : ∀ x, d x = true) (q : State) (hmax : 0 < q.max) (e : Ent) (r : List Ent) (hw : q.waitq = e :: r) :
    .start e.ticket e.cookie ∈ (ProcQueue.go d q).trace := by
  obtain ⟨w, h1, h2, h3⟩ := reap_all d hd q.runq q
  unfold ProcQueue.go
  dsimp only
  generalize q.runq.foldl (ProcQueue.reap d) q = p at h1 h2 h3
  have hr : p.runq = [] := by
    cases hp : p.runq with
    | nil => rfl
    | cons x y =>
      obtain ⟨k1, k2⟩ := h3 x (by simp [hp])
      exact absurd rfl (k2 x k1)
  have hw' : p.waitq = e :: (r ++ w) := by rw [h1, hw]; rfl
  rw [hw']
  show _ ∈ (ProcQueue.startLoop ((r ++ w).length + 1) p).trace
  unfold ProcQueue.startLoop
  rw [hw']
  dsimp only
  rw [if_pos (by rw [hr]; show 0 < p.max; omega), if_neg (by simp [hr, ProcQueue.cookieRunning])]
  refine startLoop_trace _ _ _ ?_
  simp [ProcQueue.start]

theorem mark_head (c : Nat) (e : Ent) (r w : List Ent) (h : ProcQueue.mark c (e :: r) = some w) : ∃ e' r', w = e' :: r' ∧ e'.ticket = e.ticket ∧ e'.cookie = e.cookie := by
  unfold ProcQueue.mark at h
  split at h
  · cases h
    split
    · exact ⟨e, r, rfl, rfl, rfl⟩
    · exact ⟨_, r, rfl, rfl, rfl⟩
  · cases hm : ProcQueue.mark c r with
    | none => rw [hm] at h; cases h
    | some x => rw [hm] at h; cases h; exact ⟨e, x, rfl, rfl, rfl⟩

theorem add_head (q : State) (c : Option Nat) (e : Ent) (r : List Ent) (hw : q.waitq = e :: r) :
    ∃ e' r', (ProcQueue.add q c).waitq = e' :: r' ∧ e'.ticket = e.ticket ∧ e'.cookie = e.cookie ∧ (ProcQueue.add q c).max = q.max := by
  cases c with
  | none => exact ⟨e, r ++ [⟨q.next, none, false⟩], by simp [ProcQueue.add, ProcQueue.enqueue, hw], rfl, rfl, rfl⟩
  | some c =>
    unfold ProcQueue.add
    dsimp only
    cases hmk : ProcQueue.mark c q.waitq with
    | none => exact ⟨e, r ++ [⟨q.next, some c, false⟩], by simp [ProcQueue.enqueue, hw], rfl, rfl, rfl⟩
    | some w =>
      rw [hw] at hmk
      obtain ⟨e', r', a, b, b'⟩ := mark_head c e r w hmk
      exact ⟨e', r', a, b, b', rfl⟩

theorem startLoop_max (f : Nat) : ∀ q : State, (ProcQueue.startLoop f q).max = q.max := by
  induction f with
  | zero => intro q; rfl
  | succ f ih =>
    intro q
    unfold ProcQueue.startLoop
    split
    · rfl
    · split
      · split
        · rfl
        · rw [ih]; rfl
      · rfl

theorem reap_max (d : Nat → Bool) (l : List Ent) : ∀ q : State, (l.foldl (ProcQueue.reap d) q).max = q.max := by
  induction l with
  | nil => intro q; rfl
  | cons e l ih =>
    intro q
    rw [List.foldl_cons, ih]
    unfold ProcQueue.reap
    split
    · split <;> rfl
    · rfl

theorem after_max (l : List Ev) : ∀ s : S, (after s l).q.max = s.q.max := by
  induction l with
  | nil => intro s; rfl
  | cons o l ih =>
    intro s
    show (after (step s o) l).q.max = _
    rw [ih]
    cases o with
    | add c =>
      show (ProcQueue.add s.q c).max = _
      unfold ProcQueue.add
      split
      · rfl
      · split <;> rfl
    | run t d =>
      unfold step
      dsimp only
      split
      · exact (startLoop_max _ _).trans (reap_max d _ _)
      · rfl

end SrP

/-- C139: the first process that waits is started within a second, if the list is run at the end of it and those that run have finished whenever it is
    run. -/
theorem C139_starts (max now : Nat) (hmax : 0 < max) (l m : List Ev) (t t' : Nat) (d d' : Nat → Bool) (hc : Clock now (l ++ [.run t d])) (ht : t + 1000 ≤ t')
    (hq : Quick (m ++ [.run t' d'])) (e : ProcQueue.Ent) (r : List ProcQueue.Ent) (hw : (after (new max now) (l ++ [.run t d])).q.waitq = e :: r) :
    .start e.ticket e.cookie ∈ (after (new max now) (l ++ [.run t d] ++ m ++ [.run t' d'])).q.trace := by
  have hlook := C139_second max now l m t t' d d' hc ht
  have hmx : (after (new max now) (l ++ [.run t d])).q.max = max := SrP.after_max _ _
  rw [List.append_assoc, SrP.after_append _ (l ++ [Ev.run t d])] at hlook ⊢
  generalize after (new max now) (l ++ [.run t d]) = s at hlook hw hmx
  have key : ∀ (m : List Ev) (s : S) (e : ProcQueue.Ent) (r : List ProcQueue.Ent), s.looks < (after s m).looks → Quick m → s.q.waitq = e :: r →
      0 < s.q.max → .start e.ticket e.cookie ∈ (after s m).q.trace := by
    intro m
    induction m with
    | nil => intro s e r h; exact absurd h (Nat.lt_irrefl _)
    | cons o m ih =>
      intro s e r h hq hw hm
      have hq' : Quick m := fun t d h => hq t d (by simp [h])
      show _ ∈ (after (step s o) m).q.trace
      have h : s.looks < (after (step s o) m).looks := h
      cases o with
      | add c =>
        obtain ⟨e', r', a1, a2, a3, a4⟩ := SrP.add_head s.q c e r hw
        rw [← a2, ← a3]
        exact ih _ e' r' h hq' a1 (by show 0 < (ProcQueue.add s.q c).max; omega)
      | run u d =>
        by_cases hd : due s.alarm u = true
        · refine SrP.after_trace m _ _ ?_
          unfold step
          dsimp only
          rw [if_pos hd]
          exact SrP.go_starts d (hq u d (by simp)) s.q hm e r hw
        · have hs : step s (.run u d) = s := by unfold step; dsimp only; rw [if_neg hd]
          rw [hs] at h ⊢
          exact ih s e r h hq' hw hm
  exact key _ s e r hlook hq hw (by omega)

/-- C139: a stream with a timeout is ok until its time has passed, whenever it is called; and once it is called afterwards it is not ok again. -/
theorem C139_timeout (now ms : Nat) (ts : List Nat) :
    (ts.foldl callback (newTimeout now ms)).ok = true ↔ ∀ t ∈ ts, t < now + ms := by
  have gone : ∀ (ts : List Nat) (s : Timeout), s.ok = false → (ts.foldl callback s).ok = false := by
    intro ts
    induction ts with
    | nil => intro s h; exact h
    | cons t ts ih =>
      intro s h
      refine ih _ ?_
      unfold callback
      dsimp only
      split <;> simp [h]
  induction ts with
  | nil => simp [newTimeout]
  | cons t ts ih =>
    rw [List.foldl_cons]
    by_cases ht : t < now + ms
    · have e : callback (newTimeout now ms) t = newTimeout now ms := by
        unfold callback newTimeout due
        have : ¬ now + ms ≤ t := by omega
        simp [this]
      rw [e]
      refine ih.trans ?_
      simp [ht]
    · have e : (callback (newTimeout now ms) t).ok = false := by
        unfold callback newTimeout due
        have : now + ms ≤ t := by omega
        simp [this]
      rw [gone ts _ e]
      simp only [Bool.false_eq_true, false_iff]
      intro h
      exact ht (h t (by simp))

example : Clock 0 [.add none, .run 0 (fun _ => false), .add (some 3), .run 50 (fun _ => true), .run 200 (fun _ => true)] := by simp [Clock]
example : (after (new 1 0) [.add none, .add none, .run 0 fun _ => true]).q.waitq = [⟨1, none, false⟩] := by decide +kernel
example : Quick [.add (some 3), .run 1500 fun _ => true] := by
  intro t d h x
  simp at h
  rw [h.2]

end Props
