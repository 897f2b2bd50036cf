import Verif.Model.LockFile
/-
C43: lock files.
-/
namespace Props
open Wv.LockFile

namespace Lk

/-- At most one process believes that it has the lock. -/
def Exclusive (w : W) : Prop := ∀ p q, w.held p = true → w.held q = true → p = q

/-- Whoever has the lock lives and is named in the file. -/
def HeldOk (w : W) : Prop := ∀ p, w.held p = true → p ≠ 0 ∧ p ∉ w.dead ∧ ∃ i, w.name = some i ∧ w.files[i]? = some (some p)

def Nobody (w : W) : Prop := ∀ p, w.held p = false

/-- What holds when a process is about to do something, and nobody else is at work. -/
def At (w : W) (p : Nat) : PC → Prop
  | .idle => True
  | .opening g => g ≠ .lock → w.held p = false
  | .reading g i => w.name = some i ∧ (g ≠ .lock → w.held p = false)
  | .cleaning _ => Nobody w
  | .creating => True
  | .printing i => Nobody w ∧ w.name = some i ∧ i < w.files.length
  | .removing => Nobody w

structure Inv (w : W) (p : Nat) : Prop where
  others : ∀ q, q ≠ p → w.pc q = .idle
  held : HeldOk w
  pc : At w p (w.pc p)

theorem exclusive_of_held {w : W} (h : HeldOk w) : Exclusive w := by
  intro p q hp hq
  obtain ⟨_, _, i, hi, hpi⟩ := h p hp
  obtain ⟨_, _, j, hj, hqj⟩ := h q hq
  rw [hi] at hj
  obtain rfl := Option.some.inj hj
  rw [hpi] at hqj
  simpa using hqj

theorem pc_set (w : W) (p : Nat) (c : PC) : (setPc w p c).pc p = c := if_pos rfl

theorem others_set {w : W} {p : Nat} (c : PC) (h : ∀ q, q ≠ p → w.pc q = .idle) : ∀ q, q ≠ p → (setPc w p c).pc q = .idle := by
  intro q hq
  show (if q = p then _ else _) = _
  rw [if_neg hq]; exact h q hq

/-- How many steps are left at most. -/
def rank : PC → Nat
  | .idle => 0
  | .opening .lock => 5
  | .reading .lock _ => 4
  | .cleaning .lock => 3
  | .creating => 2
  | .printing _ => 1
  | .opening .unlock => 7
  | .reading .unlock _ => 6
  | .cleaning .unlock => 5
  | .removing => 4
  | .opening .check => 3
  | .reading .check _ => 2
  | .cleaning .check => 1

theorem nobody_held {w : W} (h : Nobody w) : HeldOk w := by
  intro p hp; rw [h p] at hp; simp at hp

theorem proceed_at (w : W) (p : Nat) (g : Goal) (h : Nobody w) : At w p (proceed g) := by
  cases g with
  | lock => trivial
  | unlock => exact h
  | check => trivial

theorem step_inv (w : W) (p : Nat) (hp0 : p ≠ 0) (hd : p ∉ w.dead) (h : Inv w p) : Inv (step w p) p ∧ rank ((step w p).pc p) ≤ rank (w.pc p) - 1 ∧ p ∉ (step w p).dead := by
  have hat := h.pc
  unfold step
  cases hpc : w.pc p with
  | idle => exact ⟨h, by simp [hpc, rank], hd⟩
  | opening g =>
    rw [hpc] at hat
    simp only []
    cases hn : w.name with
    | none =>
      refine ⟨⟨others_set _ h.others, h.held, ?_⟩, ?_, hd⟩
      · rw [pc_set]
        intro q
        cases hq : w.held q with
        | false => exact hq
        | true => obtain ⟨_, _, i, hi, _⟩ := h.held q hq; rw [hn] at hi; simp at hi
      · rw [pc_set]; cases g <;> simp [rank]
    | some i =>
      refine ⟨⟨others_set _ h.others, h.held, ?_⟩, ?_, hd⟩
      · rw [pc_set]; exact ⟨hn, hat⟩
      · rw [pc_set]; cases g <;> simp [rank]
  | reading g i =>
    rw [hpc] at hat
    obtain ⟨hn, hg⟩ := hat
    simp only []
    have holder : ∀ q, w.held q = true → q ≠ 0 ∧ q ∉ w.dead ∧ (w.files[i]?).join = some q := by
      intro q hq
      obtain ⟨h0, h1, j, hj, h2⟩ := h.held q hq
      rw [hn] at hj
      obtain rfl := Option.some.inj hj
      exact ⟨h0, h1, by rw [h2]; rfl⟩
    cases hf : (w.files[i]?).join with
    | none =>
      simp only []
      refine ⟨⟨others_set _ h.others, h.held, ?_⟩, ?_, hd⟩
      · rw [pc_set]
        intro q
        cases hq : w.held q with
        | false => exact hq
        | true => have := (holder q hq).2.2; rw [hf] at this; simp at this
      · rw [pc_set]; cases g <;> simp [rank]
    | some q =>
      simp only []
      by_cases c1 : q ≠ 0 ∧ q ∈ w.dead
      · rw [if_pos c1]
        refine ⟨⟨others_set _ h.others, h.held, ?_⟩, ?_, hd⟩
        · rw [pc_set]
          intro r
          cases hr : w.held r with
          | false => exact hr
          | true =>
            obtain ⟨_, h1, h2⟩ := holder r hr
            rw [hf] at h2
            obtain rfl := Option.some.inj h2
            exact absurd c1.2 h1
        · rw [pc_set]; cases g <;> simp [rank]
      · rw [if_neg c1]
        by_cases c2 : q = 0 ∨ q = p
        · rw [if_pos c2]
          refine ⟨⟨others_set _ h.others, h.held, ?_⟩, ?_, hd⟩
          · rw [pc_set]
            cases g with
            | lock => trivial
            | check => trivial
            | unlock =>
              intro r
              cases hr : w.held r with
              | false => exact hr
              | true =>
                obtain ⟨h0, h1, h2⟩ := holder r hr
                rw [hf] at h2
                obtain rfl := Option.some.inj h2
                rcases c2 with c2 | c2
                · exact absurd c2 h0
                · subst c2
                  rw [hg (by simp)] at hr; simp at hr
          · rw [pc_set]; cases g <;> simp [rank, proceed]
        · rw [if_neg c2]
          refine ⟨⟨others_set _ h.others, h.held, ?_⟩, ?_, hd⟩
          · rw [pc_set]; trivial
          · rw [pc_set]; simp [rank]
  | cleaning g =>
    rw [hpc] at hat
    replace hat : Nobody w := hat
    simp only []
    refine ⟨⟨others_set _ h.others, nobody_held hat, ?_⟩, ?_, hd⟩
    · rw [pc_set]; exact proceed_at _ _ _ hat
    · rw [pc_set]; cases g <;> simp [rank, proceed]
  | creating =>
    simp only []
    cases hn : w.name with
    | some i =>
      refine ⟨⟨others_set _ h.others, h.held, ?_⟩, ?_, hd⟩
      · rw [pc_set]; trivial
      · rw [pc_set]; simp [rank]
    | none =>
      have nb : Nobody w := by
        intro q
        cases hq : w.held q with
        | false => rfl
        | true => obtain ⟨_, _, i, hi, _⟩ := h.held q hq; rw [hn] at hi; simp at hi
      refine ⟨⟨others_set _ h.others, nobody_held nb, ?_⟩, ?_, hd⟩
      · rw [pc_set]; exact ⟨nb, rfl, by simp [setPc]⟩
      · rw [pc_set]; simp [rank]
  | printing i =>
    rw [hpc] at hat
    obtain ⟨nb, hn, hl⟩ := hat
    simp only []
    refine ⟨⟨others_set _ h.others, ?_, ?_⟩, ?_, hd⟩
    · intro q hq
      have hqp : q = p := by
        refine Decidable.byContradiction fun hne => ?_
        have : w.held q = true := by
          have h1 : (if q = p then true else w.held q) = true := hq
          rwa [if_neg hne] at h1
        rw [nb q] at this; simp at this
      subst hqp
      refine ⟨hp0, hd, i, hn, ?_⟩
      show (w.files.set i (some q))[i]? = _
      rw [List.getElem?_set_self hl]
    · show At _ p (if p = p then _ else _)
      rw [if_pos rfl]; trivial
    · show rank (if p = p then _ else _) ≤ _
      rw [if_pos rfl]; simp [rank]
  | removing =>
    rw [hpc] at hat
    replace hat : Nobody w := hat
    simp only []
    refine ⟨⟨others_set _ h.others, nobody_held hat, ?_⟩, ?_, hd⟩
    · rw [pc_set]; intro _; exact hat p
    · rw [pc_set]; simp [rank]

theorem steps_inv (p : Nat) (hp0 : p ≠ 0) (n : Nat) : ∀ w : W, p ∉ w.dead → Inv w p → rank (w.pc p) ≤ n → Inv (run w (List.replicate n (.step p))) p ∧
    (run w (List.replicate n (.step p))).pc p = .idle := by
  induction n with
  | zero =>
    intro w _ h hr
    refine ⟨h, ?_⟩
    show w.pc p = .idle
    cases hc : w.pc p with
    | idle => rfl
    | opening g => rw [hc] at hr; cases g <;> simp [rank] at hr
    | reading g i => rw [hc] at hr; cases g <;> simp [rank] at hr
    | cleaning g => rw [hc] at hr; cases g <;> simp [rank] at hr
    | creating => rw [hc] at hr; simp [rank] at hr
    | printing i => rw [hc] at hr; simp [rank] at hr
    | removing => rw [hc] at hr; simp [rank] at hr
  | succ n ih =>
    intro w hd h hr
    obtain ⟨h1, h2, h3⟩ := step_inv w p hp0 hd h
    rw [List.replicate_succ]
    show Inv (run (event w (.step p)) _) p ∧ (run (event w (.step p)) _).pc p = .idle
    have : event w (.step p) = step w p := if_neg hd
    rw [this]
    exact ih _ h3 h1 (by omega)

/-- Between calls. -/
def Rest (w : W) : Prop := (∀ p, w.pc p = .idle) ∧ HeldOk w

theorem rest_of {w : W} {p : Nat} (h : Inv w p) (hi : w.pc p = .idle) : Rest w := by
  refine ⟨fun q => ?_, h.held⟩
  by_cases hq : q = p
  · rw [hq]; exact hi
  · exact h.others q hq

theorem idle_steps (p : Nat) (n : Nat) : ∀ w : W, w.pc p = .idle → run w (List.replicate n (.step p)) = w := by
  induction n with
  | zero => intro w _; rfl
  | succ n ih =>
    intro w hw
    rw [List.replicate_succ]
    show run (event w (.step p)) _ = w
    have : event w (.step p) = w := by
      show (if _ then _ else _) = _
      split
      · rfl
      · unfold step; rw [hw]
    rw [this]; exact ih w hw

def Call.pid : Call → Nat
  | .lock p => p
  | .unlock p => p
  | .die p => p

theorem run_cons (w : W) (e : Ev) (l : List Ev) : run w (e :: l) = run (event w e) l := List.foldl_cons ..

theorem run_lock (w : W) (p : Nat) : run w (Call.lock p).events = run (event w (.lock p)) (List.replicate 8 (.step p)) := by
  rw [Call.events, run_cons]

theorem run_unlock (w : W) (p : Nat) : run w (Call.unlock p).events = run (event w (.unlock p)) (List.replicate 8 (.step p)) := by
  rw [Call.events, run_cons]

theorem call_rest (w : W) (c : Call) (hc : Call.pid c ≠ 0) (h : Rest w) : Rest (run w c.events) := by
  cases c with
  | lock p =>
    rw [run_lock]
    by_cases hd : p ∈ w.dead
    · have e : event w (.lock p) = w := if_neg (by rintro ⟨_, h⟩; exact h hd)
      rw [e, idle_steps p 8 w (h.1 p)]; exact h
    · have e : event w (.lock p) = setPc w p (.opening .lock) := if_pos ⟨h.1 p, hd⟩
      rw [e]
      obtain ⟨k1, k2⟩ := steps_inv p hc 8 (setPc w p (.opening .lock)) hd ⟨others_set _ (fun q _ => h.1 q), h.2, by rw [pc_set]; intro hg; exact absurd rfl hg⟩ (by rw [pc_set]; simp [rank])
      exact rest_of k1 k2
  | unlock p =>
    rw [run_unlock]
    by_cases hd : p ∈ w.dead
    · have e : event w (.unlock p) = w := if_neg (by rintro ⟨_, h⟩; exact h hd)
      rw [e, idle_steps p 8 w (h.1 p)]; exact h
    · have e : event w (.unlock p) = setHeld (setPc w p (.opening .unlock)) p false := if_pos ⟨h.1 p, hd⟩
      rw [e]
      have hI : Inv (setHeld (setPc w p (.opening .unlock)) p false) p := by
        refine ⟨others_set _ (fun q _ => h.1 q), ?_, ?_⟩
        · intro q hq
          have h1 : (if q = p then false else w.held q) = true := hq
          by_cases hqp : q = p
          · rw [if_pos hqp] at h1; simp at h1
          · rw [if_neg hqp] at h1; exact h.2 q h1
        · show At _ p (if p = p then _ else _)
          rw [if_pos rfl]
          exact fun _ => if_pos rfl
      obtain ⟨k1, k2⟩ := steps_inv p hc 8 (setHeld (setPc w p (.opening .unlock)) p false) hd hI (by
        show rank (if p = p then _ else _) ≤ _
        rw [if_pos rfl]; simp [rank])
      exact rest_of k1 k2
  | die p =>
    refine ⟨fun q => ?_, ?_⟩
    · show (if q = p then _ else _) = _
      split
      · rfl
      · exact h.1 q
    · intro q hq
      have h1 : (if q = p then false else w.held q) = true := hq
      by_cases hqp : q = p
      · rw [if_pos hqp] at h1; simp at h1
      · rw [if_neg hqp] at h1
        obtain ⟨h0, h2, h3⟩ := h.2 q h1
        refine ⟨h0, ?_, h3⟩
        show q ∉ p :: w.dead
        simp [hqp, h2]

theorem run_append (w : W) (l m : List Ev) : run w (l ++ m) = run (run w l) m := List.foldl_append ..

theorem calls_rest (l : List Call) (hl : ∀ c ∈ l, Call.pid c ≠ 0) : ∀ w, Rest w → Rest (run w (l.flatMap Call.events)) := by
  induction l with
  | nil => intro w h; exact h
  | cons c l ih =>
    intro w h
    rw [List.flatMap_cons, run_append]
    exact ih (fun c' hc' => hl c' (by simp [hc'])) _ (call_rest w c (hl c (by simp)) h)

end Lk

/-- **C43.** If no two calls overlap, then over every sequence of calls of `lock` and `unlock` by any number of processes, and deaths of processes, at most one believes that it has the lock. Missing: calls that overlap, for which it is false (below). -/
theorem C43_exclusive_partial (l : List Call) (hl : ∀ c ∈ l, Lk.Call.pid c ≠ 0) : Lk.Exclusive (run new (l.flatMap Call.events)) :=
  Lk.exclusive_of_held (Lk.calls_rest l hl new ⟨fun _ => rfl, fun p hp => by simp [new] at hp⟩).2

/-- **C43.** And `lock` does give the lock when nobody has it: there is no lock file, or its owner is dead. -/
theorem C43_available (w : W) (p : Nat) (hd : p ∉ w.dead) (hi : ∀ q, w.pc q = .idle)
    (hn : w.name = none ∨ ∃ i q, w.name = some i ∧ w.files[i]? = some (some q) ∧ q ≠ 0 ∧ q ∈ w.dead) : (run w (Call.lock p).events).held p = true := by
  have ev : ∀ w : W, p ∉ w.dead → event w (.step p) = step w p := fun w h => if_neg h
  have e0 : event w (.lock p) = setPc w p (.opening .lock) := if_pos ⟨hi p, hd⟩
  rw [Lk.run_lock, e0]
  obtain ⟨n, w1, h1, h2, h3, h4⟩ : ∃ n w1, run (setPc w p (.opening .lock)) (List.replicate n (.step p)) = w1 ∧ w1.pc p = .cleaning .lock ∧ p ∉ w1.dead ∧ (n = 1 ∨ n = 2) := by
    rcases hn with hn | ⟨i, q, hn, hf, hq0, hq⟩
    · refine ⟨1, setPc (setPc w p (.opening .lock)) p (.cleaning .lock), ?_, Lk.pc_set _ _ _, hd, Or.inl rfl⟩
      show event _ (.step p) = _
      refine Eq.trans (ev _ hd) ?_
      unfold step
      rw [Lk.pc_set]
      simp only []
      have : (setPc w p (.opening .lock)).name = none := hn
      rw [this]
    · refine ⟨2, setPc (setPc (setPc w p (.opening .lock)) p (.reading .lock i)) p (.cleaning .lock), ?_, Lk.pc_set _ _ _, hd, Or.inr rfl⟩
      show event (event _ (.step p)) (.step p) = _
      have s1 : event (setPc w p (.opening .lock)) (.step p) = setPc (setPc w p (.opening .lock)) p (.reading .lock i) := by
        refine Eq.trans (ev _ hd) ?_
        unfold step
        rw [Lk.pc_set]
        simp only []
        have : (setPc w p (.opening .lock)).name = some i := hn
        rw [this]
      rw [s1]
      refine Eq.trans (ev _ hd) ?_
      unfold step
      rw [Lk.pc_set]
      simp only []
      have : ((setPc (setPc w p (.opening .lock)) p (.reading .lock i)).files[i]?).join = some q := by
        show (w.files[i]?).join = _
        rw [hf]; rfl
      rw [this]
      simp only []
      exact if_pos ⟨hq0, hq⟩
  have h5 : run w1 (List.replicate (8 - n) (.step p)) = run (setPc w p (.opening .lock)) (List.replicate 8 (.step p)) := by
    rw [← h1, ← Lk.run_append, List.replicate_append_replicate]
    congr 2
    rcases h4 with rfl | rfl <;> rfl
  rw [← h5]
  have s2 : event w1 (.step p) = setPc { w1 with name := none } p .creating := by
    refine Eq.trans (ev _ h3) ?_; unfold step; rw [h2]; rfl
  have s3 : event (setPc { w1 with name := none } p .creating) (.step p) = setPc { (setPc { w1 with name := none } p .creating) with name := some w1.files.length, files := w1.files ++ [none] } p (.printing w1.files.length) := by
    refine Eq.trans (ev _ h3) ?_; unfold step; rw [Lk.pc_set]; rfl
  have s4 : ∃ w2, event (event (event w1 (.step p)) (.step p)) (.step p) = w2 ∧ w2.held p = true ∧ w2.pc p = .idle := by
    rw [s2, s3]
    refine ⟨_, ev _ h3, ?_⟩
    unfold step
    rw [Lk.pc_set]
    exact ⟨if_pos rfl, if_pos rfl⟩
  obtain ⟨w2, s5, s6, s7⟩ := s4
  have h6 : run w1 (List.replicate (8 - n) (.step p)) = w2 := by
    obtain ⟨m, hm⟩ : ∃ m, 8 - n = m + 3 := ⟨5 - n, by rcases h4 with rfl | rfl <;> rfl⟩
    rw [hm, List.replicate_succ, List.replicate_succ, List.replicate_succ]
    rw [Lk.run_cons, Lk.run_cons, Lk.run_cons, s5]
    exact Lk.idle_steps p m w2 s7
  rw [h6]; exact s6

/-- **C43.** While one process has created the file and not yet written its number, another takes the file for an old one and removes it: both get the lock. -/
theorem C43_blank_fails : ∃ l, ¬ Lk.Exclusive (run new l) :=
  ⟨[.lock 1, .step 1, .step 1, .step 1, .lock 2, .step 2, .step 2, .step 2, .step 2, .step 2, .step 1], fun h => absurd (h 1 2 (by decide +kernel) (by decide +kernel)) (by decide)⟩

/-- **C43.** A process that finds no file removes it all the same, a little later: both get the lock, though nobody ever saw a blank file or a dead owner. -/
theorem C43_missing_fails : ∃ l, ¬ Lk.Exclusive (run new l) ∧ (∀ k, (run new (l.take k)).dead = []) ∧ (run new (l.take 2)).pc 2 = .cleaning .lock :=
  ⟨[.lock 2, .step 2, .lock 1, .step 1, .step 1, .step 1, .step 1, .step 2, .step 2, .step 2], fun h => absurd (h 1 2 (by decide +kernel) (by decide +kernel)) (by decide),
    by
      have key : ∀ (l : List Ev) (w : W), w.dead = [] → (∀ p, .die p ∉ l) → (run w l).dead = [] := by
        intro l
        induction l with
        | nil => intro w h _; exact h
        | cons e l ih =>
          intro w h hl
          refine ih _ ?_ (fun p hp => hl p (by simp [hp]))
          cases e with
          | lock p => show (if _ then _ else _ : W).dead = _; split <;> exact h
          | unlock p => show (if _ then _ else _ : W).dead = _; split <;> exact h
          | die p => exact absurd (by simp) (hl p)
          | step p =>
            show (if _ then _ else _ : W).dead = _
            split
            · exact h
            · unfold step
              repeat' split
              all_goals exact h
      intro k
      refine key _ _ rfl ?_
      intro p hp
      have := List.mem_of_mem_take hp
      simp at this, by decide +kernel⟩

/-- **C43.** Two processes see that the owner is dead; one removes the file and gets the lock; then the other does the same. -/
theorem C43_stale_fails : ∃ l, ¬ Lk.Exclusive (run new (Call.events (.lock 3) ++ .die 3 :: l)) ∧ (run new (Call.events (.lock 3))).held 3 = true :=
  ⟨[.lock 1, .lock 2, .step 1, .step 1, .step 2, .step 2, .step 1, .step 1, .step 1, .step 2, .step 2, .step 2], fun h => absurd (h 1 2 (by decide +kernel) (by decide +kernel)) (by decide), by decide +kernel⟩

/-- **C43.** After `unlock` removed the file it looks whether it is gone, and so may remove the file of the next owner: a third process gets the lock too. -/
theorem C43_unlock_fails : ∃ l m, ¬ Lk.Exclusive (run new (Call.events (.lock 1) ++ (.unlock 1 :: l) ++ Call.events (.lock 2) ++ m ++ Call.events (.lock 3))) ∧
    (∀ e ∈ l ++ m, e = .step 1) :=
  ⟨[.step 1, .step 1, .step 1, .step 1], [.step 1], fun h => absurd (h 2 3 (by decide +kernel) (by decide +kernel)) (by decide), by decide⟩

-- Calls one after the other: 1 gets the lock, 2 does not; 1 dies, then 2 does; 2 lets it go, then 3 gets it.
example : (run new ([Call.lock 1, .lock 2].flatMap Call.events)).held 1 = true ∧ (run new ([Call.lock 1, .lock 2].flatMap Call.events)).held 2 = false := by decide +kernel
example : (run new ([Call.lock 1, .die 1, .lock 2].flatMap Call.events)).held 2 = true := by decide +kernel
example : (run new ([Call.lock 1, .die 1, .lock 2, .lock 3, .unlock 2, .lock 3].flatMap Call.events)).held 3 = true := by decide +kernel

end Props
