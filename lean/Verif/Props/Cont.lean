import Verif.Lemmas.ContStep
/-
C65: a WvCont is a coroutine.
-/
namespace Props
open Wv.Cont
open Spec.Coroutine (Code Act)

variable {σ : Type}

namespace C65

/-- A script: what remains to be done, and the results of what was done. -/
def script (bodies : Nat → List Act) : Code (List Act × List Nat) where
  act s := s.1.headD (.ret 0)
  resume s v := (s.1.tail, s.2 ++ [v])
  start n v := (bodies n, [v])

/-- A number of actions. -/
def steps (p : Code σ) : Nat → Spec.Coroutine.St σ → Option (List (Option Nat × σ) × Spec.Coroutine.St σ)
  | 0, s => some ([], s)
  | n + 1, s => (s.step p).bind fun t => (steps p n t).map fun r => (t.seen :: r.1, r.2)

theorem run_trans {p : Code σ} {a b c : Spec.Coroutine.St σ} {l m : List (Option Nat × σ)} (h1 : Spec.Coroutine.Run p a l b)
    (h2 : Spec.Coroutine.Run p b m c) : Spec.Coroutine.Run p a (l ++ m) c := by
  induction h2 with
  | none => simpa using h1
  | more _ hs ih => rw [← List.append_assoc]; exact .more ih hs

theorem steps_run {p : Code σ} {n : Nat} {s t : Spec.Coroutine.St σ} {l : List (Option Nat × σ)} (h : steps p n s = some (l, t)) :
    Spec.Coroutine.Run p s l t := by
  induction n generalizing s l with
  | zero =>
    simp only [steps, Option.some.injEq, Prod.mk.injEq] at h
    obtain ⟨rfl, rfl⟩ := h
    exact .none _
  | succ n ih =>
    simp only [steps] at h
    cases hs : s.step p with
    | none => rw [hs] at h; cases h
    | some u =>
      rw [hs] at h
      simp only [Option.bind_some] at h
      cases hr : steps p n u with
      | none => rw [hr] at h; cases h
      | some r =>
        rw [hr] at h
        simp only [Option.map_some, Option.some.injEq, Prod.mk.injEq] at h
        obtain ⟨rfl, rfl⟩ := h
        exact run_trans (.more (.none _) hs) (ih hr)

/-- The main program makes two coroutines, calls the first with 5, then with 6, and destroys it; the first calls the second, which is
    number 1, and yields what is 10; the second yields 20. -/
def bodies : Nat → List Act
  | 0 => [.call 1 7, .yield 10, .isok, .yield 11, .isok, .ret 0]
  | _ => [.yield 20, .ret 21]

def main : List Act := [.new 0 100, .new 1 100, .call 0 5, .call 0 6, .call 1 8, .destroy 0, .destroy 1]

end C65

/-- Whatever the code does — any nesting of calls, yields in coroutines called by coroutines, copies and destruction of handles — the
    actions that are done, by whom, and with which results, are those of the specification of coroutines: the implementation can show
    a sequence of actions if and only if the specification can. -/
theorem C65_coroutines (p : Code σ) (x : σ) (l : List (Option Nat × σ)) :
    (∃ b, Run p (St.init x) l b) ↔ ∃ a, Spec.Coroutine.Run p (.init x) l a := by
  constructor
  · rintro ⟨b, h⟩
    obtain ⟨a, ha, -⟩ := Lemmas.Cont.back_sim h
    exact ⟨a, ha⟩
  · rintro ⟨a, h⟩
    obtain ⟨b, hb, -⟩ := Lemmas.Cont.fwd_sim h
    exact ⟨b, hb⟩

/-- The main program sees 10 and 11 from the two calls, 21 from the second coroutine that was left waiting; the first, destroyed, goes
    on with a NULL and is told that it may not go on. -/
example : ∃ b, Run (C65.script C65.bodies) (St.init (C65.main, []))
    [(none, [.new 1 100, .call 0 5, .call 0 6, .call 1 8, .destroy 0, .destroy 1], [0]),
     (none, [.call 0 5, .call 0 6, .call 1 8, .destroy 0, .destroy 1], [0, 1]),
     (some 0, [.call 1 7, .yield 10, .isok, .yield 11, .isok, .ret 0], [5]),
     (some 1, [.yield 20, .ret 21], [7]),
     (some 0, [.yield 10, .isok, .yield 11, .isok, .ret 0], [5, 20]),
     (none, [.call 0 6, .call 1 8, .destroy 0, .destroy 1], [0, 1, 10]),
     (some 0, [.isok, .yield 11, .isok, .ret 0], [5, 20, 6]),
     (some 0, [.yield 11, .isok, .ret 0], [5, 20, 6, 1]),
     (none, [.call 1 8, .destroy 0, .destroy 1], [0, 1, 10, 11]),
     (some 1, [.ret 21], [7, 8]),
     (none, [.destroy 0, .destroy 1], [0, 1, 10, 11, 21]),
     (some 0, [.isok, .ret 0], [5, 20, 6, 1, 0]),
     (some 0, [.ret 0], [5, 20, 6, 1, 0, 0]),
     (none, [.destroy 1], [0, 1, 10, 11, 21, 0]),
     (none, [], [0, 1, 10, 11, 21, 0, 0])] b := by
  refine (C65_coroutines _ _ _).mpr ⟨((C65.steps (C65.script C65.bodies) 15 (.init (C65.main, []))).get rfl).2, C65.steps_run (n := 15) ?_⟩
  rfl

/-- Where the specification allows no action — a handle that does not exist, a call of a coroutine that is active, a yield or a new
    handle outside of coroutines or in one that is told to finish — and nowhere else, the implementation fails an assertion. -/
theorem C65_asserts (p : Code σ) (x : σ) (l : List (Option Nat × σ)) (a : Spec.Coroutine.St σ) (h : Spec.Coroutine.Run p (.init x) l a) :
    ∃ b, Run p (St.init x) l b ∧ b.pc = .go a.code ∧ b.curdata = a.cur ∧ (b.step p = none ↔ a.step p = none) := by
  obtain ⟨b, hb, hr⟩ := Lemmas.Cont.fwd_sim h
  refine ⟨b, hb, hr.pc, hr.ctx.curdata, ?_, Lemmas.Cont.sim_none hr⟩
  intro hn
  cases hs : a.step p with
  | none => rfl
  | some a' =>
    obtain ⟨b', h2, -⟩ := Lemmas.Cont.sim hr hs
    rcases Lemmas.Cont.run_front h2 with ⟨-, h3⟩ | ⟨u, l', h3, -⟩
    · cases h3
    · rw [hn] at h3; cases h3

/-- A coroutine that calls itself. -/
example : ∃ l a, Spec.Coroutine.Run (C65.script fun _ => [.call 0 1]) (.init ([.new 0 100, .call 0 5], [])) l a ∧
    a.step (C65.script fun _ => [.call 0 1]) = none :=
  ⟨_, _, C65.steps_run (n := 2) rfl, rfl⟩

/-- What the implementation keeps for a coroutine exists exactly as long as there is a handle, or it is active; two that exist never
    have the same stack. -/
theorem C65_lives (p : Code σ) (x : σ) (l : List (Option Nat × σ)) (a : Spec.Coroutine.St σ) (h : Spec.Coroutine.Run p (.init x) l a) :
    ∃ b, Run p (St.init x) l b ∧ b.pc = .go a.code ∧
      (∀ c, (b.conts c).alive = true ↔ 0 < (a.cos c).handles ∨ (a.cos c).status = .active) ∧
      (∀ c d t, (b.conts c).alive = true → (b.conts d).alive = true → (b.conts c).task = some t → (b.conts d).task = some t → c = d) ∧
      (∀ c t, (b.conts c).alive = true → (b.conts c).task = some t → t ∉ b.free) := by
  obtain ⟨b, hb, hr⟩ := Lemmas.Cont.fwd_sim h
  refine ⟨b, hb, hr.pc, fun c => ?_, fun c d t h1 h2 h3 h4 => ?_, fun c t h1 h2 hf => ?_⟩
  · rw [(hr.ctx.cos c (by simp)).alive]
    cases (a.cos c).status <;> simp [Lemmas.Cont.act?]
  · exact ((hr.ctx.cos c (by simp)).task t h1 h3).inj ((hr.ctx.cos d (by simp)).task t h2 h4)
  · have := ((hr.ctx.cos c (by simp)).task t h1 h2).recycled
    rw [(hr.ctx.free.ok t hf).2.1] at this
    cases this

/-- In the example above all goes in the end. -/
example : ∃ l a, Spec.Coroutine.Run (C65.script C65.bodies) (.init (C65.main, [])) l a ∧ (a.cos 0).handles = 0 ∧ (a.cos 1).handles = 0 ∧
    (a.cos 0).status = .idle ∧ (a.cos 1).status = .idle :=
  ⟨_, _, C65.steps_run (n := 15) rfl, rfl, rfl, rfl, rfl⟩

end Props
