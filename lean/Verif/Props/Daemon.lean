import Verif.Model.Daemon
/- C97: the life of a daemon. -/
namespace Props
open Wv.Daemon
open Spec.Daemon (Cb Phase phase)

namespace Dmn

theorem phase_snoc (l : List Cb) (c : Cb) : phase (l ++ [c]) = (phase l).bind fun p => Spec.Daemon.next p c := by
  simp [phase, List.foldl_append]

/-- What requests do not change, as long as the process lives. -/
theorem req_keep (s : St) (r : Req) : (req s r).trace = s.trace ∧ ((req s r).pc = s.pc ∨ (req s r).pc = .killed) ∧
    (s.die = true → (req s r).die = true) ∧ ((req s r).restart = true ∨ (req s r).restart = s.restart) := by
  unfold req
  split
  · exact ⟨rfl, Or.inl rfl, fun h => h, Or.inr rfl⟩
  · cases r with
    | die st => exact ⟨rfl, Or.inl rfl, fun _ => rfl, Or.inr rfl⟩
    | restart => exact ⟨rfl, Or.inl rfl, fun h => h, Or.inl rfl⟩
    | hup =>
      dsimp only
      split
      · exact ⟨rfl, Or.inr rfl, fun h => h, Or.inr rfl⟩
      · split
        · exact ⟨rfl, Or.inl rfl, fun h => h, Or.inr rfl⟩
        · exact ⟨rfl, Or.inl rfl, fun h => h, Or.inl rfl⟩
    | term =>
      dsimp only
      split
      · exact ⟨rfl, Or.inr rfl, fun h => h, Or.inr rfl⟩
      · exact ⟨rfl, Or.inl rfl, fun _ => rfl, Or.inr rfl⟩
    | quit => exact ⟨rfl, Or.inr rfl, fun h => h, Or.inr rfl⟩

theorem reqs_keep (rs : List Req) : ∀ s : St, (rs.foldl req s).trace = s.trace ∧ ((rs.foldl req s).pc = s.pc ∨ (rs.foldl req s).pc = .killed) ∧
    (s.die = true → (rs.foldl req s).die = true) ∧ (s.restart = true → (rs.foldl req s).restart = true) := by
  induction rs with
  | nil => intro s; exact ⟨rfl, Or.inl rfl, fun h => h, fun h => h⟩
  | cons r rs ih =>
    intro s
    obtain ⟨h1, h2, h3, h4⟩ := req_keep s r
    obtain ⟨g1, g2, g3, g4⟩ := ih (req s r)
    refine ⟨g1.trans h1, ?_, fun h => g3 (h3 h), fun h => g4 ?_⟩
    · rcases g2 with g2 | g2
      · rw [List.foldl_cons, g2]; exact h2
      · exact Or.inr g2
    · rcases h4 with h4 | h4
      · exact h4
      · rw [h4]; exact h

theorem call_keep (s : St) (c : Cb) (rs : List Req) : (call s c rs).trace = s.trace ++ [c] ∧ ((call s c rs).pc = s.pc ∨ (call s c rs).pc = .killed) ∧
    (s.die = true → (call s c rs).die = true) ∧ (s.restart = true → (call s c rs).restart = true) := reqs_keep rs _

/-- Where the program is and what was called fit together. -/
def Fits (s : St) : Prop :=
  match s.pc with
  | .check => s.trace = []
  | .write => s.trace = []
  | .top => phase s.trace = some .idle
  | .inner => phase s.trace = some .running
  | .ended => phase s.trace = some .after
  | .killed => phase s.trace ≠ none

theorem fits_phase {s : St} (h : Fits s) : phase s.trace ≠ none := by
  unfold Fits at h
  split at h
  · rw [h]; decide
  · rw [h]; decide
  · rw [h]; decide
  · rw [h]; decide
  · rw [h]; decide
  · exact h

theorem call_fits (s : St) (c : Cb) (rs : List Req) (p : Phase) (hp : phase (s.trace ++ [c]) = some p)
    (hpc : (s.pc = .top ∧ p = .idle) ∨ (s.pc = .inner ∧ p = .running) ∨ (s.pc = .ended ∧ p = .after)) : Fits (call s c rs) := by
  obtain ⟨h1, h2, _, _⟩ := call_keep s c rs
  unfold Fits
  rcases h2 with h2 | h2
  · rw [h2, h1, hp]
    rcases hpc with ⟨h, rfl⟩ | ⟨h, rfl⟩ | ⟨h, rfl⟩ <;> rw [h]
  · rw [h2, h1, hp]; simp

/-- Whether the daemon sees another one when it reads the pid file. -/
def refused (bg : Bool) (i : In) : Prop := bg = true ∧ ∃ q, i.file = some q ∧ 0 < q ∧ i.alive q = true

theorem step_fits (bg : Bool) (me : Nat) (s : St) (i : In) (h : Fits s) (hr : s.pc = .check → ¬ refused bg i) : Fits (step bg me s i).1 := by
  unfold step
  cases hpc : s.pc with
  | check =>
    have ht : s.trace = [] := by unfold Fits at h; rw [hpc] at h; exact h
    dsimp only
    split
    · rename_i hbg
      split
      · rename_i q hq
        split
        · rename_i hx
          rw [Bool.and_eq_true] at hx
          exact absurd ⟨hbg, q, hq, by simpa using hx.1, hx.2⟩ (hr hpc)
        · exact ht
      · exact ht
    · exact call_fits _ _ _ .idle (by rw [ht]; rfl) (Or.inl ⟨rfl, rfl⟩)
  | write =>
    have ht : s.trace = [] := by unfold Fits at h; rw [hpc] at h; exact h
    exact call_fits _ _ _ .idle (by rw [ht]; rfl) (Or.inl ⟨rfl, rfl⟩)
  | top =>
    have ht : phase s.trace = some .idle := by unfold Fits at h; rw [hpc] at h; exact h
    dsimp only
    split
    · have hk := (call_keep s .unload i.reqs).1
      have hp : phase (call s .unload i.reqs).trace = some .after := by rw [hk, phase_snoc, ht]; rfl
      split
      · rename_i hx
        show Fits (call s .unload i.reqs)
        unfold Fits
        rw [hx, hp]; simp
      · exact hp
    · exact call_fits _ _ _ .running (by rw [phase_snoc, ht]; rfl) (Or.inr (Or.inl ⟨rfl, rfl⟩))
  | inner =>
    have ht : phase s.trace = some .running := by unfold Fits at h; rw [hpc] at h; exact h
    dsimp only
    split
    · exact call_fits _ _ _ .running (by rw [phase_snoc, ht]; rfl) (Or.inr (Or.inl ⟨hpc, rfl⟩))
    · exact call_fits _ _ _ .idle (by rw [phase_snoc, ht]; rfl) (Or.inl ⟨rfl, rfl⟩)
  | ended => exact h
  | killed => exact h

theorem step_check (bg : Bool) (me : Nat) (s : St) (i : In) : (step bg me s i).1.pc ≠ .check := by
  unfold step
  cases hpc : s.pc with
  | check =>
    dsimp only
    split
    · split
      · split <;> simp
      · simp
    · rcases (call_keep { s with handlers := true, pc := .top } .load i.reqs).2.1 with h | h <;> rw [h] <;> simp
  | write =>
    dsimp only
    rcases (call_keep { s with handlers := true, pc := .top } .load i.reqs).2.1 with h | h <;> rw [h] <;> simp
  | top =>
    dsimp only
    split
    · split
      · rename_i hx; rw [hx]; simp
      · simp
    · rcases (call_keep { s with restart := false, pc := .inner } .start i.reqs).2.1 with h | h <;> rw [h] <;> simp
  | inner =>
    dsimp only
    split
    · rcases (call_keep s .run i.reqs).2.1 with h | h <;> rw [h]
      · rw [hpc]; simp
      · simp
    · rcases (call_keep { s with pc := .top } .stop i.reqs).2.1 with h | h <;> rw [h] <;> simp
  | ended => rw [hpc]; simp
  | killed => rw [hpc]; simp

theorem run_fits (bg : Bool) (me : Nat) (l : List In) : ∀ s : St, Fits s → s.pc ≠ .check → Fits (run bg me s l) := by
  induction l with
  | nil => intro s h _; exact h
  | cons i l ih => intro s h hc; exact ih _ (step_fits bg me s i h (fun hx => absurd hx hc)) (step_check bg me s i)

theorem run_die (bg : Bool) (me : Nat) (s : St) (hpc : s.pc = .inner ∨ s.pc = .top) (hd : s.die = true) (i j : In) (hi : i.reqs = []) (hj : j.reqs = []) :
    (run bg me s [i, j]).pc = .ended ∧ (run bg me s [i, j]).trace = s.trace ++ (if s.pc = .inner then [.stop, .unload] else [.unload]) ∧
    (run bg me s [i, j]).status = s.status := by
  rcases hpc with hpc | hpc
  · simp [run, step, hpc, hd, call, hi, hj]
  · simp [run, step, hpc, hd, call, hi]

end Dmn
open Dmn

/-- C97: the callbacks are called in the right order, whatever requests and signals arrive at whatever times: load, then start, run, ..., stop and again, then
    unload; at the end of a run that was not killed unload was called, and each start was stopped. -/
theorem C97_order_partial (bg : Bool) (me : Nat) (junk : Int) (i : In) (hi : ¬ refused bg i) (l : List In) :
    phase (run bg me (begin junk) (i :: l)).trace ≠ none ∧
    ((run bg me (begin junk) (i :: l)).pc = .ended → phase (run bg me (begin junk) (i :: l)).trace = some .after) := by
  have h := run_fits bg me l (step bg me (begin junk) i).1 (step_fits bg me (begin junk) i rfl (fun _ => hi)) (step_check bg me _ i)
  refine ⟨fits_phase h, fun he => ?_⟩
  have h' : Fits (run bg me (begin junk) (i :: l)) := h
  unfold Fits at h'
  rw [he] at h'
  exact h'

example : (run false 5 (begin 0) [⟨none, fun _ => false, []⟩, ⟨none, fun _ => false, []⟩, ⟨none, fun _ => false, []⟩, ⟨none, fun _ => false, [.hup]⟩,
    ⟨none, fun _ => false, []⟩, ⟨none, fun _ => false, []⟩, ⟨none, fun _ => false, [.die 3]⟩, ⟨none, fun _ => false, []⟩, ⟨none, fun _ => false, []⟩]) =
    ⟨.ended, true, false, 3, false, true, false, [.load, .start, .run, .run, .stop, .start, .run, .stop, .unload]⟩ := by decide +kernel

/-- C97: `run` is called only while neither exit nor restart is wanted; otherwise what comes next is `stop`. -/
theorem C97_run (bg : Bool) (me : Nat) (s : St) (hs : s.pc = .inner) (i : In) :
    (step bg me s i).1.trace = s.trace ++ [if s.die = true ∨ s.restart = true then .stop else .run] := by
  unfold step
  rw [hs]
  dsimp only
  by_cases hw : s.die = true ∨ s.restart = true
  · have hc : ¬ ((!s.die && !s.restart) = true) := by
      rcases hw with h | h <;> rw [h] <;> simp
    rw [if_neg hc, if_pos hw]
    exact (call_keep { s with pc := .top } .stop i.reqs).1
  · have hc : (!s.die && !s.restart) = true := by
      rw [not_or] at hw
      rw [Bool.eq_false_iff.mpr hw.1, Bool.eq_false_iff.mpr hw.2]; rfl
    rw [if_pos hc, if_neg hw]
    exact (call_keep s .run i.reqs).1

/-- C97: a restart that is wanted while the daemon runs: it stops, and starts again, unless exit is wanted too. -/
theorem C97_restart (bg : Bool) (me : Nat) (s : St) (hs : s.pc = .inner) (hr : s.restart = true) (i j : In) (hk : (step bg me s i).1.pc ≠ .killed)
    (hd : (step bg me s i).1.die = false) : (run bg me s [i, j]).trace = s.trace ++ [.stop, .start] ∧ (step bg me s i).1.pc = .top := by
  have e : (step bg me s i).1 = call { s with pc := .top } .stop i.reqs := by
    unfold step; rw [hs]; dsimp only; rw [hr]; simp
  have hk1 := call_keep { s with pc := .top } .stop i.reqs
  rw [e] at hk hd
  have hpc : (call { s with pc := .top } .stop i.reqs).pc = .top := by
    rcases hk1.2.1 with h | h
    · exact h
    · exact absurd h hk
  refine ⟨?_, by rw [e]; exact hpc⟩
  show (step bg me (step bg me s i).1 j).1.trace = _
  rw [e]
  have h2 := hk1.1
  generalize call { s with pc := .top } .stop i.reqs = u at hk hd hpc h2
  unfold step
  rw [hpc]
  dsimp only
  have h3 := (call_keep { u with restart := false, pc := .inner } .start j.reqs).1
  rw [if_neg (by rw [hd]; simp)]
  rw [h3]
  dsimp only
  rw [h2]
  simp

example : (⟨.inner, false, true, 0, true, true, false, [.load, .start]⟩ : St).restart = true ∧
    (run true 5 ⟨.inner, false, true, 0, true, true, false, [.load, .start]⟩ [⟨some 5, fun _ => true, [.restart]⟩, ⟨some 5, fun _ => true, []⟩]).trace =
      [.load, .start, .stop, .start] := by decide +kernel

/-- C97: once exit is wanted, the daemon stops, if it runs, unloads and returns the status asked for; no other callback is called. (Nothing else is asked for meanwhile.) -/
theorem C97_die (bg : Bool) (me : Nat) (s : St) (hpc : s.pc = .inner ∨ s.pc = .top) (hd : s.die = true) (i j : In) (hi : i.reqs = []) (hj : j.reqs = []) :
    (run bg me s [i, j]).pc = .ended ∧ (run bg me s [i, j]).trace = s.trace ++ (if s.pc = .inner then [.stop, .unload] else [.unload]) ∧
    (run bg me s [i, j]).status = s.status := run_die bg me s hpc hd i j hi hj

example : (run true 5 ⟨.inner, true, true, 7, true, true, false, [.load, .start]⟩ [⟨some 5, fun _ => true, []⟩, ⟨some 5, fun _ => true, []⟩]) =
    ⟨.ended, true, true, 7, false, true, false, [.load, .start, .stop, .unload]⟩ := by decide +kernel

/-- C97: exit stays wanted, whatever else happens; so it is not forgotten if it is asked for during any callback. -/
theorem C97_sticky (bg : Bool) (me : Nat) (s : St) (hs : s.pc ≠ .check) (hd : s.die = true) (i : In) : (step bg me s i).1.die = true := by
  unfold step
  cases hpc : s.pc with
  | check => exact absurd hpc hs
  | write => exact (call_keep { s with handlers := true, pc := .top } .load i.reqs).2.2.1 hd
  | top =>
    dsimp only
    split
    · have := (call_keep s .unload i.reqs).2.2.1 hd
      split
      · exact this
      · exact this
    · rename_i h; exact absurd hd h
  | inner =>
    dsimp only
    split
    · exact (call_keep s .run i.reqs).2.2.1 hd
    · exact (call_keep { s with pc := .top } .stop i.reqs).2.2.1 hd
  | ended => exact hd
  | killed => exact hd

/-- C97: the first SIGTERM and the first SIGHUP are requests of that kind; the second SIGTERM kills. -/
theorem C97_signals (s : St) (hs : s.pc ≠ .killed) (hh : s.handlers = true) :
    (s.termDefault = false → (req s .term).die = true ∧ (req s .term).status = 0 ∧ (req s .term).pc = s.pc ∧ (req (req s .term) .term).pc = .killed) ∧
    (s.hupIgnored = false → (req s .hup).restart = true ∧ (req s .hup).pc = s.pc) := by
  refine ⟨fun h => ?_, fun h => ?_⟩
  · simp [req, hs, hh, h]
  · simp [req, hs, hh, h]

example : (req ⟨.inner, false, false, 7, true, false, false, [.load, .start]⟩ .term).die = true ∧
    (req ⟨.inner, false, false, 7, true, false, false, [.load, .start]⟩ .hup).restart = true := by decide +kernel

/-- C97: a daemon in the background that finds the pid file of a living process does not start, and returns (unless a signal kills it). -/
theorem C97_refused (me : Nat) (junk : Int) (i j : In) (hi : refused true i) (hj : ∀ r ∈ j.reqs, r = .restart ∨ ∃ st, r = .die st) :
    (run true me (begin junk) [i, j]).pc = .ended ∧ .start ∉ (run true me (begin junk) [i, j]).trace := by
  obtain ⟨_, q, h1, h2, h3⟩ := hi
  have key : ∀ (rs : List Req) (s : St), (∀ r ∈ rs, r = .restart ∨ ∃ st, r = .die st) → s.pc = .top → (rs.foldl req s).pc = .top := by
    intro rs
    induction rs with
    | nil => intro s _ h; exact h
    | cons r rs ih =>
      intro s hr h
      refine ih _ (fun r hx => hr r (List.mem_cons_of_mem _ hx)) ?_
      rcases hr r List.mem_cons_self with e | ⟨st, e⟩ <;> simp [e, req, h]
  have hs : (step true me (begin junk) i).1 = { begin junk with die := true, status := 0, pc := .top } := by
    simp [step, begin, h1, h2, h3]
  show (step true me (step true me (begin junk) i).1 j).1.pc = _ ∧ _ ∉ (step true me (step true me (begin junk) i).1 j).1.trace
  rw [hs]
  have hk := call_keep { begin junk with die := true, status := 0, pc := .top } .unload j.reqs
  have hp : (call { begin junk with die := true, status := 0, pc := .top } .unload j.reqs).pc = .top := key j.reqs _ hj rfl
  unfold step
  dsimp only
  rw [if_pos rfl, if_neg (by rw [hp]; simp)]
  refine ⟨rfl, ?_⟩
  dsimp only
  rw [hk.1]
  simp [begin]

example : refused true ⟨some 4, fun n => n == 4, [.restart]⟩ := ⟨rfl, 4, rfl, by decide, rfl⟩

/-- C97: otherwise its number is in the pid file when `load` is called, and the file is removed at the end. -/
theorem C97_pidfile (me : Nat) (s : St) (i : In) : (s.pc = .write → (step true me s i).2 = some me ∧ (step true me s i).1.trace = s.trace ++ [.load]) ∧
    (s.pc = .top → s.die = true → (step true me s i).1.pc = .ended → (step true me s i).2 = none) := by
  refine ⟨fun h => ?_, fun h hd he => ?_⟩
  · unfold step
    rw [h]
    exact ⟨rfl, (call_keep { s with handlers := true, pc := .top } .load i.reqs).1⟩
  · unfold step at he ⊢
    rw [h] at he ⊢
    dsimp only at he ⊢
    rw [if_pos hd] at he ⊢
    split at he
    · rename_i hx; rw [hx] at he; simp at he
    · rename_i hx; rw [if_neg hx]; rfl

/-- C97: the second SIGHUP does nothing. -/
theorem C97_hup_fails (s : St) (hs : s.pc ≠ .killed) (hh : s.handlers = true) (hr : s.hupIgnored = false) :
    req { req s .hup with restart := false } .hup = { req s .hup with restart := false } := by
  simp [req, hs, hh, hr]

/-- C97: a daemon that does not start because another one runs calls `unload` without `load`, and removes the pid file of the other one; so a third one starts
    although the first still runs. -/
theorem C97_unload_fails :
    let l : List Ev := [.begin 5, .step 5 [], .step 5 [], .step 5 [], .begin 6, .step 6 [], .step 6 []]
    let w := wrun l
    w.file = none ∧ ((w.procs 5).map fun s => s.pc) = some .inner ∧ ((w.procs 6).map fun s => s.trace) = some [.unload] ∧
    (let w := wrun (l ++ [.begin 7, .step 7 [], .step 7 [], .step 7 []])
     ((w.procs 5).map fun s => s.pc) = some .inner ∧ ((w.procs 7).map fun s => s.pc) = some .inner) := by decide +kernel

/-- C97: two daemons that start at the same time both run. -/
theorem C97_race_fails :
    let w := wrun [.begin 5, .begin 6, .step 5 [], .step 6 [], .step 5 [], .step 6 [], .step 5 [], .step 6 []]
    ((w.procs 5).map fun s => s.pc) = some .inner ∧ ((w.procs 6).map fun s => s.pc) = some .inner ∧ w.file = some 6 := by decide +kernel

end Props
