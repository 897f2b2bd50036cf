import Verif.Model.ShmZone
/- C142: shared memory. -/
namespace Props
open Wv Wv.ShmZone
open Spec.ShmZone (Ev Has)

namespace ShP

theorem toInt_small (n : Nat) (h : n < 2 ^ 31) : toInt n = n := by
  unfold toInt
  have : n % 2 ^ 32 = n := Nat.mod_eq_of_lt (by omega)
  rw [this, if_pos h]

/-- The errors that the system reports are not 0. -/
def Honest (sys : Sys) : Prop := ∀ e, sys.opens = .error e ∨ sys.map = .error e ∨ sys.mapAnon = .error e → e ≠ 0

end ShP

/-- C142: a zone of less than two gigabytes is made; it is ok exactly if it has memory, which is of the size asked for, at the address given and mapped now. -/
theorem C142_zone_partial (sys : Sys) (hs : ShP.Honest sys) (n : Nat) (h0 : 0 < n) (hn : n < 2 ^ 31) (h : Has) : ∃ z l, new sys n = some (z, l) ∧ z.size = n ∧
    (isok z = true ↔ ∃ a, z.buf = .at a) ∧ (∀ a, z.buf = .at a → (h.after l).mem = (a, n) :: h.mem) ∧ (isok z = false → (h.after l).mem = h.mem) := by
  unfold new
  rw [ShP.toInt_small n hn]
  dsimp only
  rw [if_neg (by omega)]
  cases ho : sys.opens with
  | error e =>
    have := hs e (.inl ho)
    refine ⟨_, _, rfl, rfl, ?_, ?_, ?_⟩ <;> simp [isok, this, Has.after]
  | ok d =>
    cases hm : sys.map with
    | ok a => refine ⟨_, _, rfl, rfl, ?_, ?_, ?_⟩ <;> simp [isok, Has.after, Has.step]
    | error e =>
      have he := hs e (.inr (.inl hm))
      dsimp only
      split
      · cases ha : sys.mapAnon with
        | ok a => refine ⟨_, _, rfl, rfl, ?_, ?_, ?_⟩ <;> simp [isok, Has.after, Has.step]
        | error e =>
          have he := hs e (.inr (.inr ha))
          refine ⟨_, _, rfl, rfl, ?_, ?_, ?_⟩ <;> simp [isok, he, Has.after, Has.step]
      · refine ⟨_, _, rfl, rfl, ?_, ?_, ?_⟩ <;> simp [isok, he, Has.after, Has.step]

/-- C142: when a zone of any size is made and destroyed, whatever the system answers, the process has what it had before. -/
theorem C142_clean (sys : Sys) (n : Nat) (h : Has) (z : Zone) (l : List Ev) (hz : new sys n = some (z, l)) : (h.after l).after (destroy z) = h := by
  unfold new at hz
  dsimp only at hz
  split at hz
  · cases hz
  · split at hz
    · cases hz; rfl
    · split at hz
      · cases hz; simp [destroy, Has.after, Has.step]
      · split at hz
        · split at hz
          · cases hz; simp [destroy, Has.after, Has.step]
          · cases hz; simp [destroy, Has.after, Has.step]
        · cases hz; simp [destroy, Has.after, Has.step]

/-- C142: it is ok if the system gives a descriptor and memory, in one of the two ways. -/
theorem C142_ok (sys : Sys) (n : Nat) (h0 : 0 < n) (hn : n < 2 ^ 31) (d a : Nat) (ho : sys.opens = .ok d)
    (hm : sys.map = .ok a ∨ (sys.map = .error enodev ∧ sys.mapAnon = .ok a)) : ∃ z l, new sys n = some (z, l) ∧ isok z = true ∧ z.buf = .at a := by
  unfold new
  rw [ShP.toInt_small n hn, ho]
  dsimp only
  rw [if_neg (by omega)]
  rcases hm with hm | ⟨hm, ha⟩
  · rw [hm]; exact ⟨_, _, rfl, rfl, rfl⟩
  · rw [hm, ha]
    dsimp only
    rw [if_pos rfl]; exact ⟨_, _, rfl, rfl, rfl⟩

example : new ⟨.ok 3, .error 19, .ok 4096⟩ 100 = some (⟨some 3, 100, .at 4096, 0⟩, [.opened 3, .mapped 4096 100]) := by decide +kernel
example : new ⟨.ok 3, .error 12, .ok 4096⟩ 100 = some (⟨some 3, 100, .failed, 12⟩, [.opened 3]) := by decide +kernel
example : ShP.Honest ⟨.ok 3, .error 12, .ok 4096⟩ := by
  intro e h
  rcases h with h | h | h <;> cases h
  decide

/-- C142 fails for large zones: one of four gigabytes and a byte is ok and has one byte. -/
theorem C142_large_fails : ∃ z l, new ⟨.ok 3, .ok 4096, .ok 4096⟩ (2 ^ 32 + 1) = some (z, l) ∧ isok z = true ∧ (Has.after ⟨[], []⟩ l).mem = [(4096, 1)] :=
  ⟨_, _, rfl, by decide +kernel, by decide +kernel⟩

/-- C142 fails for zones of two gigabytes: the program is stopped. -/
theorem C142_stop_fails (sys : Sys) : new sys (2 ^ 31) = none := by
  unfold new
  have : toInt (2 ^ 31) ≤ 0 := by decide +kernel
  rw [if_pos this]

end Props
