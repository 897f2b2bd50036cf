import Verif.Model.CircleMem
import Verif.Props.ShmZone
/- C145: the memory of a shared circle. -/
namespace Props
open Wv Wv.CircleMem
open Wv.ShmZone (Sys toInt)
open Spec.ShmZone (Ev Has)
open Spec.CircleMem (Inside)

namespace CmP

/-- What is known of a zone. -/
theorem zone (sys : Sys) (hs : ShP.Honest sys) (n : Nat) (z : ShmZone.Zone) (l : List Ev) (h : ShmZone.new sys n = some (z, l)) :
    z.size = toInt n ∧ 0 < toInt n ∧ (z.err = 0 → ∃ a, z.buf = .at a ∧ ∀ m : Has, (m.after l).mem = (a, (toInt n).toNat) :: m.mem) := by
  unfold ShmZone.new at h
  dsimp only at h
  split at h
  · cases h
  · rename_i h0
    refine ⟨?_, by omega, ?_⟩
    · split at h
      · cases h; rfl
      · split at h
        · cases h; rfl
        · split at h
          · split at h <;> cases h <;> rfl
          · cases h; rfl
    · intro he
      split at h
      · rename_i e ho; cases h; exact absurd he (hs e (.inl ho))
      · split at h
        · cases h; exact ⟨_, rfl, fun m => rfl⟩
        · rename_i e hm
          split at h
          · split at h
            · cases h; exact ⟨_, rfl, fun m => rfl⟩
            · rename_i e' ha; cases h; exact absurd he (hs e' (.inr (.inr ha)))
          · cases h; exact absurd he (hs e (.inr (.inl hm)))

theorem sizes (n : Nat) (h : 0 < toInt (n + 1 + 2 * 4)) (h' : 0 < toInt n) : toInt (n + 1 + 2 * 4) = toInt (n + 1) + 8 ∧ toInt (n + 1) = toInt n + 1 := by
  unfold toInt at *
  split at h <;> split at h' <;> (try omega)
  all_goals (split <;> split <;> omega)

theorem made {sys : Sys} {n : Nat} {c : Circle} {l : List Ev} (h : new sys n = some (c, l)) :
    ∃ z, ShmZone.new sys (n + 1 + 2 * 4) = some (z, l) ∧ 0 < toInt n ∧ c = ⟨z, toInt (n + 1), z.err⟩ := by
  unfold new at h
  split at h
  · cases h
  · rename_i z l' hz
    split at h
    · cases h
    · cases h; exact ⟨z, hz, by omega, rfl⟩

/-- The memory of a circle that is ok. -/
theorem mem {sys : Sys} (hs : ShP.Honest sys) {n : Nat} {c : Circle} {l : List Ev} (h : new sys n = some (c, l)) (ho : isok c = true) (m : Has) :
    2 ≤ c.size ∧ ∃ a, base c.shm.buf = a ∧ (a, c.size.toNat + 8) ∈ (m.after l).mem := by
  obtain ⟨z, hz, h0, rfl⟩ := made h
  obtain ⟨_, hp, hb⟩ := zone sys hs _ z l hz
  obtain ⟨e1, e2⟩ := sizes n hp h0
  obtain ⟨a, ha, hm⟩ := hb (by simpa [isok] using ho)
  refine ⟨by dsimp only; omega, a, by dsimp only; rw [ha]; rfl, ?_⟩
  rw [hm m, e1]
  have : (toInt (n + 1) + 8).toNat = (toInt (n + 1)).toNat + 8 := by omega
  rw [this]; exact List.mem_cons_self

end CmP

/-- C145: a circle of any size that was made and is ok touches only memory that the process has, whatever is put into it and gotten from it. -/
theorem C145_inside (sys : Sys) (hs : ShP.Honest sys) (n : Nat) (c : Circle) (l : List Ev) (h : new sys n = some (c, l)) (ho : isok c = true) (m : Has)
    (head tail len : Nat) (hh : (head : Int) < c.size) (ht : (tail : Int) < c.size) :
    (∀ r ∈ putTouch c head tail len, Inside (m.after l) r) ∧ (∀ r ∈ getTouch c head tail len, Inside (m.after l) r) := by
  obtain ⟨h2, a, ha, hm⟩ := CmP.mem hs h ho m
  have key : ∀ r : Nat × Nat, a ≤ r.1 → r.1 + r.2 ≤ a + (c.size.toNat + 8) → Inside (m.after l) r := fun r h1 h2 => ⟨_, hm, h1, h2⟩
  have hu : used c head tail < c.size.toNat := by
    unfold used; rw [ho]; dsimp only [Bool.not_true]
    rw [if_neg (by decide)]
    split <;> omega
  unfold putTouch getTouch usedTouch
  rw [ho, ha]
  dsimp only [Bool.not_true]
  rw [if_neg (by decide)]
  constructor
  all_goals
    intro r hr
    simp only [List.mem_append, List.mem_cons, List.not_mem_nil, or_false] at hr
    apply key
    all_goals
      rcases hr with ((rfl | rfl) | (rfl | rfl)) | hr
      iterate 4 (dsimp only; omega)
      split at hr
      · simp only [List.mem_cons, List.not_mem_nil, or_false] at hr
        subst hr; dsimp only; omega
      · cases hr

/-- C145: a circle of less than two gigabytes is made, stores what was asked for, and is ok exactly if its zone is. -/
theorem C145_made_partial (sys : Sys) (n : Nat) (h0 : 0 < n) (hn : n + 9 < 2 ^ 31) : ∃ c l, new sys n = some (c, l) ∧ c.size = n + 1 ∧
    ∃ z, ShmZone.new sys (n + 9) = some (z, l) ∧ isok c = ShmZone.isok z ∧ (isok c = false → used c 0 0 = 0 ∧ usedTouch c = []) := by
  have : ∃ z l, ShmZone.new sys (n + 9) = some (z, l) := by
    unfold ShmZone.new
    rw [ShP.toInt_small _ hn]
    dsimp only
    rw [if_neg (by omega)]
    repeat' split
    all_goals exact ⟨_, _, rfl⟩
  obtain ⟨z, l, hz⟩ := this
  refine ⟨⟨z, toInt (n + 1), z.err⟩, l, ?_, ?_, z, hz, rfl, ?_⟩
  · unfold new
    rw [show n + 1 + 2 * 4 = n + 9 from by omega, hz]
    dsimp only
    rw [ShP.toInt_small n (by omega), if_neg (by omega)]
  · dsimp only
    rw [ShP.toInt_small _ (by omega)]; omega
  · intro hf
    unfold used usedTouch
    rw [hf]; exact ⟨rfl, rfl⟩

/-- C145: when it is destroyed, the process has what it had before. -/
theorem C145_clean (sys : Sys) (n : Nat) (c : Circle) (l : List Ev) (h : new sys n = some (c, l)) (m : Has) : (m.after l).after (destroy c) = m := by
  obtain ⟨z, hz, _, rfl⟩ := CmP.made h
  exact C142_clean sys _ m z l hz

example : new ⟨.ok 3, .ok 4096, .error 1⟩ 10 = some (⟨⟨some 3, 19, .at 4096, 0⟩, 11, 0⟩, [.opened 3, .mapped 4096 19]) := by decide +kernel
example : putTouch ⟨⟨some 3, 19, .at 4096, 0⟩, 11, 0⟩ 7 8 20 = [(4100, 4), (4096, 4), (4100, 4), (4112, 3), (4104, 6)] := by decide +kernel
example : getTouch ⟨⟨some 3, 19, .at 4096, 0⟩, 11, 0⟩ 7 2 20 = [(4100, 4), (4096, 4), (4096, 4), (4111, 4), (4104, 2)] := by decide +kernel

/-- C145 fails for a circle that got no memory: putting into it and getting from it touch memory that the process does not have, even if nothing is asked for. -/
theorem C145_broken_fails (n : Nat) (h0 : 0 < n) (hn : n + 9 < 2 ^ 31) : ∃ c l, new ⟨.error 24, .error 1, .error 1⟩ n = some (c, l) ∧ isok c = false ∧
    (∃ r ∈ putTouch c 0 0 0, ¬ Inside (Has.after ⟨[], [(4096, 4096)]⟩ l) r) ∧ (∃ r ∈ getTouch c 0 0 0, ¬ Inside (Has.after ⟨[], [(4096, 4096)]⟩ l) r) := by
  refine ⟨⟨⟨none, (n + 9 : Nat), .null, 24⟩, (n + 1 : Nat), 24⟩, [], ?_, rfl, ⟨(4, 4), ?_, ?_⟩, ⟨(0, 4), ?_, ?_⟩⟩
  · unfold new ShmZone.new
    rw [show n + 1 + 2 * 4 = n + 9 from by omega, ShP.toInt_small _ hn]
    dsimp only
    rw [if_neg (by omega)]
    dsimp only
    rw [ShP.toInt_small n (by omega), ShP.toInt_small (n + 1) (by omega), if_neg (by omega)]
  · simp [putTouch, usedTouch, isok, base]
  · rintro ⟨r, hr, h1, h2⟩
    simp [Has.after] at hr
    subst hr; dsimp only at h1; omega
  · simp [getTouch, usedTouch, isok, base]
  · rintro ⟨r, hr, h1, h2⟩
    simp [Has.after] at hr
    subst hr; dsimp only at h1; omega

/-- C145 fails for large circles: one for four gigabytes and five bytes is ok and stores five bytes. -/
theorem C145_large_fails : ∃ c l, new ⟨.ok 3, .ok 4096, .ok 4096⟩ (2 ^ 32 + 5) = some (c, l) ∧ isok c = true ∧ c.size = 6 :=
  ⟨_, _, rfl, by decide +kernel, by decide +kernel⟩

end Props
