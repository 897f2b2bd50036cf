import Verif.Lemmas.ScatterHash
/-
C17: a scatter hash is a multiset with correct lookup (`Spec.Bag`).
-/
namespace Props
open Wv Wv.Scatter Spec.Bag
variable {α κ : Type} [DecidableEq κ]

/-- For a table made for less than 2^15 elements and any history of calls in which it never holds 26208 elements or more:
    every call returns, every call does what the multiset allows, iteration visits exactly the elements it holds, each as often
    as it was added and not removed, and count() is their number. The hash function is arbitrary.

    Missing for C17: larger tables; there the claim is false, see `C17_probing_ends_fails`. -/
theorem C17_scatter_hash_partial (k : Kind α κ) (numslots : Nat) (hn : numslots < 2 ^ 15) (ops : List (Call α κ)) (t : Table α)
    (hnew : new numslots = some t)
    (hsmall : ∀ pre, pre <+: ops → ∀ t' os, run k t pre = some (t', os) → (iterate t' 0).length < 26208) :
    ∃ t' os, run k t ops = some (t', os) ∧ Steps k.key [] ops os (iterate t' 0) ∧ t'.num = (iterate t' 0).length := by
  obtain ⟨t0, h0, g0, e0⟩ := new_spec k numslots hn
  rw [hnew] at h0
  simp only [Option.some.injEq] at h0
  subst h0
  obtain ⟨t', os, h1, g1, s1⟩ := g0.run_spec ops (by simpa only [iterate_elems] using hsmall)
  rw [e0] at s1
  exact ⟨t', os, h1, by rw [iterate_elems]; exact s1, by rw [iterate_elems]; exact g1.hnum⟩

/-- The same for every history with at most 26207 calls of add. -/
theorem C17_few_adds_partial (k : Kind α κ) (numslots : Nat) (hn : numslots < 2 ^ 15) (ops : List (Call α κ))
    (hadds : (ops.filter Call.isAdd).length ≤ 26207) :
    ∃ t t' os, new numslots = some t ∧ run k t ops = some (t', os) ∧ Steps k.key [] ops os (iterate t' 0) ∧
      t'.num = (iterate t' 0).length := by
  obtain ⟨t, h0, g0, e0⟩ := new_spec k numslots hn
  obtain ⟨t', os, h⟩ := C17_scatter_hash_partial k numslots hn ops t h0 (by
    simpa only [iterate_elems] using g0.small ops (by rw [e0]; simpa using Nat.lt_succ_of_le hadds))
  exact ⟨t, t', os, h0, h⟩

/-- After a history of adds only, find returns an element with the key exactly if one was added. -/
theorem C17_find_added_partial (k : Kind α κ) (numslots : Nat) (hn : numslots < 2 ^ 15) (xs : List (α × Bool)) (hx : xs.length ≤ 26207)
    (key : κ) : ∃ t t' os r, new numslots = some t ∧ run k t (xs.map fun p => .add p.1 p.2) = some (t', os) ∧
      (iterate t' 0).Perm xs ∧ Scatter.find k t' key = some r ∧
      (match r with | some y => k.key y = key ∧ ∃ a, (y, a) ∈ xs | none => ∀ p ∈ xs, k.key p.1 ≠ key) := by
  obtain ⟨t, h0, g0, e0⟩ := new_spec (α := α) k numslots hn
  have hlen : (elems t).length + ((xs.map fun p => (.add p.1 p.2 : Call α κ)).filter Call.isAdd).length < 26208 := by
    rw [e0]
    have := List.length_filter_le Call.isAdd
      (xs.map fun p => (.add p.1 p.2 : Call α κ))
    simp only [List.length_map] at this
    simp only [List.length_nil]; omega
  have hsm := g0.small _ hlen
  obtain ⟨t', os, h1, g1, s1⟩ := g0.run_spec _ hsm
  rw [e0] at s1
  have hperm : ∀ (xs c c' : List (α × Bool)) (os : List (Out α)),
      Steps k.key c (xs.map fun p => .add p.1 p.2) os c' → c'.Perm (xs ++ c) := by
    intro xs
    induction xs with
    | nil => intro c c' os h; cases h; exact List.Perm.refl _
    | cons p xs ih =>
      intro c c' os h
      cases h with
      | cons s r =>
        cases s with
        | add hp =>
          refine (ih _ _ _ r).trans ?_
          exact ((List.Perm.refl _).append hp).trans List.perm_middle
  have hp : (elems t').Perm xs := by simpa using hperm xs [] _ os s1
  refine ⟨t, t', os, ?_⟩
  have hlt : (elems t').length < 26208 := by rw [hp.length_eq]; omega
  obtain ⟨t2, o, h2, -, s2⟩ := g1.exec_spec hlt (.find key)
  simp only [exec, Option.map_eq_some_iff] at h2
  obtain ⟨r, hr, he⟩ := h2
  refine ⟨r, h0, h1, by rw [iterate_elems]; exact hp, hr, ?_⟩
  simp only [Prod.mk.injEq] at he
  rw [← he.2] at s2
  cases s2 with
  | find hm hk _ => exact ⟨hk, _, hp.subset hm⟩
  | findNone hk _ => intro p hpm; exact hk p (hp.symm.subset hpm)

/-- Not proved for larger tables, because it is false of the code: in a table made for 65536 elements, elements whose hash is
    131071 share a second hash of 2^17, so that with the wrap-around of 32-bit numbers only 32768 of the 262139 slots are ever
    probed. Adding one element more than that never returns, with the table an eighth full. -/
theorem C17_probing_ends_fails :
    ¬ ∀ (k : Kind Nat Nat) (numslots : Nat) (t : Table Nat) (ops : List (Call Nat Nat)), numslots ≤ 65536 → ops.length ≤ 32769 →
      new numslots = some t → ∃ r, run k t ops = some r := by
  intro h
  have hnew : (new 65536 : Option (Table Nat)) = some ⟨fun _ => .empty, 17, 262139, 0, 0⟩ := by
    have : primeIndex 65536 1 = 17 := by decide +kernel
    simp [new, this, primes]
  obtain ⟨r, hr⟩ := h ⟨id, fun _ => 131071⟩ 65536 _ ((List.range 32769).map fun x => .add x false) (by omega) (by simp) hnew
  obtain ⟨l, hl, hlen⟩ := Full.adds _ (by intro key; rfl) (List.range 32769) _ []
    ⟨rfl, by simp, by simp, by simp, by simp⟩ r hr
  have := hl.le
  simp at hlen
  omega

/- The hypotheses are met by a history with colliding keys, a removal, a reused slot and a rebuild. -/
def C17.history : List (Call Nat Nat) :=
  [.add 3 true, .add 8 false, .add 13 true, .find 8, .remove 8, .find 13, .add 18 true, .setAutofree 13 false, .add 3 false,
   .remove 3, .find 3, .zap, .find 3]

example : (C17.history.filter Call.isAdd).length ≤ 26207 := by decide

example : (((new 0 : Option (Table Nat)).bind fun t => run (⟨id, fun x => UInt32.ofNat (x % 5)⟩ : Kind Nat Nat) t C17.history).map fun r =>
    (r.2, r.1.numslots)) =
    some ([.freed [], .freed [], .freed [], .found (some 8), .freed [], .found (some 13), .freed [], .freed [], .freed [],
      .freed [3], .found (some 3), .freed [18], .found none], 11) := by decide +kernel

end Props
