import Verif.Model.ScatterHash
import Mathlib.Data.Int.GCD
import Mathlib.Data.Nat.ModEq
import Mathlib.Data.Nat.Find
import Mathlib.Tactic.NormNum.Prime
import Mathlib.Data.List.Perm.Subperm
namespace Wv.Scatter
set_option linter.unusedSectionVars false
set_option linter.unusedSimpArgs false
variable {α κ : Type} [DecidableEq κ]

/- Probing. -/

theorem covers (n v c : Nat) (hn : 1 < n) (hc : Nat.Coprime c n) (i : Nat) (hi : i < n) :
    ∃ a, a < n ∧ (v + a * c) % n = i := by
  obtain ⟨m, -, hm⟩ := Nat.exists_mul_mod_eq_one_of_coprime hc hn
  refine ⟨((i + (n - v % n)) * m) % n, Nat.mod_lt _ (by omega), ?_⟩
  have hv : v % n < n := Nat.mod_lt _ (by omega)
  have h1 : ((i + (n - v % n)) * m) % n * c ≡ i + (n - v % n) [MOD n] := by
    have e1 : ((i + (n - v % n)) * m) % n * c ≡ (i + (n - v % n)) * m * c [MOD n] :=
      Nat.ModEq.mul_right c (Nat.mod_modEq _ _)
    have e2 : (i + (n - v % n)) * m * c ≡ (i + (n - v % n)) * 1 [MOD n] := by
      rw [Nat.mul_assoc, Nat.mul_comm m c]
      refine Nat.ModEq.mul_left _ ?_
      unfold Nat.ModEq; rw [hm, Nat.mod_eq_of_lt hn]
    simpa using e1.trans e2
  have h2 : v + ((i + (n - v % n)) * m) % n * c ≡ v % n + (i + (n - v % n)) [MOD n] :=
    Nat.ModEq.add (Nat.mod_modEq v n).symm h1
  have h3 : v % n + (i + (n - v % n)) = i + n := by omega
  rw [h3] at h2
  unfold Nat.ModEq at h2
  rw [h2, Nat.add_mod_right, Nat.mod_eq_of_lt hi]

/-- The primes of tables small enough. -/
theorem prime_of_index : ∀ i n, i < 16 → primes[i]? = some n → Nat.Prime n ∧ 2 ≤ n ∧ n ≤ 65521 := by
  intro i n hi h
  have hlt : i = 0 ∨ i = 1 ∨ i = 2 ∨ i = 3 ∨ i = 4 ∨ i = 5 ∨ i = 6 ∨ i = 7 ∨ i = 8 ∨ i = 9 ∨ i = 10 ∨ i = 11 ∨ i = 12 ∨
    i = 13 ∨ i = 14 ∨ i = 15 := by omega
  rcases hlt with rfl | rfl | rfl | rfl | rfl | rfl | rfl | rfl | rfl | rfl | rfl | rfl | rfl | rfl | rfl | rfl <;>
    (simp only [primes, List.getElem?_cons_succ, List.getElem?_cons_zero, Option.some.injEq] at h; subst h;
     refine ⟨by norm_num, by omega, by omega⟩)

theorem prime_grows : ∀ i n m, i < 16 → primes[i]? = some n → primes[i + 1]? = some m → n + 3 ≤ m := by
  intro i n m hi h h'
  have hlt : i = 0 ∨ i = 1 ∨ i = 2 ∨ i = 3 ∨ i = 4 ∨ i = 5 ∨ i = 6 ∨ i = 7 ∨ i = 8 ∨ i = 9 ∨ i = 10 ∨ i = 11 ∨ i = 12 ∨
    i = 13 ∨ i = 14 ∨ i = 15 := by omega
  rcases hlt with rfl | rfl | rfl | rfl | rfl | rfl | rfl | rfl | rfl | rfl | rfl | rfl | rfl | rfl | rfl | rfl <;>
    (simp only [primes, List.getElem?_cons_succ, List.getElem?_cons_zero, Option.some.injEq] at h h'; omega)

/-- Every slot is probed in the first `2 * n` attempts, in spite of the wrap-around at 2^32. -/
theorem probes_all (n : Nat) (hp : Nat.Prime n) (h2n : 2 ≤ n) (hmax : n ≤ 65521) (hash : Nat) (hh : hash < 2 ^ 32)
    (i : Nat) (hi : i < n) : ∃ a, a < 2 * n ∧ curhash n hash (secondHash n hash) a = i := by
  have hc1 : 1 ≤ secondHash n hash := by unfold secondHash; omega
  have hc2 : secondHash n hash ≤ n - 1 := by
    unfold secondHash
    have := Nat.mod_lt hash (show 0 < n - 1 by omega)
    omega
  generalize secondHash n hash = c at *
  have hcop : Nat.Coprime c n := by
    refine Nat.Coprime.symm ((Nat.Prime.coprime_iff_not_dvd hp).mpr ?_)
    intro hd
    have := Nat.le_of_dvd (by omega) hd
    omega
  have hbig : n * c < 2 ^ 32 := by
    have : n * c ≤ 65521 * 65520 := Nat.mul_le_mul hmax (by omega)
    omega
  by_cases hw : hash + (n - 1) * c < 2 ^ 32
  · obtain ⟨a, ha, he⟩ := covers n hash c (by omega) hcop i hi
    refine ⟨a, by omega, ?_⟩
    have hle : a * c ≤ (n - 1) * c := Nat.mul_le_mul_right c (by omega)
    rw [curhash, Nat.mod_eq_of_lt (show hash + a * c < 2 ^ 32 by omega), he]
  · -- the first attempt that wraps
    have hex : ∃ w, 2 ^ 32 ≤ hash + w * c := ⟨n - 1, by omega⟩
    have hspec := Nat.find_spec hex
    have hmin := fun m (h : m < Nat.find hex) => Nat.find_min hex h
    have hle : Nat.find hex ≤ n - 1 := Nat.find_min' hex (by omega)
    generalize Nat.find hex = w at *
    have hw0 : w ≠ 0 := by rintro rfl; omega
    have hprev := hmin (w - 1) (by omega)
    have hsplit : w * c = (w - 1) * c + c := by
      obtain ⟨k, rfl⟩ : ∃ k, w = k + 1 := ⟨w - 1, by omega⟩
      simp [Nat.add_mul]
    obtain ⟨a, ha, he⟩ := covers n (hash + w * c - 2 ^ 32) c (by omega) hcop i hi
    refine ⟨w + a, by omega, ?_⟩
    have hac : a * c ≤ (n - 1) * c := Nat.mul_le_mul_right c (by omega)
    have hnc : (n - 1) * c + c = n * c := by
      obtain ⟨k, rfl⟩ : ∃ k, n = k + 1 := ⟨n - 1, by omega⟩
      simp [Nat.add_mul]
    rw [curhash, Nat.add_mul, ← Nat.add_assoc, ← he]
    have : hash + w * c + a * c = (hash + w * c - 2 ^ 32 + a * c) + 2 ^ 32 := by omega
    rw [this, Nat.add_mod_right, Nat.mod_eq_of_lt (show hash + w * c - 2 ^ 32 + a * c < 2 ^ 32 by omega)]

/- The contents. -/

def slotElem : Slot α → Option (α × Bool)
  | .full x a => some (x, a)
  | _ => none

def elems (t : Table α) : List (α × Bool) := (List.range t.numslots).filterMap fun i => slotElem (t.slots i)

theorem filterMap_update {β : Type} (n i : Nat) (hi : i < n) (f g : Nat → Option β) (h : ∀ j, j ≠ i → f j = g j) :
    ∃ r : List β, ((List.range n).filterMap f).Perm ((f i).toList ++ r) ∧
      ((List.range n).filterMap g).Perm ((g i).toList ++ r) := by
  have hm : i ∈ List.range n := List.mem_range.mpr hi
  have hp := List.perm_cons_erase hm
  have hne : ∀ j ∈ (List.range n).erase i, j ≠ i := by
    intro j hj
    exact (List.Nodup.mem_erase_iff List.nodup_range |>.mp hj).1
  refine ⟨((List.range n).erase i).filterMap f, ?_, ?_⟩
  · refine (hp.filterMap f).trans ?_
    cases hf : f i <;> simp [List.filterMap_cons, hf]
  · refine (hp.filterMap g).trans ?_
    have : ((List.range n).erase i).filterMap g = ((List.range n).erase i).filterMap f := by
      apply List.filterMap_congr
      intro j hj
      exact (h j (hne j hj)).symm
    cases hg : g i <;> simp [List.filterMap_cons, hg, this]

@[simp] theorem slotElem_full (x : α) (a : Bool) : slotElem (.full x a) = some (x, a) := rfl
@[simp] theorem slotElem_empty : slotElem (.empty : Slot α) = none := rfl
@[simp] theorem slotElem_deleted : slotElem (.deleted : Slot α) = none := rfl

def usedSlot (s : Slot α) : Option Unit := if s.isEmpty then none else some ()

def usedList (t : Table α) : List Unit := (List.range t.numslots).filterMap fun i => usedSlot (t.slots i)

@[simp] theorem usedSlot_full (x : α) (a : Bool) : usedSlot (.full x a) = some () := rfl
@[simp] theorem usedSlot_empty : usedSlot (.empty : Slot α) = none := rfl
@[simp] theorem usedSlot_deleted : usedSlot (.deleted : Slot α) = some () := rfl

/-- The `a`-th place where an element with this key is looked for. -/
def place (k : Kind α κ) (n : Nat) (key : κ) (a : Nat) : Nat :=
  curhash n (k.hash key).toNat (secondHash n (k.hash key).toNat) a

structure Good (k : Kind α κ) (t : Table α) : Prop where
  idx : t.prime_index < 16
  size : primes[t.prime_index]? = some t.numslots
  hused : t.used = (usedList t).length
  hnum : t.num = (elems t).length
  load : 20 * t.used < 9 * t.numslots
  reach : ∀ i x a, i < t.numslots → t.slots i = .full x a →
    ∃ A, place k t.numslots (k.key x) A = i ∧ ∀ B, B < A → (t.slots (place k t.numslots (k.key x) B)).isEmpty = false

theorem Good.bounds {k : Kind α κ} {t : Table α} (h : Good k t) : Nat.Prime t.numslots ∧ 2 ≤ t.numslots ∧ t.numslots ≤ 65521 :=
  prime_of_index _ _ h.idx h.size

theorem place_lt (k : Kind α κ) (n : Nat) (hn : 2 ≤ n) (key : κ) (a : Nat) : place k n key a < n :=
  Nat.mod_lt _ (by omega)

theorem place_zero (k : Kind α κ) (n : Nat) (key : κ) : place k n key 0 = (k.hash key).toNat % n := by
  have : (k.hash key).toNat < 2 ^ 32 := UInt32.toNat_lt _
  simp only [place, curhash, Nat.zero_mul, Nat.add_zero]
  rw [Nat.mod_eq_of_lt this]

theorem Good.place_all {k : Kind α κ} {t : Table α} (h : Good k t) (key : κ) (i : Nat) (hi : i < t.numslots) :
    ∃ a, a < 2 * t.numslots ∧ place k t.numslots key a = i :=
  probes_all _ h.bounds.1 h.bounds.2.1 h.bounds.2.2 _ (UInt32.toNat_lt _) i hi

theorem filterMap_full_length (n : Nat) (f : Nat → Option Unit) (h : ∀ i, i < n → f i = some ()) :
    ((List.range n).filterMap f).length = n := by
  have : (List.range n).filterMap f = (List.range n).map fun _ => () := by
    rw [← List.filterMap_eq_map]
    apply List.filterMap_congr
    intro i hi
    rw [h i (List.mem_range.mp hi)]; rfl
  rw [this]; simp

theorem Good.exists_empty {k : Kind α κ} {t : Table α} (h : Good k t) : ∃ i, i < t.numslots ∧ (t.slots i).isEmpty = true := by
  by_contra hc
  have hall : ∀ i, i < t.numslots → usedSlot (t.slots i) = some () := by
    intro i hi
    have : (t.slots i).isEmpty = false := by
      cases he : (t.slots i).isEmpty
      · rfl
      · exact absurd ⟨i, hi, he⟩ hc
    simp [usedSlot, this]
  have := filterMap_full_length t.numslots _ hall
  have h1 := h.hused
  have h2 := h.load
  unfold usedList at h1
  omega

/- The loops. -/

theorem addLoop_spec (t : Table α) (hash hash2 a0 : Nat)
    (h0 : (t.slots (curhash t.numslots hash hash2 a0)).occupied = false)
    (hb : ∀ b, b < a0 → (t.slots (curhash t.numslots hash hash2 b)).occupied = true) :
    ∀ (fuel a : Nat), a ≤ a0 → a0 - a < fuel →
    addLoop t hash hash2 (curhash t.numslots hash hash2 a) a fuel = some (curhash t.numslots hash hash2 a0) := by
  intro fuel
  induction fuel with
  | zero => intro a _ h; omega
  | succ fuel ih =>
    intro a ha hf
    rw [addLoop]
    by_cases he : a = a0
    · subst he; rw [if_neg (by rw [h0]; simp)]
    · rw [if_pos (hb a (by omega))]
      exact ih (a + 1) (by omega) (by omega)

theorem findLoop_spec (k : Kind α κ) (t : Table α) (key : κ) (a0 : Nat)
    (h0 : matchesSlot k key (t.slots (place k t.numslots key a0)) = true ∨ (t.slots (place k t.numslots key a0)).isEmpty = true)
    (hb : ∀ b, b < a0 → matchesSlot k key (t.slots (place k t.numslots key b)) = false ∧
      (t.slots (place k t.numslots key b)).isEmpty = false) :
    ∀ (fuel a : Nat), a ≤ a0 → a0 - a < fuel → matchesSlot k key (t.slots (place k t.numslots key a)) = false →
    findLoop k t key (k.hash key).toNat (secondHash t.numslots (k.hash key).toNat) (place k t.numslots key a) a fuel =
      some (if matchesSlot k key (t.slots (place k t.numslots key a0)) then some (place k t.numslots key a0) else none) := by
  intro fuel
  induction fuel with
  | zero => intro a _ h; omega
  | succ fuel ih =>
    intro a ha hf hm
    rw [findLoop]
    by_cases he : a = a0
    · subst he
      have he : (t.slots (place k t.numslots key a)).isEmpty = true := by
        rcases h0 with h0 | h0
        · rw [hm] at h0; simp at h0
        · exact h0
      rw [if_pos he, hm]; rfl
    · rw [if_neg (by rw [(hb a (by omega)).2]; simp)]
      change (if matchesSlot k key (t.slots (place k t.numslots key (a + 1))) = true then _ else _) = _
      by_cases hm1 : matchesSlot k key (t.slots (place k t.numslots key (a + 1))) = true
      · rw [if_pos hm1]
        have : a + 1 = a0 := by
          by_contra hne
          have := (hb (a + 1) (by omega)).1
          rw [hm1] at this; simp at this
        change some (some (place k t.numslots key (a + 1))) = _
        rw [this] at hm1 ⊢
        rw [if_pos hm1]
      · rw [if_neg hm1]
        exact ih (a + 1) (by omega) (by omega) (by simpa using hm1)

theorem matches_iff (k : Kind α κ) (key : κ) (s : Slot α) :
    matchesSlot k key s = true ↔ ∃ x a, s = .full x a ∧ k.key x = key := by
  cases s with
  | empty => simp [matchesSlot]
  | deleted => simp [matchesSlot]
  | full x a =>
    simp only [matchesSlot, decide_eq_true_eq, Slot.full.injEq]
    constructor
    · intro h; exact ⟨x, a, ⟨rfl, rfl⟩, h.symm⟩
    · rintro ⟨y, b, ⟨rfl, rfl⟩, h⟩; exact h.symm

theorem Good.genfind_spec {k : Kind α κ} {t : Table α} (h : Good k t) (key : κ) :
    (∃ i x a, genfind k t key = some (some i) ∧ i < t.numslots ∧ t.slots i = .full x a ∧ k.key x = key) ∨
    (genfind k t key = some none ∧ ∀ i x a, i < t.numslots → t.slots i = .full x a → k.key x ≠ key) := by
  obtain ⟨e, he, hee⟩ := h.exists_empty
  obtain ⟨ae, hae, hpe⟩ := h.place_all key e he
  have hex : ∃ a, matchesSlot k key (t.slots (place k t.numslots key a)) = true ∨
      (t.slots (place k t.numslots key a)).isEmpty = true := ⟨ae, Or.inr (by rw [hpe]; exact hee)⟩
  have h0 := Nat.find_spec hex
  have hle : Nat.find hex ≤ ae := Nat.find_min' hex (Or.inr (by rw [hpe]; exact hee))
  have hb : ∀ b, b < Nat.find hex → matchesSlot k key (t.slots (place k t.numslots key b)) = false ∧
      (t.slots (place k t.numslots key b)).isEmpty = false := by
    intro b hb
    have := Nat.find_min hex hb
    simp only [not_or, Bool.not_eq_true] at this
    exact this
  generalize Nat.find hex = a0 at *
  have hn := h.bounds
  have hres : genfind k t key =
      some (if matchesSlot k key (t.slots (place k t.numslots key a0)) then some (place k t.numslots key a0) else none) := by
    unfold genfind
    dsimp only
    rw [← place_zero]
    by_cases hm : matchesSlot k key (t.slots (place k t.numslots key 0)) = true
    · rw [if_pos hm]
      have : a0 = 0 := by
        by_contra hne
        have := (hb 0 (by omega)).1
        rw [hm] at this; simp at this
      subst this
      rw [if_pos hm]
    · rw [if_neg hm]
      exact findLoop_spec k t key a0 h0 hb turns 0 (by omega) (by unfold turns; omega) (by simpa using hm)
  by_cases hm : matchesSlot k key (t.slots (place k t.numslots key a0)) = true
  · left
    rw [if_pos hm] at hres
    obtain ⟨x, a, hs, hk⟩ := (matches_iff k key _).mp hm
    exact ⟨_, x, a, hres, place_lt k _ hn.2.1 key a0, hs, hk⟩
  · right
    rw [if_neg hm] at hres
    refine ⟨hres, ?_⟩
    intro i x a hi hs hk
    obtain ⟨A, hA, hB⟩ := h.reach i x a hi hs
    rw [hk] at hA hB
    have hmA : matchesSlot k key (t.slots (place k t.numslots key A)) = true := by
      rw [hA, matches_iff]; exact ⟨x, a, hs, hk⟩
    have he0 : (t.slots (place k t.numslots key a0)).isEmpty = true := h0.resolve_left hm
    rcases Nat.lt_trichotomy A a0 with hlt | heq | hgt
    · have := (hb A hlt).1
      rw [hmA] at this; simp at this
    · subst heq; exact hm hmA
    · have := hB a0 hgt
      rw [he0] at this; simp at this

theorem mem_elems (t : Table α) (p : α × Bool) : p ∈ elems t ↔ ∃ i, i < t.numslots ∧ t.slots i = .full p.1 p.2 := by
  simp only [elems, List.mem_filterMap, List.mem_range]
  constructor
  · rintro ⟨i, hi, h⟩
    refine ⟨i, hi, ?_⟩
    cases hs : t.slots i <;> rw [hs] at h <;> simp [slotElem] at h
    subst h; rfl
  · rintro ⟨i, hi, h⟩
    exact ⟨i, hi, by rw [h]; rfl⟩

theorem Good.insert_spec {k : Kind α κ} {t : Table α} (h : Good k t) (x : α) (a : Bool)
    (hroom : 20 * (t.used + 1) < 9 * t.numslots) :
    ∃ t', insert t (k.hash (k.key x)).toNat x a = some t' ∧ Good k t' ∧ (elems t').Perm ((x, a) :: elems t) ∧
      t'.used ≤ t.used + 1 ∧ t'.numslots = t.numslots ∧ t'.prime_index = t.prime_index := by
  have hn := h.bounds
  obtain ⟨e, he, hee⟩ := h.exists_empty
  obtain ⟨ae, hae, hpe⟩ := h.place_all (k.key x) e he
  have hocc : ∀ s : Slot α, s.isEmpty = true → s.occupied = false := by intro s; cases s <;> simp [Slot.isEmpty, Slot.occupied]
  have hocc' : ∀ s : Slot α, s.occupied = true → s.isEmpty = false := by intro s; cases s <;> simp [Slot.isEmpty, Slot.occupied]
  have hex : ∃ a, (t.slots (place k t.numslots (k.key x) a)).occupied = false := ⟨ae, by rw [hpe]; exact hocc _ hee⟩
  have h0 := Nat.find_spec hex
  have hle : Nat.find hex ≤ ae := Nat.find_min' hex (by rw [hpe]; exact hocc _ hee)
  have hb : ∀ b, b < Nat.find hex → (t.slots (place k t.numslots (k.key x) b)).occupied = true := by
    intro b hb
    simpa using Nat.find_min hex hb
  generalize Nat.find hex = a0 at *
  have hloop := addLoop_spec t (k.hash (k.key x)).toNat (secondHash t.numslots (k.hash (k.key x)).toNat) a0 h0 hb turns 0
    (by omega) (by unfold turns; omega)
  have hz := place_zero k t.numslots (k.key x)
  unfold place at hz
  rw [hz] at hloop
  have hins : insert t (k.hash (k.key x)).toNat x a = some
      { t with
        num := t.num + 1
        used := if (t.slots (place k t.numslots (k.key x) a0)).isEmpty then t.used + 1 else t.used
        slots := fun i => if i = place k t.numslots (k.key x) a0 then .full x a else t.slots i } := by
    unfold insert
    dsimp only
    rw [hloop]; rfl
  rw [hins]
  refine ⟨_, rfl, ?_⟩
  have hp : place k t.numslots (k.key x) a0 < t.numslots := place_lt k _ hn.2.1 _ _
  generalize hpl : place k t.numslots (k.key x) a0 = p at *
  have hnone : slotElem (t.slots p) = none := by cases hs : t.slots p <;> simp [hs, Slot.occupied, slotElem] at h0 ⊢
  obtain ⟨r, hr1, hr2⟩ := filterMap_update t.numslots p hp (fun i => slotElem (t.slots i))
    (fun i => slotElem (if i = p then .full x a else t.slots i)) (by intro j hj; simp [hj])
  simp only [hnone, if_true, Option.toList_none, List.nil_append] at hr1 hr2
  have hperm : (elems { t with
        num := t.num + 1
        used := if (t.slots p).isEmpty then t.used + 1 else t.used
        slots := fun i => if i = p then .full x a else t.slots i }).Perm ((x, a) :: elems t) :=
    hr2.trans ((List.Perm.refl [(x, a)]).append hr1.symm)
  obtain ⟨q, hq1, hq2⟩ := filterMap_update t.numslots p hp (fun i => usedSlot (t.slots i))
    (fun i => usedSlot (if i = p then .full x a else t.slots i)) (by intro j hj; simp [hj])
  have hu : (usedList { t with
        num := t.num + 1
        used := if (t.slots p).isEmpty then t.used + 1 else t.used
        slots := fun i => if i = p then .full x a else t.slots i }).length =
      if (t.slots p).isEmpty then t.used + 1 else t.used := by
    have e1 := hq1.length_eq
    have e2 := hq2.length_eq
    have e3 := h.hused
    unfold usedList at e3 ⊢
    simp only [List.length_append] at e1 e2
    rw [← e3] at e1
    dsimp only at e2 ⊢
    rw [e2]
    simp only [if_true, show usedSlot (Slot.full x a) = some () from rfl, Option.toList_some, List.length_singleton]
    cases hee : (t.slots p).isEmpty <;> simp [usedSlot, hee] at e1 <;> simp <;> omega
  have hle : (if (t.slots p).isEmpty then t.used + 1 else t.used) ≤ t.used + 1 := by split <;> omega
  refine ⟨⟨h.idx, h.size, hu.symm, ?_, ?_, ?_⟩, hperm, hle, rfl, rfl⟩
  · have := hperm.length_eq
    rw [this, List.length_cons, ← h.hnum]
  · dsimp only; omega
  · intro i y b hi hs
    dsimp only at hi hs ⊢
    have hkeep : ∀ j, (t.slots j).isEmpty = false → (if j = p then Slot.full x a else t.slots j).isEmpty = false := by
      intro j hj; split
      · rfl
      · exact hj
    by_cases hip : i = p
    · rw [if_pos hip] at hs
      simp only [Slot.full.injEq] at hs
      obtain ⟨rfl, rfl⟩ := hs
      refine ⟨a0, by rw [hpl, hip], ?_⟩
      intro B hB
      exact hkeep _ (hocc' _ (hb B hB))
    · rw [if_neg hip] at hs
      obtain ⟨A, hA, hAB⟩ := h.reach i y b hi hs
      exact ⟨A, hA, fun B hB => hkeep _ (hAB B hB)⟩

theorem Good.fresh (k : Kind α κ) (idx n : Nat) (hidx : idx < 16) (hn : primes[idx]? = some n) :
    Good k (⟨fun _ => .empty, idx, n, 0, 0⟩ : Table α) := by
  have hb := prime_of_index idx n hidx hn
  refine ⟨hidx, hn, ?_, ?_, ?_, ?_⟩
  · simp [usedList, usedSlot, Slot.isEmpty]
  · simp [elems, slotElem]
  · dsimp only; omega
  · intro i x a _ h; simp at h

theorem reinsert_spec (k : Kind α κ) (l : List (Slot α)) : ∀ (t : Table α), Good k t →
    20 * (t.used + (l.filterMap slotElem).length) < 9 * t.numslots →
    ∃ t', reinsert k t l = some t' ∧ Good k t' ∧ (elems t').Perm (l.filterMap slotElem ++ elems t) ∧
      t'.used ≤ t.used + (l.filterMap slotElem).length ∧ t'.numslots = t.numslots ∧ t'.prime_index = t.prime_index := by
  induction l with
  | nil => intro t h _; exact ⟨t, rfl, h, by simp, by simp, rfl, rfl⟩
  | cons s l ih =>
    intro t h hroom
    cases s with
    | empty => exact ih t h (by simpa only [List.filterMap_cons, slotElem] using hroom)
    | deleted => exact ih t h (by simpa only [List.filterMap_cons, slotElem] using hroom)
    | full x a =>
      simp only [List.filterMap_cons, slotElem, List.length_cons] at hroom ⊢
      obtain ⟨t1, h1, g1, p1, u1, n1, i1⟩ := h.insert_spec x a (by omega)
      obtain ⟨t2, h2, g2, p2, u2, n2, i2⟩ := ih t1 g1 (by rw [n1]; omega)
      refine ⟨t2, ?_, g2, ?_, by omega, n2.trans n1, i2.trans i1⟩
      · rw [reinsert, if_neg (by simp [crowded]; omega), h1]; exact h2
      · refine p2.trans ?_
        refine ((List.Perm.refl _).append p1).trans ?_
        exact List.perm_middle

theorem Good.rebuild_spec {k : Kind α κ} {t : Table α} (h : Good k t) (hnum : t.num < 26208) :
    ∃ t', rebuild k t = some t' ∧ Good k t' ∧ (elems t').Perm (elems t) ∧ 20 * (t'.used + 1) < 9 * t'.numslots := by
  unfold rebuild
  by_cases hc : crowded t = true
  · rw [if_pos hc]
    have hfm : ((List.range t.numslots).map t.slots).filterMap slotElem = elems t := by
      rw [List.filterMap_map]; rfl
    have hnl : (elems t).length = t.num := h.hnum.symm
    have hnu : t.num ≤ t.used := by
      rw [h.hnum, h.hused]
      unfold elems usedList
      have : ∀ l : List Nat, (l.filterMap fun i => slotElem (t.slots i)).length ≤ (l.filterMap fun i => usedSlot (t.slots i)).length := by
        intro l
        induction l with
        | nil => simp
        | cons i l ih =>
          cases hs : t.slots i <;> simp [List.filterMap_cons, hs] <;> omega
      exact this _
    have hl := h.load
    by_cases hs : tooSmall t = true
    · have hidx : t.prime_index + 1 < 16 := by
        by_contra hge
        have : t.prime_index = 15 := by have := h.idx; omega
        have hsz := h.size
        rw [this] at hsz
        simp [primes] at hsz
        simp only [tooSmall, decide_eq_true_eq] at hs
        omega
      obtain ⟨m, hm⟩ : ∃ m, primes[t.prime_index + 1]? = some m := by
        have : t.prime_index + 1 < primes.length := by simp [primes]; omega
        exact ⟨_, List.getElem?_eq_getElem this⟩
      have hgrow := prime_grows _ _ _ h.idx h.size hm
      obtain ⟨t', h1, g1, p1, u1, n1, i1⟩ := reinsert_spec k ((List.range t.numslots).map t.slots) _
        (Good.fresh k _ m hidx hm) (by rw [hfm]; dsimp only; omega)
      rw [hfm] at p1 u1
      refine ⟨t', ?_, g1, ?_, ?_⟩
      · rw [if_pos hs, hm]; exact h1
      · refine p1.trans ?_
        simp [elems, slotElem]
      · dsimp only at n1 u1; omega
    · obtain ⟨t', h1, g1, p1, u1, n1, i1⟩ := reinsert_spec k ((List.range t.numslots).map t.slots) _
        (Good.fresh k t.prime_index t.numslots h.idx h.size) (by rw [hfm]; dsimp only; omega)
      rw [hfm] at p1 u1
      refine ⟨t', ?_, g1, ?_, ?_⟩
      · rw [if_neg hs]; exact h1
      · refine p1.trans ?_
        simp [elems, slotElem]
      · simp only [tooSmall, decide_eq_true_eq] at hs
        dsimp only at n1 u1; omega
  · rw [if_neg hc]
    refine ⟨t, rfl, h, List.Perm.refl _, ?_⟩
    simp only [crowded, decide_eq_true_eq] at hc
    omega

theorem Good.add_spec {k : Kind α κ} {t : Table α} (h : Good k t) (hnum : t.num < 26208) (x : α) (a : Bool) :
    ∃ t', add k t x a = some t' ∧ Good k t' ∧ (elems t').Perm ((x, a) :: elems t) := by
  obtain ⟨t1, h1, g1, p1, r1⟩ := h.rebuild_spec hnum
  obtain ⟨t2, h2, g2, p2, -⟩ := g1.insert_spec x a r1
  refine ⟨t2, ?_, g2, p2.trans (p1.cons _)⟩
  rw [add, h1]; exact h2

/-- Replace a full slot by a deleted one, or by a full one with the same element. -/
theorem Good.update {k : Kind α κ} {t : Table α} (h : Good k t) (i : Nat) (x : α) (a : Bool) (hi : i < t.numslots)
    (hs : t.slots i = .full x a) (s' : Slot α) (hs' : s' = .deleted ∨ ∃ b, s' = .full x b) (num' : Nat)
    (hnum' : num' = t.num - 1 + (slotElem s').toList.length) :
    ∃ r, (elems t).Perm ((x, a) :: r) ∧
      Good k { t with num := num', slots := fun j => if j = i then s' else t.slots j } ∧
      (elems { t with num := num', slots := fun j => if j = i then s' else t.slots j }).Perm ((slotElem s').toList ++ r) := by
  obtain ⟨r, hr1, hr2⟩ := filterMap_update t.numslots i hi (fun j => slotElem (t.slots j))
    (fun j => slotElem (if j = i then s' else t.slots j)) (by intro j hj; simp [hj])
  simp only [hs, slotElem_full, if_true, Option.toList_some, List.singleton_append] at hr1 hr2
  obtain ⟨q, hq1, hq2⟩ := filterMap_update t.numslots i hi (fun j => usedSlot (t.slots j))
    (fun j => usedSlot (if j = i then s' else t.slots j)) (by intro j hj; simp [hj])
  have hu' : usedSlot s' = some () := by rcases hs' with rfl | ⟨b, rfl⟩ <;> rfl
  simp only [hs, if_true, hu', show usedSlot (Slot.full x a) = some () from rfl] at hq1 hq2
  refine ⟨r, hr1, ⟨h.idx, h.size, ?_, ?_, h.load, ?_⟩, hr2⟩
  · exact h.hused.trans (hq1.length_eq.trans hq2.length_eq.symm)
  · have e1 := hr1.length_eq
    have e2 := hr2.length_eq
    have e3 := h.hnum
    unfold elems at e3 ⊢
    dsimp only at e2 ⊢
    simp only [List.length_cons, List.length_append] at e1 e2
    rw [e2, hnum']; omega
  · intro j y b hj hsj
    dsimp only at hj hsj ⊢
    have hkeep : ∀ m, (t.slots m).isEmpty = false → (if m = i then s' else t.slots m).isEmpty = false := by
      intro m hm; split
      · rcases hs' with rfl | ⟨b, rfl⟩ <;> rfl
      · exact hm
    have hold : ∃ b', t.slots j = .full y b' := by
      by_cases hji : j = i
      · rw [if_pos hji] at hsj
        rcases hs' with rfl | ⟨b', rfl⟩
        · simp at hsj
        · simp only [Slot.full.injEq] at hsj
          rw [hji, ← hsj.1]; exact ⟨a, hs⟩
      · rw [if_neg hji] at hsj; exact ⟨b, hsj⟩
    obtain ⟨b', hold⟩ := hold
    obtain ⟨A, hA, hAB⟩ := h.reach j y b' hj hold
    exact ⟨A, hA, fun B hB => hkeep _ (hAB B hB)⟩

/- Iteration. -/

theorem range_drop (n i : Nat) (h : i < n) : (List.range n).drop i = i :: (List.range n).drop (i + 1) := by
  rw [List.drop_eq_getElem_cons (by simpa using h)]; simp

theorem next_spec (t : Table α) (index : Nat) :
    (next t index ≤ t.numslots → (t.slots (next t index - 1)).occupied = true) ∧
    ((List.range t.numslots).drop index).filterMap (fun i => slotElem (t.slots i)) =
      ((List.range t.numslots).drop (next t index - 1)).filterMap (fun i => slotElem (t.slots i)) := by
  generalize hd : t.numslots - index = d
  induction d using Nat.strongRecOn generalizing index with
  | ind d ih =>
    rw [next]
    split
    · rename_i h
      obtain ⟨h1, h2⟩ := ih (t.numslots - (index + 1)) (by omega) (index + 1) rfl
      refine ⟨h1, ?_⟩
      rw [← h2, range_drop _ _ (by omega)]
      have ho : (t.slots index).occupied = false := by simpa using h.2
      have : slotElem (t.slots index) = none := by cases hs : t.slots index <;> simp [hs, Slot.occupied, slotElem] at ho ⊢
      simp [List.filterMap_cons, this]
    · rename_i h
      refine ⟨?_, rfl⟩
      intro hle
      have := not_and.mp h hle
      simpa using this

theorem iterate_spec (t : Table α) (index : Nat) :
    iterate t index = ((List.range t.numslots).drop index).filterMap (fun i => slotElem (t.slots i)) := by
  generalize hd : t.numslots - index = d
  induction d using Nat.strongRecOn generalizing index with
  | ind d ih =>
    rw [iterate]
    have hlt := lt_next t index
    obtain ⟨h1, h2⟩ := next_spec t index
    rw [h2]
    by_cases hle : next t index ≤ t.numslots
    · rw [if_pos hle, ih _ (by omega) (next t index) rfl]
      have ho := h1 hle
      rw [range_drop _ _ (show next t index - 1 < t.numslots by omega), show next t index - 1 + 1 = next t index by omega]
      cases hs : t.slots (next t index - 1) with
      | full x a => simp [List.filterMap_cons, slotElem, hs]
      | empty => rw [hs] at ho; simp [Slot.occupied] at ho
      | deleted => rw [hs] at ho; simp [Slot.occupied] at ho
    · rw [if_neg hle, List.drop_eq_nil_of_le (by simp; omega)]; rfl

theorem iterate_elems (t : Table α) : iterate t 0 = elems t := by rw [iterate_spec]; rfl

/- Calls. -/

open Spec.Bag

theorem primeIndex_lt : ∀ (n idx b : Nat), n < 2 ^ b → 1 ≤ b → primeIndex n idx < idx + b := by
  intro n
  induction n using Nat.strongRecOn with
  | ind n ih =>
    intro idx b h hb
    rw [primeIndex]
    split
    · omega
    · rename_i hne
      obtain ⟨c, rfl⟩ : ∃ c, b = c + 1 := ⟨b - 1, by omega⟩
      have h2 : n / 2 < 2 ^ c := by rw [Nat.pow_succ] at h; omega
      have hc : 1 ≤ c := by
        by_contra h0
        have : c = 0 := by omega
        subst this
        simp at h2; omega
      have := ih (n / 2) (by omega) (idx + 1) c h2 hc
      omega

theorem new_spec (k : Kind α κ) (numslots : Nat) (h : numslots < 2 ^ 15) :
    ∃ t : Table α, new numslots = some t ∧ Good k t ∧ elems t = [] := by
  have hidx : (if numslots = 0 then 0 else primeIndex numslots 1) < 16 := by
    split
    · omega
    · have := primeIndex_lt numslots 1 15 h (by omega); omega
  unfold new
  dsimp only
  generalize (if numslots = 0 then 0 else primeIndex numslots 1) = idx at *
  obtain ⟨n, hn⟩ : ∃ n, primes[idx]? = some n :=
    ⟨_, List.getElem?_eq_getElem (show idx < primes.length by simp [primes]; omega)⟩
  rw [hn]
  exact ⟨_, rfl, Good.fresh k idx n hidx hn, by simp [elems]⟩

theorem Good.zap {k : Kind α κ} {t : Table α} (h : Good k t) : Good k (zap t).2 ∧ elems (zap t).2 = [] := by
  have hb := h.bounds
  have e : elems (Scatter.zap t).2 = [] := by
    simp only [elems, Scatter.zap]
    rw [List.filterMap_eq_nil_iff]
    intro i hi
    simp [List.mem_range.mp hi]
  refine ⟨⟨h.idx, h.size, ?_, ?_, ?_, ?_⟩, e⟩
  · have : usedList (Scatter.zap t).2 = [] := by
      simp only [usedList, Scatter.zap]
      rw [List.filterMap_eq_nil_iff]
      intro i hi
      simp [List.mem_range.mp hi]
    rw [this]; rfl
  · rw [e]; rfl
  · simp only [Scatter.zap]; omega
  · intro i x a hi hs
    simp only [Scatter.zap] at hi hs
    simp [hi] at hs

theorem zap_freed (t : Table α) : (zap t).1 = ((elems t).filter Prod.snd).map Prod.fst := by
  simp only [zap, elems]
  induction List.range t.numslots with
  | nil => rfl
  | cons i l ih =>
    simp only [List.filterMap_cons]
    cases hs : t.slots i with
    | empty => simpa using ih
    | deleted => simpa using ih
    | full x a => cases a <;> simpa using ih

theorem Good.exec_spec {k : Kind α κ} {t : Table α} (h : Good k t) (hnum : (elems t).length < 26208) (op : Call α κ) :
    ∃ t' o, exec k t op = some (t', o) ∧ Good k t' ∧ Step k.key (elems t) op o (elems t') := by
  have hno : (∀ key, (∀ i x a, i < t.numslots → t.slots i = .full x a → k.key x ≠ key) → ∀ p ∈ elems t, k.key p.1 ≠ key) := by
    intro key hk p hp
    obtain ⟨i, hi, hs⟩ := (mem_elems t p).mp hp
    exact hk i p.1 p.2 hi hs
  cases op with
  | add x a =>
    obtain ⟨t', h1, g1, p1⟩ := h.add_spec (by rw [h.hnum]; exact hnum) x a
    exact ⟨t', .freed [], by simp [exec, h1], g1, .add p1⟩
  | remove x =>
    rcases h.genfind_spec (k.key x) with ⟨i, y, a, hf, hi, hs, hk⟩ | ⟨hf, hk⟩
    · have hm : (y, a) ∈ elems t := (mem_elems t _).mpr ⟨i, hi, hs⟩
      obtain ⟨r, hr, g, hp⟩ := h.update i y a hi hs .deleted (Or.inl rfl) (t.num - 1) (by simp)
      refine ⟨{ t with num := t.num - 1, slots := fun j => if j = i then .deleted else t.slots j },
        .freed (if a then [y] else []), ?_, g, .remove hk (hr.trans ((by simpa using hp.symm : List.Perm r _).cons _))⟩
      cases a <;> simp [exec, remove, hf, hs]
    · exact ⟨t, .freed [], by simp [exec, remove, hf], h, .removeNone (hno _ hk) (List.Perm.refl _)⟩
  | setAutofree x b =>
    rcases h.genfind_spec (k.key x) with ⟨i, y, a, hf, hi, hs, hk⟩ | ⟨hf, hk⟩
    · have hpos : 0 < t.num := by
        rw [h.hnum]
        exact List.length_pos_of_mem ((mem_elems t (y, a)).mpr ⟨i, hi, hs⟩)
      obtain ⟨r, hr, g, hp⟩ := h.update i y a hi hs (.full y b) (Or.inr ⟨b, rfl⟩) t.num (by simp; omega)
      refine ⟨{ t with slots := fun j => if j = i then .full y b else t.slots j }, .freed [], ?_, g, .setAutofree hk hr hp⟩
      simp [exec, setAutofree, hf, hs]
    · exact ⟨t, .freed [], by simp [exec, setAutofree, hf], h, .setAutofreeNone (hno _ hk) (List.Perm.refl _)⟩
  | zap =>
    refine ⟨(Scatter.zap t).2, .freed (Scatter.zap t).1, rfl, h.zap.1, ?_⟩
    rw [h.zap.2]
    exact .zap (by rw [zap_freed])
  | find key =>
    rcases h.genfind_spec key with ⟨i, y, a, hf, hi, hs, hk⟩ | ⟨hf, hk⟩
    · exact ⟨t, .found (some y), by simp [exec, find, hf, hs], h,
        .find ((mem_elems t (y, a)).mpr ⟨i, hi, hs⟩) hk (List.Perm.refl _)⟩
    · exact ⟨t, .found none, by simp [exec, find, hf], h, .findNone (hno _ hk) (List.Perm.refl _)⟩

theorem Good.run_spec {k : Kind α κ} (ops : List (Call α κ)) : ∀ {t : Table α}, Good k t →
    (∀ pre, pre <+: ops → ∀ t' os, run k t pre = some (t', os) → (elems t').length < 26208) →
    ∃ t' os, run k t ops = some (t', os) ∧ Good k t' ∧ Steps k.key (elems t) ops os (elems t') := by
  induction ops with
  | nil => intro t h _; exact ⟨t, [], rfl, h, .nil⟩
  | cons op ops ih =>
    intro t h hlen
    obtain ⟨t1, o, h1, g1, s1⟩ := h.exec_spec (hlen [] (List.nil_prefix) t [] rfl) op
    obtain ⟨t2, os, h2, g2, s2⟩ := ih g1 (by
      intro pre hpre t' os hr
      refine hlen (op :: pre) (List.prefix_cons_inj op |>.mpr hpre) t' (o :: os) ?_
      simp [run, h1, hr])
    exact ⟨t2, o :: os, by simp [run, h1, h2], g2, .cons s1 s2⟩

theorem steps_length {key : α → κ} {c : List (α × Bool)} {ops : List (Call α κ)} {os : List (Out α)} {c' : List (α × Bool)}
    (h : Steps key c ops os c') : c'.length ≤ c.length + (ops.filter Call.isAdd).length := by
  induction h with
  | nil => simp
  | cons s _ ih =>
    cases s with
    | add hp => have := hp.length_eq; simp [List.filter_cons, Call.isAdd] at this ih ⊢; omega
    | remove _ hp => have := hp.length_eq; simp [List.filter_cons, Call.isAdd] at this ih ⊢; omega
    | removeNone _ hp => have := hp.length_eq; simp [List.filter_cons, Call.isAdd] at this ih ⊢; omega
    | setAutofree _ hp hq => have := hp.length_eq; have := hq.length_eq; simp [List.filter_cons, Call.isAdd] at *; omega
    | setAutofreeNone _ hp => have := hp.length_eq; simp [List.filter_cons, Call.isAdd] at this ih ⊢; omega
    | zap => simp [List.filter_cons, Call.isAdd] at ih ⊢; omega
    | find _ _ hp => have := hp.length_eq; simp [List.filter_cons, Call.isAdd] at this ih ⊢; omega
    | findNone _ hp => have := hp.length_eq; simp [List.filter_cons, Call.isAdd] at this ih ⊢; omega

/-- As long as few elements are added, the table stays small. -/
theorem Good.small {k : Kind α κ} (ops : List (Call α κ)) : ∀ {t : Table α}, Good k t →
    (elems t).length + (ops.filter Call.isAdd).length < 26208 →
    ∀ pre, pre <+: ops → ∀ t' os, run k t pre = some (t', os) → (elems t').length < 26208 := by
  induction ops with
  | nil =>
    intro t h hlen pre hpre t' os hr
    have : pre = [] := List.prefix_nil.mp hpre
    subst this
    simp only [run, Option.some.injEq, Prod.mk.injEq] at hr
    rw [← hr.1]; simp at hlen; exact hlen
  | cons op ops ih =>
    intro t h hlen pre hpre t' os hr
    cases pre with
    | nil =>
      simp only [run, Option.some.injEq, Prod.mk.injEq] at hr
      rw [← hr.1]; omega
    | cons p pre =>
      obtain ⟨rfl, hpre'⟩ := List.cons_prefix_cons.mp hpre
      obtain ⟨t1, o, h1, g1, s1⟩ := h.exec_spec (by omega) p
      have hs := steps_length (.cons s1 .nil)
      have hr2 : ∃ os2, run k t1 pre = some (t', os2) := by
        rw [run, h1] at hr
        simp only [Option.bind_some, Option.map_eq_some_iff] at hr
        obtain ⟨q, hq, he⟩ := hr
        simp only [Prod.mk.injEq] at he
        exact ⟨q.2, by rw [hq, ← he.1]⟩
      obtain ⟨os2, hr2⟩ := hr2
      refine ih g1 ?_ pre hpre' t' os2 hr2
      rw [List.filter_cons] at hlen hs
      split at hlen <;> simp_all <;> omega

/- Where probing does not end. -/

/-- With this hash in a table of 262139 slots only 32768 slots are ever probed. -/
theorem probes_few (a : Nat) : curhash 262139 131071 (secondHash 262139 131071) a = (131071 + (a % 32768) * 131072) % 2 ^ 32 % 262139 := by
  have : secondHash 262139 131071 = 131072 := by decide
  rw [this, curhash]
  have : (131071 + a * 131072) % 2 ^ 32 = (131071 + a % 32768 * 131072) % 2 ^ 32 := by omega
  rw [this]

/-- The slots that are ever probed. -/
def fewSlots : List Nat := (List.range 32768).map fun a => (131071 + a * 131072) % 2 ^ 32 % 262139

theorem fewSlots_length : fewSlots.length = 32768 := by simp [fewSlots]

theorem probe_mem (a : Nat) : curhash 262139 131071 (secondHash 262139 131071) a ∈ fewSlots := by
  rw [probes_few, fewSlots, List.mem_map]
  exact ⟨a % 32768, List.mem_range.mpr (Nat.mod_lt _ (by omega)), rfl⟩

/-- A slot that `addLoop` finds is probed and not occupied. -/
theorem addLoop_found (t : Table α) (hash hash2 : Nat) : ∀ (fuel a i : Nat),
    addLoop t hash hash2 (curhash t.numslots hash hash2 a) a fuel = some i →
    (t.slots i).occupied = false ∧ ∃ a, curhash t.numslots hash hash2 a = i := by
  intro fuel
  induction fuel with
  | zero => intro a i h; simp [addLoop] at h
  | succ fuel ih =>
    intro a i h
    rw [addLoop] at h
    by_cases ho : (t.slots (curhash t.numslots hash hash2 a)).occupied = true
    · rw [if_pos ho] at h; exact ih _ _ h
    · rw [if_neg ho] at h
      simp only [Option.some.injEq] at h
      subst h
      exact ⟨by simpa using ho, a, rfl⟩

structure Full (t : Table α) (l : List Nat) : Prop where
  size : t.numslots = 262139
  used : t.used ≤ l.length
  nodup : l.Nodup
  sub : l ⊆ fewSlots
  occ : ∀ i ∈ l, (t.slots i).occupied = true

theorem Full.le {t : Table α} {l : List Nat} (h : Full t l) : l.length ≤ 32768 := by
  have := (List.Nodup.subperm h.nodup h.sub).length_le
  rw [fewSlots_length] at this
  exact this

theorem Full.adds (k : Kind α κ) (hk : ∀ key, (k.hash key).toNat = 131071) (xs : List α) : ∀ (t : Table α) (l : List Nat), Full t l →
    ∀ r, run k t (xs.map fun x => .add x false) = some r → ∃ l', Full r.1 l' ∧ l'.length = l.length + xs.length := by
  induction xs with
  | nil => intro t l h r hr; simp only [List.map_nil, run, Option.some.injEq] at hr; subst hr; exact ⟨l, h, by simp⟩
  | cons x xs ih =>
    intro t l h r hr
    have hle := h.le
    have hnc : crowded t = false := by
      have h1 := h.used
      have h2 := h.size
      simp [crowded]; omega
    rw [List.map_cons, run] at hr
    simp only [exec, add, rebuild, hnc, Bool.false_eq_true, if_false, Option.bind_some] at hr
    cases hi : insert t (k.hash (k.key x)).toNat x false with
    | none => rw [hi] at hr; simp at hr
    | some t1 =>
      rw [hi] at hr
      simp only [Option.map_some, Option.bind_some, Option.map_eq_some_iff] at hr
      obtain ⟨q, hq, he⟩ := hr
      unfold insert at hi
      dsimp only at hi
      simp only [Option.map_eq_some_iff] at hi
      obtain ⟨i, hloop, hi⟩ := hi
      rw [hk] at hloop
      have hz : (131071 : Nat) % t.numslots = curhash t.numslots 131071 (secondHash t.numslots 131071) 0 := by
        simp [curhash]
      rw [hz] at hloop
      obtain ⟨hun, a, ha⟩ := addLoop_found _ _ _ _ _ _ hloop
      have hmem : i ∈ fewSlots := by rw [← ha, h.size]; exact probe_mem a
      have hnot : i ∉ l := by
        intro hc
        have := h.occ i hc
        rw [hun] at this; simp at this
      have hfull : Full t1 (i :: l) := by
        subst hi
        refine ⟨h.size, ?_, List.nodup_cons.mpr ⟨hnot, h.nodup⟩, ?_, ?_⟩
        · have := h.used
          dsimp only
          simp only [List.length_cons]
          split <;> omega
        · intro j hj
          rcases List.mem_cons.mp hj with rfl | hj
          · exact hmem
          · exact h.sub hj
        · intro j hj
          dsimp only
          by_cases hji : j = i
          · rw [if_pos hji]; rfl
          · rw [if_neg hji]; exact h.occ j ((List.mem_cons.mp hj).resolve_left hji)
      obtain ⟨l', hl', hlen⟩ := ih t1 (i :: l) hfull q hq
      refine ⟨l', ?_, ?_⟩
      · rw [← he]; exact hl'
      · rw [hlen]; simp; omega

end Wv.Scatter
