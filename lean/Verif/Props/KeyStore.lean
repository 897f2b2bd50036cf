import Verif.Lemmas.KeyStoreOps
/-
C63: keys are values.
-/
namespace Props
open Wv Wv.KeyStore

namespace KeyStoreFacts
open Lemmas.KeyStore

/-- The objects in the variables. -/
def objs (vars : List (Option K)) : List K := vars.filterMap id

theorem mem_objs (vars : List (Option K)) (s : K) : s ∈ objs vars ↔ ∃ v : Nat, vars[v]? = some (some s) := by
  unfold objs
  rw [List.mem_filterMap]
  constructor
  · rintro ⟨o, ho, e⟩
    obtain ⟨v, hv⟩ := List.mem_iff_getElem?.mp ho
    exact ⟨v, by rw [hv]; exact congrArg some e⟩
  · rintro ⟨v, hv⟩
    exact ⟨some s, List.mem_of_getElem? hv, rfl⟩

theorem perm_set (vars : List (Option K)) (v : Nat) (s : K) (h : vars[v]? = some none) :
    (s :: objs vars).Perm (objs (vars.set v (some s))) := by
  induction vars generalizing v with
  | nil => simp at h
  | cons o l ih =>
    cases v with
    | zero =>
      simp only [List.getElem?_cons_zero, Option.some.injEq] at h
      subst h
      simp [objs]
    | succ v =>
      simp only [List.getElem?_cons_succ] at h
      have := ih v h
      unfold objs at this ⊢
      cases o with
      | none => simpa [List.filterMap_cons] using this
      | some x =>
        simp only [List.set_cons_succ, List.filterMap_cons, id]
        exact (List.Perm.swap ..).trans (this.cons x)

/-- What the states satisfy. -/
structure Good (n : Nat) (st : State) (x : Spec.Keys.Vals) : Prop where
  len : st.vars.length = n
  inv : Inv st.mem (objs st.vars)
  vals : ∀ v, st.value v = x v
  roots : ∀ v, x v ≠ some [[]]

theorem value_eq (st : State) (v : Nat) : st.value v = (st.get v).bind (value st.mem) := rfl

theorem get_some {st : State} {v : Nat} {s : K} (h : st.get v = some s) : st.vars[v]? = some (some s) := by
  unfold State.get at h
  cases hv : st.vars[v]? with
  | none => rw [hv] at h; simp at h
  | some o => rw [hv] at h; simp at h; rw [h]

theorem exists_of_val {n : Nat} {st : State} {x : Spec.Keys.Vals} (hg : Good n st x) {v : Nat} (h : x v ≠ none) :
    ∃ s y, st.get v = some s ∧ x v = some y ∧ value st.mem s = some y ∧ s ∈ objs st.vars := by
  have hv := hg.vals v
  rw [value_eq] at hv
  cases hs : st.get v with
  | none => rw [hs] at hv; exact absurd hv.symm h
  | some s =>
    rw [hs, Option.bind_some] at hv
    cases hy : value st.mem s with
    | none => rw [hy] at hv; exact absurd hv.symm h
    | some y => exact ⟨s, y, rfl, by rw [← hv, hy], hy, (mem_objs _ _).mpr ⟨v, get_some hs⟩⟩

theorem none_of_val {n : Nat} {st : State} {x : Spec.Keys.Vals} (hg : Good n st x) {v : Nat} (hv : v < n) (h : x v = none) :
    st.vars[v]? = some none := by
  have hval := hg.vals v
  rw [value_eq] at hval
  rw [List.getElem?_eq_getElem (by rw [hg.len]; exact hv)]
  congr 1
  cases ho : st.vars[v]'(by rw [hg.len]; exact hv) with
  | none => rfl
  | some s =>
    have hget : st.vars[v]? = some (some s) := by
      rw [List.getElem?_eq_getElem (by rw [hg.len]; exact hv), ho]
    have hs : st.get v = some s := by unfold State.get; rw [hget]; rfl
    rw [hs, Option.bind_some, h] at hval
    obtain ⟨_, _, _, _, _, hx⟩ := value_ok hg.inv ((mem_objs _ _).mpr ⟨v, hget⟩)
    rw [hx] at hval
    cases hval

/-- The variables without one. -/
theorem clear_perm {vars : List (Option K)} {v : Nat} {s : K} (h1 : vars[v]? = some (some s)) :
    (objs vars).Perm (s :: objs (vars.set v none)) := by
  have hlt : v < vars.length := by
    refine Decidable.byContradiction fun hn => ?_
    rw [List.getElem?_eq_none (by omega)] at h1
    cases h1
  have hp := perm_set (vars.set v none) v s (by simp [hlt])
  rw [List.set_set] at hp
  have e : vars.set v (some s) = vars := by
    apply List.ext_getElem?
    intro u
    by_cases hu : u = v
    · subst hu
      rw [List.getElem?_set_self hlt, h1]
    · rw [List.getElem?_set_ne (Ne.symm hu)]
  rw [e] at hp
  exact hp.symm

/-- A result is put into a variable whose old object is gone. -/
theorem put_good {n : Nat} {st : State} {x : Spec.Keys.Vals} (hg : Good n st x) (v : Nat) (hv : v < n)
    (r : Option (Mem × K)) (y : Key) (hy : y ≠ [[]]) (hr : Result st.mem (objs (st.vars.set v none)) r y) :
    ∃ st', st.put v r = some st' ∧ Good n st' (Spec.Keys.set x v (some y)) := by
  obtain ⟨m', s, rfl, hi, hval, hvals⟩ := hr
  refine ⟨⟨m', st.vars.set v (some s)⟩, rfl, ⟨by simp [hg.len], ?_, ?_, ?_⟩⟩
  · have := hi.perm (perm_set (st.vars.set v none) v s (by simp [hg.len, hv]))
    rw [List.set_set] at this
    exact this
  · intro u
    rw [value_eq]
    unfold Spec.Keys.set
    by_cases hu : u = v
    · subst hu
      rw [if_pos rfl]
      have : State.get ⟨m', st.vars.set u (some s)⟩ u = some s := by
        unfold State.get
        rw [List.getElem?_set_self (by rw [hg.len]; exact hv)]; rfl
      rw [this, Option.bind_some, hval]
    · rw [if_neg hu]
      have : State.get ⟨m', st.vars.set v (some s)⟩ u = st.get u := by
        unfold State.get
        rw [List.getElem?_set_ne (Ne.symm hu)]
      rw [this, ← hg.vals u, value_eq]
      cases ho : st.get u with
      | none => rfl
      | some o =>
        rw [Option.bind_some, Option.bind_some]
        refine hvals o ((mem_objs _ _).mpr ⟨u, ?_⟩)
        rw [List.getElem?_set_ne (Ne.symm hu)]
        exact get_some ho
  · intro u
    unfold Spec.Keys.set
    by_cases hu : u = v
    · rw [if_pos hu]; simpa using hy
    · rw [if_neg hu]; exact hg.roots u

theorem lt_of_get {n : Nat} {st : State} {x : Spec.Keys.Vals} (hg : Good n st x) {v : Nat} {s : K} (h : st.get v = some s) :
    v < n := by
  have h1 := get_some h
  refine Decidable.byContradiction fun hn => ?_
  rw [List.getElem?_eq_none (by rw [hg.len]; omega)] at h1
  cases h1

theorem clear_none {vars : List (Option K)} {v : Nat} (h : vars[v]? = some none) : vars.set v none = vars := by
  apply List.ext_getElem?
  intro u
  by_cases hu : u = v
  · subst hu
    have hlt : u < vars.length := by
      refine Decidable.byContradiction fun hn => ?_
      rw [List.getElem?_eq_none (by omega)] at h
      cases h
    rw [List.getElem?_set_self hlt, h]
  · rw [List.getElem?_set_ne (Ne.symm hu)]

/-- Another variable is among the rest. -/
theorem other_mem {st : State} {v w : Nat} {k2 : K} (hne : v ≠ w) (h : st.get w = some k2) : k2 ∈ objs (st.vars.set v none) :=
  (mem_objs _ _).mpr ⟨w, by rw [List.getElem?_set_ne hne]; exact get_some h⟩

end KeyStoreFacts

open KeyStoreFacts (Good)

/-- A key shares its segments with another. -/
def C63_Shared (st : State) (v : Nat) : Prop := ∃ k s, st.get v = some k ∧ fetch st.mem k.store = some s ∧ 2 ≤ s.refs

/-- A key begins with the first of the segments that it was made with: it is not the rest that `pop` left or that `range` gave. -/
def C63_FromStart (st : State) (v : Nat) : Prop := ∃ k, st.get v = some k ∧ k.left = 0

/-- A key has all of the segments that it was made with. -/
def C63_Whole (st : State) (v : Nat) : Prop :=
  ∃ k s, st.get v = some k ∧ fetch st.mem k.store = some s ∧ k.left = 0 ∧ k.right = s.used

/-- No segment but the last is empty. -/
def C63_Tidy (y : Key) : Prop := y = Spec.Keys.names y ∨ y = Spec.Keys.names y ++ [[]]

/-- The rules. A key is not assigned to itself, unless it shares its segments. Nothing is appended to a key that is a rest of
    another and has outlived it. Nothing is prepended to a key that is a part of another and has outlived it, and what is prepended
    has no empty segments inside. A key is neither appended nor prepended to itself. -/
def C63_Clear (st : State) (x : Spec.Keys.Vals) : Op → Prop
  | .assign v w => v ≠ w ∨ C63_Shared st v
  | .append v w => v ≠ w ∧ (C63_Shared st v ∨ C63_FromStart st v)
  | .prepend v w => v ≠ w ∧ (C63_Shared st v ∨ C63_Whole st v) ∧ ∀ y, x w = some y → C63_Tidy y
  | _ => True

/-- A program that keeps to the rules in every state it comes to. -/
def C63_Keeps (n : Nat) : State → Spec.Keys.Vals → List Op → Prop
  | _, _, [] => True
  | st, x, o :: r => Spec.Keys.Legal n x o ∧ C63_Clear st x o ∧ ∀ st', step st o = some st' → C63_Keeps n st' (Spec.Keys.step x o) r

namespace KeyStoreFacts
open Lemmas.KeyStore

theorem step_good (n : Nat) (st : State) (x : Spec.Keys.Vals) (hg : Good n st x) (o : Op)
    (hl : Spec.Keys.Legal n x o) (hc : C63_Clear st x o) :
    ∃ st', step st o = some st' ∧ Good n st' (Spec.Keys.step x o) := by
  cases o with
  | declare v =>
    obtain ⟨hv, hn⟩ := hl
    exact put_good hg v hv _ _ (by simp) (by rw [clear_none (none_of_val hg hv hn)]; exact empty_spec _ _ hg.inv)
  | make v t =>
    obtain ⟨hv, hn⟩ := hl
    exact put_good hg v hv _ _ (ofText_ne t) (by rw [clear_none (none_of_val hg hv hn)]; exact make_spec _ _ t hg.inv)
  | copy v w =>
    obtain ⟨hv, hn, hw⟩ := hl
    obtain ⟨s, y, hs, hy, hval, hmem⟩ := exists_of_val hg hw
    have := put_good hg v hv _ y (fun e => hg.roots w (hy.trans (congrArg some e))) (by
      rw [clear_none (none_of_val hg hv hn)]; exact copy_spec _ _ s y hg.inv hmem hval)
    simp only [step, hs, Option.bind_some, Spec.Keys.step, hy]
    exact this
  | concat v w u =>
    obtain ⟨hv, hn, hw, hu⟩ := hl
    obtain ⟨s, y, hs, hy, hval, hmem⟩ := exists_of_val hg hw
    obtain ⟨s2, y2, hs2, hy2, hval2, hmem2⟩ := exists_of_val hg hu
    have := put_good hg v hv _ _ (root_ne _) (by
      rw [clear_none (none_of_val hg hv hn)]; exact concat_spec _ _ s s2 y y2 hg.inv hmem hmem2 hval hval2)
    simp only [step, hs, hs2, Option.bind_some, Spec.Keys.step, hy, hy2, Option.map_some]
    exact this
  | range v w i j =>
    obtain ⟨hv, hn, hw⟩ := hl
    obtain ⟨s, y, hs, hy, hval, hmem⟩ := exists_of_val hg hw
    have := put_good hg v hv _ _ (root_ne _) (by
      rw [clear_none (none_of_val hg hv hn)]; exact range_spec _ _ s y hg.inv hmem hval i j)
    simp only [step, hs, Option.bind_some, Spec.Keys.step, hy, Option.map_some]
    exact this
  | pop v w i =>
    obtain ⟨hv, hn, hw⟩ := hl
    obtain ⟨s, y, hs, hy, hval, hmem⟩ := exists_of_val hg hw
    have hvw : v ≠ w := by rintro rfl; exact hw hn
    obtain ⟨m', t, r, hp, hi', ht, hr, hvals⟩ := pop_spec st.mem _ s y i (hg.inv.perm (clear_perm (get_some hs))) hval
      (fun e => hg.roots w (hy.trans (congrArg some e)))
    -- first the variable itself, then the new one
    have hlw := lt_of_get hg hs
    have hp1 := perm_set (st.vars.set w none) w t (by simp [hg.len, hlw])
    rw [List.set_set] at hp1
    have hvn : (st.vars.set w (some t))[v]? = some none := by
      rw [List.getElem?_set_ne (Ne.symm hvw)]; exact none_of_val hg hv hn
    have hp2 := perm_set (st.vars.set w (some t)) v r hvn
    refine ⟨⟨m', (st.vars.set w (some t)).set v (some r)⟩, by simp only [step, hs, Option.bind_some, hp, Option.map_some],
      ⟨by simp [hg.len], hi'.perm ((hp1.cons r).trans hp2), ?_, ?_⟩⟩
    · intro u
      rw [value_eq]
      simp only [Spec.Keys.step, Spec.Keys.set, hy, Option.map_some]
      by_cases huv : u = v
      · subst huv
        rw [if_pos rfl]
        have : State.get ⟨m', (st.vars.set w (some t)).set u (some r)⟩ u = some r := by
          unfold State.get
          rw [List.getElem?_set_self (by simp [hg.len, hv])]; rfl
        rw [this, Option.bind_some, hr]
      · rw [if_neg huv]
        by_cases huw : u = w
        · subst huw
          rw [if_pos rfl]
          have : State.get ⟨m', (st.vars.set u (some t)).set v (some r)⟩ u = some t := by
            unfold State.get
            rw [List.getElem?_set_ne hvw, List.getElem?_set_self (by simp [hg.len, hlw])]; rfl
          rw [this, Option.bind_some, ht]
        · rw [if_neg huw]
          have : State.get ⟨m', (st.vars.set w (some t)).set v (some r)⟩ u = st.get u := by
            unfold State.get
            rw [List.getElem?_set_ne (Ne.symm huv), List.getElem?_set_ne (Ne.symm huw)]
          rw [this, ← hg.vals u, value_eq]
          cases ho : st.get u with
          | none => rfl
          | some o =>
            rw [Option.bind_some, Option.bind_some]
            exact hvals o (other_mem (Ne.symm huw) ho)
    · intro u
      simp only [Spec.Keys.step, Spec.Keys.set, hy, Option.map_some]
      by_cases huv : u = v
      · rw [if_pos huv]; simpa using root_ne _
      · rw [if_neg huv]
        by_cases huw : u = w
        · rw [if_pos huw]; simpa using root_ne _
        · rw [if_neg huw]; exact hg.roots u
  | assign v w =>
    obtain ⟨hv, hw⟩ := hl
    obtain ⟨s, y0, hs, hy0, hval0, hmem0⟩ := exists_of_val hg hv
    have hp := clear_perm (get_some hs)
    by_cases hvw : v = w
    · subst hvw
      obtain ⟨k, t, hk, ht, h2⟩ := hc.resolve_left (fun h => h rfl)
      rw [hs] at hk
      cases hk
      have := put_good hg v (lt_of_get hg hs) _ y0 (fun e => hg.roots v (hy0.trans (congrArg some e)))
        (assign_self_spec st.mem _ s y0 t (hg.inv.perm hp) ht h2 hval0)
      simp only [step, hs, Option.bind_some, Spec.Keys.step, hy0]
      exact this
    · obtain ⟨s2, y, hs2, hy, hval, hmem⟩ := exists_of_val hg hw
      have := put_good hg v (lt_of_get hg hs) _ y (fun e => hg.roots w (hy.trans (congrArg some e)))
        (assign_spec st.mem _ s s2 y (hg.inv.perm hp) (other_mem hvw hs2) hval)
      simp only [step, hs, hs2, Option.bind_some, Spec.Keys.step, hy]
      exact this
  | assignRange v w i j =>
    obtain ⟨hv, hw⟩ := hl
    obtain ⟨s, y0, hs, -, -, -⟩ := exists_of_val hg hv
    obtain ⟨s2, y, hs2, hy, hval, hmem⟩ := exists_of_val hg hw
    have hp := clear_perm (get_some hs)
    obtain ⟨m1, r, hr, i1, v1, o1⟩ := range_spec st.mem _ s2 y (hg.inv.perm hp) (hp.mem_iff.mp hmem) hval i j
    obtain ⟨m2, q, hq, i2, v2, o2⟩ := assign_spec m1 (r :: objs (st.vars.set v none)) s r _ (i1.perm (List.Perm.swap ..)) (by simp) v1
    obtain ⟨m3, h3, i3, o3, -⟩ := release_spec m2 _ r (i2.perm (List.Perm.swap ..))
    have := put_good hg v (lt_of_get hg hs) ((assign m1 s r).bind fun q => (release q.1 r.store).map fun m => (m, q.2))
      (Spec.Keys.part y i j) (root_ne _) (by
        rw [hq, Option.bind_some]
        refine ⟨m3, q, by dsimp only; rw [h3]; rfl, i3, by rw [o3 q (by simp), v2], ?_⟩
        intro o ho
        rw [o3 o (by simp [ho]), o2 o (by simp [ho]), o1 o (by simp [ho])])
    simp only [step, hs, hs2, Option.bind_some, hr, Spec.Keys.step, hy, Option.map_some]
    exact this
  | append v w =>
    obtain ⟨hv, hw⟩ := hl
    obtain ⟨hvw, hc⟩ := hc
    obtain ⟨s, y0, hs, hy0, hval0, hmem0⟩ := exists_of_val hg hv
    obtain ⟨s2, y, hs2, hy, hval, hmem⟩ := exists_of_val hg hw
    have hp := clear_perm (get_some hs)
    obtain ⟨t, ht, -⟩ := hg.inv.ok s hmem0
    have := put_good hg v (lt_of_get hg hs) _ _ (root_ne _) (append_spec st.mem _ s s2 y0 y t (hg.inv.perm hp) (other_mem hvw hs2)
      hval0 hval ht (by
        intro h1
        rcases hc with ⟨k, t', hk, ht', h2⟩ | ⟨k, hk, h0⟩
        · rw [hs] at hk; cases hk; rw [ht] at ht'; cases ht'; omega
        · rw [hs] at hk; cases hk; exact h0))
    have hb : (v == w) = false := by simpa using hvw
    simp only [step, hs, hs2, Option.bind_some, hb, Spec.Keys.step, hy0, hy, Option.map_some]
    exact this
  | prepend v w =>
    obtain ⟨hv, hw⟩ := hl
    obtain ⟨hvw, hc, htidy⟩ := hc
    obtain ⟨s, y0, hs, hy0, hval0, hmem0⟩ := exists_of_val hg hv
    obtain ⟨s2, y, hs2, hy, hval, hmem⟩ := exists_of_val hg hw
    have hp := clear_perm (get_some hs)
    obtain ⟨t, ht, -⟩ := hg.inv.ok s hmem0
    have := put_good hg v (lt_of_get hg hs) _ _ (root_ne _) (prepend_spec st.mem _ s s2 y0 y t (hg.inv.perm hp) (other_mem hvw hs2)
      hval0 hval ht (by
        intro h1
        rcases hc with ⟨k, t', hk, ht', h2⟩ | ⟨k, t', hk, ht', h0⟩
        · rw [hs] at hk; cases hk; rw [ht] at ht'; cases ht'; omega
        · rw [hs] at hk; cases hk; rw [ht] at ht'; cases ht'; exact h0) (htidy y hy))
    have hb : (v == w) = false := by simpa using hvw
    simp only [step, hs, hs2, Option.bind_some, hb, Spec.Keys.step, hy0, hy, Option.map_some]
    exact this
  | destroy v =>
    obtain ⟨s, y, hs, hy, hval, hmem⟩ := exists_of_val hg hl
    obtain ⟨m', hu, hi', hvals, -⟩ := release_spec st.mem _ s (hg.inv.perm (clear_perm (get_some hs)))
    refine ⟨⟨m', st.vars.set v none⟩, by simp only [step, hs, Option.bind_some, hu, Option.map_some], ⟨by simp [hg.len], hi', ?_, ?_⟩⟩
    · intro u
      rw [value_eq]
      simp only [Spec.Keys.step, Spec.Keys.set]
      by_cases huv : u = v
      · subst huv
        rw [if_pos rfl]
        have hlt := lt_of_get hg hs
        unfold State.get
        rw [List.getElem?_set_self (by rw [hg.len]; exact hlt)]; rfl
      · rw [if_neg huv]
        have : State.get ⟨m', st.vars.set v none⟩ u = st.get u := by
          unfold State.get
          rw [List.getElem?_set_ne (Ne.symm huv)]
        rw [this, ← hg.vals u, value_eq]
        cases ho : st.get u with
        | none => rfl
        | some o =>
          rw [Option.bind_some, Option.bind_some]
          exact hvals o (other_mem (Ne.symm huv) ho)
    · intro u
      simp only [Spec.Keys.step, Spec.Keys.set]
      by_cases huv : u = v
      · rw [if_pos huv]; simp
      · rw [if_neg huv]; exact hg.roots u

theorem new_good (n : Nat) : Good n (State.new n) Spec.Keys.none_ := by
  have ho : objs (State.new n).vars = [] := by
    unfold objs State.new
    rw [List.filterMap_eq_nil_iff]
    intro o h
    rw [List.eq_of_mem_replicate h]; rfl
  have hf : ∀ id s, fetch (State.new n).mem id = some s → id = 0 ∧ s = ⟨[[]], 0, 2⟩ := by
    intro id s h
    cases id with
    | zero => exact ⟨rfl, (Option.some.inj h).symm⟩
    | succ id => simp [fetch, State.new, Mem.new] at h
  refine ⟨by simp [State.new], ⟨?_, ?_, ?_, ⟨_, rfl⟩⟩, ?_, ?_⟩
  · rw [ho]; simp
  · intro id s h
    obtain ⟨rfl, rfl⟩ := hf id s h
    rw [ho]; exact ⟨rfl, by decide⟩
  · intro id s h
    obtain ⟨rfl, rfl⟩ := hf id s h
    decide
  · intro v
    rw [value_eq]
    have : (State.new n).get v = none := by
      unfold State.get State.new
      rw [List.getElem?_replicate]
      split <;> rfl
    rw [this]; rfl
  · intro v; simp [Spec.Keys.none_]

theorem run_good (n : Nat) (ops : List Op) : ∀ (st : State) (x : Spec.Keys.Vals),
    Good n st x → C63_Keeps n st x ops → ∃ st', run st ops = some st' ∧ Good n st' (ops.foldl Spec.Keys.step x) := by
  induction ops with
  | nil => intro st x hg _; exact ⟨st, rfl, hg⟩
  | cons o ops ih =>
    intro st x hg hk
    obtain ⟨hl, hc, hk⟩ := hk
    obtain ⟨st1, h1, hg1⟩ := step_good n st x hg o hl hc
    obtain ⟨st2, h2, hg2⟩ := ih st1 _ hg1 (hk st1 h1)
    exact ⟨st2, by rw [run, h1, Option.bind_some, h2], hg2⟩

end KeyStoreFacts

/-- C63: whatever a program does with any number of keys — making, copying, joining, assigning, taking parts of them, popping,
    appending, prepending and destroying them, in any order — no deleted or foreign memory is touched, and each variable shows
    what it would if every key were a value of its own. -/
theorem C63_values_partial (n : Nat) (ops : List Op) (hk : C63_Keeps n (State.new n) Spec.Keys.none_ ops) :
    ∃ st, run (State.new n) ops = some st ∧ ∀ v, st.value v = ops.foldl Spec.Keys.step Spec.Keys.none_ v := by
  obtain ⟨st, h, hg⟩ := KeyStoreFacts.run_good n ops _ _ (KeyStoreFacts.new_good n) hk
  exact ⟨st, h, hg.vals⟩

/-- C63 (no leak): at any time, every store that has not been deleted, but the one of the empty key, is that of some variable. -/
theorem C63_no_leak_partial (n : Nat) (ops : List Op) (hk : C63_Keeps n (State.new n) Spec.Keys.none_ ops) (st : State)
    (hr : run (State.new n) ops = some st) (id : Nat) (hid : id ≠ 0) (s : Store) (hs : fetch st.mem id = some s) :
    ∃ v k, st.get v = some k ∧ k.store = id := by
  obtain ⟨st', h, hg⟩ := KeyStoreFacts.run_good n ops _ _ (KeyStoreFacts.new_good n) hk
  rw [hr] at h
  cases h
  obtain ⟨h1, h2⟩ := hg.inv.counts id s hs
  rw [h1, if_neg hid, Nat.add_zero] at h2
  obtain ⟨k, hk, he⟩ := List.countP_pos_iff.mp h2
  obtain ⟨v, hv⟩ := (KeyStoreFacts.mem_objs _ _).mp hk
  exact ⟨v, k, by unfold State.get; rw [hv]; rfl, by simpa using he⟩

namespace KeyStoreFacts

theorem link_length {m m' : Mem} {id : Nat} (h : link m id = some m') : m'.length = m.length := by
  unfold link at h
  obtain ⟨s, -, rfl⟩ := Option.map_eq_some_iff.mp h
  simp [put]

theorem release_length {m m' : Mem} {id : Nat} (h : release m id = some m') : m'.length = m.length := by
  unfold release at h
  obtain ⟨s, -, h⟩ := Option.bind_eq_some_iff.mp h
  split at h
  · cases h
  · split at h <;> (cases h; simp [put])

theorem collapse_length {m m' : Mem} {k k' : K} (h : collapse m k = some (m', k')) : m'.length = m.length := by
  unfold collapse at h
  obtain ⟨b, -, h⟩ := Option.bind_eq_some_iff.mp h
  split at h
  · obtain ⟨m1, h1, h⟩ := Option.bind_eq_some_iff.mp h
    unfold empty at h
    obtain ⟨m2, h2, h⟩ := Option.map_eq_some_iff.mp h
    cases h
    rw [link_length h2, release_length h1]
  · cases h; rfl

theorem give_length {m m' : Mem} {k k' : K} (h : give m k = some (m', k')) : m'.length = m.length := by
  unfold give at h
  obtain ⟨r, h1, h⟩ := Option.bind_eq_some_iff.mp h
  obtain ⟨q, h2, h⟩ := Option.bind_eq_some_iff.mp h
  obtain ⟨m3, h3, h⟩ := Option.map_eq_some_iff.mp h
  cases h
  unfold copy at h2
  obtain ⟨m2, h2', rfl⟩ := Option.map_eq_some_iff.mp h2
  rw [release_length h3]
  show m2.length = _
  rw [link_length h2', collapse_length (m' := r.1) (k' := r.2) h1]

theorem range_length {m m' : Mem} {k k' : K} {i j : Int} (h : range m k i j = some (m', k')) : m'.length = m.length := by
  unfold range at h
  obtain ⟨m1, h1, h⟩ := Option.bind_eq_some_iff.mp h
  rw [give_length h, link_length h1]

theorem assign_length {m m' : Mem} {k k2 k' : K} (h : assign m k k2 = some (m', k')) : m'.length = m.length := by
  unfold assign at h
  obtain ⟨m1, h1, h⟩ := Option.bind_eq_some_iff.mp h
  obtain ⟨m2, h2, h⟩ := Option.map_eq_some_iff.mp h
  cases h
  rw [link_length h2, release_length h1]

end KeyStoreFacts

/-- C63 (sharing): copying a key, taking a part of one, and assigning either, make no new store, in any state. -/
theorem C63_shares (st st' : State) (o : Op) (ho : (∃ v w, o = .copy v w) ∨ (∃ v w i j, o = .range v w i j) ∨
    (∃ v w, o = .assign v w) ∨ ∃ v w i j, o = .assignRange v w i j) (hs : step st o = some st') :
    st'.mem.length = st.mem.length := by
  rcases ho with ⟨v, w, rfl⟩ | ⟨v, w, i, j, rfl⟩ | ⟨v, w, rfl⟩ | ⟨v, w, i, j, rfl⟩ <;> simp only [step] at hs
  · obtain ⟨k, -, hs⟩ := Option.bind_eq_some_iff.mp hs
    obtain ⟨r, hr, rfl⟩ := Option.map_eq_some_iff.mp hs
    unfold copy at hr
    obtain ⟨m, hm, rfl⟩ := Option.map_eq_some_iff.mp hr
    exact KeyStoreFacts.link_length hm
  · obtain ⟨k, -, hs⟩ := Option.bind_eq_some_iff.mp hs
    obtain ⟨r, hr, rfl⟩ := Option.map_eq_some_iff.mp hs
    exact KeyStoreFacts.range_length (m' := r.1) (k' := r.2) hr
  · obtain ⟨k, -, hs⟩ := Option.bind_eq_some_iff.mp hs
    obtain ⟨k2, -, hs⟩ := Option.bind_eq_some_iff.mp hs
    obtain ⟨r, hr, rfl⟩ := Option.map_eq_some_iff.mp hs
    exact KeyStoreFacts.assign_length (m' := r.1) (k' := r.2) hr
  · obtain ⟨k, -, hs⟩ := Option.bind_eq_some_iff.mp hs
    obtain ⟨k2, -, hs⟩ := Option.bind_eq_some_iff.mp hs
    obtain ⟨r, hr, hs⟩ := Option.bind_eq_some_iff.mp hs
    obtain ⟨q, hq, rfl⟩ := Option.map_eq_some_iff.mp hs
    obtain ⟨p, hp, hq⟩ := Option.bind_eq_some_iff.mp hq
    obtain ⟨m, hm, rfl⟩ := Option.map_eq_some_iff.mp hq
    show m.length = _
    rw [KeyStoreFacts.release_length hm, KeyStoreFacts.assign_length (m' := p.1) (k' := p.2) hp,
      KeyStoreFacts.range_length (m' := r.1) (k' := r.2) hr]

/-- C63: the operations on values are those that the other properties of keys (C36, C37, …) are about: the functions of Model/Key
    do the same. -/
theorem C63_same_as_values (t : List Byte) (a b : Key) (ha : a ≠ [[]]) (i j n : Int) :
    Key.parse t = Spec.Keys.ofText t ∧
    Key.join a b = Spec.Keys.root (Spec.Keys.names a ++ Spec.Keys.names b ++ Spec.Keys.slash b) ∧
    Key.append a b = Spec.Keys.root (a ++ Spec.Keys.names b ++ Spec.Keys.slash b) ∧
    Key.prepend a b = Spec.Keys.root (Spec.Keys.names b ++ a) ∧
    Key.range a i j = Spec.Keys.part a i j ∧
    Key.pop a n = (Spec.Keys.root (a.take n.toNat), Spec.Keys.root (a.drop n.toNat)) := by
  have hroot : ∀ k : Key, Key.collapse k = Spec.Keys.root k := fun k => (Lemmas.KeyStore.root_eq k).symm
  have hslash : (if Key.isempty b || Key.hastrailingslash b then [[]] else []) = Spec.Keys.slash b := by
    unfold Key.isempty Key.hastrailingslash Spec.Keys.slash
    by_cases h : b = []
    · simp [h]
    · by_cases h2 : b.getLast? = some []
      · simp [h2]
      · have : b.length ≠ 0 := by simpa using h
        simp [h, h2]
  refine ⟨?_, ?_, ?_, ?_, ?_, ?_⟩
  · exact Key.parse_eq t
  · unfold Key.join; rw [hslash, hroot]; rfl
  · unfold Key.append; rw [hslash, hroot]; rfl
  · unfold Key.prepend; rw [hroot]; rfl
  · unfold Key.range Spec.Keys.part
    dsimp only
    rw [hroot]
    congr 1
    have hi : (if i < 0 then (0 : Int) else i).toNat = i.toNat := by split <;> omega
    rw [hi]
    by_cases hbig : i.toNat ≥ a.length
    · rw [List.drop_eq_nil_of_le (by rw [List.length_take]; omega), List.drop_eq_nil_of_le (by rw [List.length_take]; omega)]
    · congr 1
      rw [List.take_eq_take_iff]
      (repeat' split) <;> omega
  · unfold Key.pop
    by_cases h0 : n = 0
    · rw [if_pos h0, h0]
      simp [Spec.Keys.root, ha]
    · rw [if_neg h0]
      dsimp only
      rw [hroot, hroot]
      have : (if (if n > (a.length : Int) then (a.length : Int) else n) < 0 then (0 : Int)
          else if n > (a.length : Int) then (a.length : Int) else n).toNat = min n.toNat a.length := by
        (repeat' split) <;> omega
      rw [this]
      congr 2
      · rw [List.take_eq_take_iff]; omega
      · by_cases hc : n.toNat ≤ a.length
        · rw [Nat.min_eq_left hc]
        · rw [Nat.min_eq_right (by omega), List.drop_eq_nil_of_le (by omega), List.drop_eq_nil_of_le (by omega)]

namespace KeyStoreFacts

/-- UniConfKey k("a/b"); UniConfKey c(k); UniConfKey e("c/"); c.append(e); k = c.range(1, 3); k.prepend(e); -/
def prog : List Op := [.make 0 [ch 'a', ch '/', ch 'b'], .copy 1 0, .make 2 [ch 'c', ch '/'], .append 1 2, .assignRange 0 1 1 3,
  .prepend 0 2]

end KeyStoreFacts

/-- The program above runs, and shows c/b/c, a/b/c/ and c/. -/
example : ((run (State.new 3) KeyStoreFacts.prog).map fun st => (st.value 0, st.value 1, st.value 2)) =
    some (some [[ch 'c'], [ch 'b'], [ch 'c']], some [[ch 'a'], [ch 'b'], [ch 'c'], []], some [[ch 'c'], []]) := by decide +kernel

/-- The program above keeps to the rules. -/
example : C63_Keeps 3 (State.new 3) Spec.Keys.none_ KeyStoreFacts.prog := by
  refine ⟨⟨by omega, rfl⟩, trivial, ?_⟩
  intro st h
  have h : some st = some ⟨[some ⟨[[]], 0, 2⟩, some ⟨[[ch 'a'], [ch 'b'], [], []], 2, 1⟩], [some ⟨1, 0, 2⟩, none, none]⟩ :=
    h.symm.trans (by decide +kernel)
  cases h
  refine ⟨⟨by omega, rfl, by decide +kernel⟩, trivial, ?_⟩
  intro st h
  have h : some st = some ⟨[some ⟨[[]], 0, 2⟩, some ⟨[[ch 'a'], [ch 'b'], [], []], 2, 2⟩], [some ⟨1, 0, 2⟩, some ⟨1, 0, 2⟩, none]⟩ :=
    h.symm.trans (by decide +kernel)
  cases h
  refine ⟨⟨by omega, rfl⟩, trivial, ?_⟩
  intro st h
  have h : some st = some ⟨[some ⟨[[]], 0, 2⟩, some ⟨[[ch 'a'], [ch 'b'], [], []], 2, 2⟩, some ⟨[[ch 'c'], [], [], []], 2, 1⟩],
    [some ⟨1, 0, 2⟩, some ⟨1, 0, 2⟩, some ⟨2, 0, 2⟩]⟩ := h.symm.trans (by decide +kernel)
  cases h
  refine ⟨⟨by decide +kernel, by decide +kernel⟩, ⟨by decide, Or.inl ⟨_, _, rfl, rfl, by decide⟩⟩, ?_⟩
  intro st h
  have h : some st = some ⟨[some ⟨[[]], 0, 2⟩, some ⟨[[ch 'a'], [ch 'b'], [], []], 2, 1⟩, some ⟨[[ch 'c'], [], [], []], 2, 1⟩,
    some ⟨[[ch 'a'], [ch 'b'], [ch 'c'], [], []], 4, 1⟩], [some ⟨1, 0, 2⟩, some ⟨3, 0, 4⟩, some ⟨2, 0, 2⟩]⟩ :=
    h.symm.trans (by decide +kernel)
  cases h
  refine ⟨⟨by decide +kernel, by decide +kernel⟩, trivial, ?_⟩
  intro st h
  have h : some st = some ⟨[some ⟨[[]], 0, 2⟩, none, some ⟨[[ch 'c'], [], [], []], 2, 1⟩,
    some ⟨[[ch 'a'], [ch 'b'], [ch 'c'], [], []], 4, 2⟩], [some ⟨3, 1, 3⟩, some ⟨3, 0, 4⟩, some ⟨2, 0, 2⟩]⟩ :=
    h.symm.trans (by decide +kernel)
  cases h
  refine ⟨⟨by decide +kernel, by decide +kernel⟩, ⟨by decide, Or.inl ⟨_, _, rfl, rfl, by decide⟩, ?_⟩, fun _ _ => trivial⟩
  intro y hy
  have hy : some y = some [[ch 'c'], []] := hy.symm.trans (by decide +kernel)
  cases hy
  exact Or.inr (by decide)

/-- The example program makes two stores for its three keys, and one more for each of `append` and `prepend`. -/
example : ((run (State.new 3) KeyStoreFacts.prog).map fun st => st.mem.map Option.isSome) =
    some [true, false, true, true, true] := by decide +kernel

/-- C63: appending to what is left of a key after its first segments are removed, and the key it was taken from is gone, writes
    behind the end of the array: `UniConfKey k("a/b/c/d"); UniConfKey t(k.removefirst(2)); destroy k; t.append("e");`. The room is
    counted from the first segment of `t` and the place from the first of `k`. -/
theorem C63_append_fails :
    run (State.new 2) [.make 0 [ch 'a', ch '/', ch 'b', ch '/', ch 'c', ch '/', ch 'd'], .range 1 0 2 4, .destroy 0,
      .make 0 [ch 'e'], .append 1 0] = none ∧
    (run (State.new 2) [.make 0 [ch 'a', ch '/', ch 'b', ch '/', ch 'c', ch '/', ch 'd'], .range 1 0 2 4, .destroy 0,
      .make 0 [ch 'e']]).map (fun st => st.value 1) = some (some [[ch 'c'], [ch 'd']]) := by
  constructor <;> decide +kernel

/-- C63: prepending to what is left of a key after its last segment is removed, and the key it was taken from is gone, writes behind
    the end of the array: `UniConfKey k("a/b/c/d"); UniConfKey t(k.removelast()); destroy k; t.prepend("x");`. -/
theorem C63_prepend_fails :
    run (State.new 2) [.make 0 [ch 'a', ch '/', ch 'b', ch '/', ch 'c', ch '/', ch 'd'], .range 1 0 0 3, .destroy 0,
      .make 0 [ch 'x'], .prepend 1 0] = none ∧
    (run (State.new 2) [.make 0 [ch 'a', ch '/', ch 'b', ch '/', ch 'c', ch '/', ch 'd'], .range 1 0 0 3, .destroy 0,
      .make 0 [ch 'x']]).map (fun st => st.value 1) = some (some [[ch 'a'], [ch 'b'], [ch 'c']]) := by
  constructor <;> decide +kernel

/-- C63: a key assigned to itself, when no other shares its segments, uses them after they are deleted. -/
theorem C63_self_assign_fails (t : List Byte) : run (State.new 1) [.make 0 t, .assign 0 0] = none := by
  obtain ⟨m, k, h, hi, -, -⟩ := Lemmas.KeyStore.make_spec Mem.new [] t (KeyStoreFacts.new_good 0).inv
  obtain ⟨s, hs, -⟩ := hi.ok k (List.mem_cons_self ..)
  have hne : k.store ≠ 0 := by
    intro e
    unfold make at h
    obtain ⟨s', -, h'⟩ := Option.map_eq_some_iff.mp h
    simp only [Prod.mk.injEq] at h'
    rw [← h'.2] at e
    simp [Mem.new] at e
  have hr : s.refs = 1 := by
    have := (hi.counts _ s hs).1
    rw [Lemmas.KeyStore.uses_cons, if_pos rfl, if_neg hne] at this
    simpa [Lemmas.KeyStore.uses] using this
  have hassign : assign m k k = none := by
    unfold assign release
    rw [hs, Option.bind_some, if_neg (by omega), if_pos hr, Option.bind_some]
    unfold link
    rw [Lemmas.KeyStore.get_put_self (Lemmas.KeyStore.get_lt hs)]
    rfl
  have h1 : step (State.new 1) (.make 0 t) = some ⟨m, [some k]⟩ := by
    show State.put (State.new 1) 0 (make Mem.new t) = _
    rw [h]; rfl
  rw [run, h1, Option.bind_some, run]
  have h2 : step ⟨m, [some k]⟩ (.assign 0 0) = none := by
    show State.put ⟨m, [some k]⟩ 0 (assign m k k) = none
    rw [hassign]; rfl
  rw [h2]; rfl

/-- C63: a key appended to itself grows while it is read, until the array ends; prepended to itself, "a" becomes three segments, the
    last of them empty. -/
theorem C63_self_append_fails :
    run (State.new 1) [.make 0 [ch 'a'], .append 0 0] = none ∧
    (run (State.new 1) [.make 0 [ch 'a'], .prepend 0 0]).map (fun st => st.value 0) = some (some [[ch 'a'], [ch 'a'], []]) := by
  constructor <;> decide +kernel

/-- C63: a key with an empty segment inside, as it comes from appending to a key with a slash at its end, overwrites what it is
    prepended to: `UniConfKey k("a/"); k.append("b"); UniConfKey t("x"); t.prepend(k);` loses the "x". -/
theorem C63_prepend_empty_segment_fails :
    (run (State.new 3) [.make 0 [ch 'a', ch '/'], .make 1 [ch 'b'], .append 0 1, .make 2 [ch 'x'], .prepend 2 0]).map
      (fun st => st.value 2) = some (some [[ch 'a'], [], [ch 'b']]) ∧
    [Op.make 0 [ch 'a', ch '/'], .make 1 [ch 'b'], .append 0 1, .make 2 [ch 'x'], .prepend 2 0].foldl Spec.Keys.step Spec.Keys.none_ 2 =
      some [[ch 'a'], [ch 'b'], [ch 'x']] := by
  constructor <;> decide +kernel

end Props
