import Verif.Lemmas.StringOps
/-
C62: strings are values.
-/
namespace Props
open Wv Wv.Strings
open Lemmas.Strings (Allocates Outside)

namespace StringFacts
open Lemmas.Strings

/-- The objects in the variables. -/
def objs (vars : List (Option Str)) : List Str := vars.filterMap id

theorem mem_objs (vars : List (Option Str)) (s : Str) : s ∈ objs vars ↔ ∃ v : Nat, vars[v]? = some (some s) := by
  unfold objs
  rw [List.mem_filterMap]
  constructor
  · rintro ⟨o, ho, e⟩
    obtain ⟨v, hv⟩ := List.mem_iff_getElem?.mp ho
    exact ⟨v, by rw [hv]; exact congrArg some e⟩
  · rintro ⟨v, hv⟩
    exact ⟨some s, List.mem_of_getElem? hv, rfl⟩

theorem perm_set (vars : List (Option Str)) (v : Nat) (s : Str) (h : vars[v]? = some none) :
    (s :: objs vars).Perm (objs (vars.set v (some s))) := by
  induction vars generalizing v with
  | nil => simp at h
  | cons o l ih =>
    cases v with
    | zero =>
      simp only [List.getElem?_cons_zero, Option.some.injEq] at h
      subst h
      simp [objs]
    | succ v =>
      simp only [List.getElem?_cons_succ] at h
      have := ih v h
      unfold objs at this ⊢
      cases o with
      | none => simpa [List.filterMap_cons] using this
      | some x =>
        simp only [List.set_cons_succ, List.filterMap_cons, id]
        exact (List.Perm.swap ..).trans (this.cons x)

/-- What the states satisfy. -/
structure Good (n : Nat) (st : State) (x : Spec.Strings.Vals) : Prop where
  len : st.vars.length = n
  inv : Inv st.mem (objs st.vars)
  vals : ∀ v, st.value v = x v

theorem value_eq (st : State) (v : Nat) : st.value v = (st.get v).bind (val st.mem) := rfl

theorem get_some {st : State} {v : Nat} {s : Str} (h : st.get v = some s) : st.vars[v]? = some (some s) := by
  unfold State.get at h
  cases hv : st.vars[v]? with
  | none => rw [hv] at h; simp at h
  | some o => rw [hv] at h; simp at h; rw [h]

theorem exists_of_val {n : Nat} {st : State} {x : Spec.Strings.Vals} (hg : Good n st x) {v : Nat} (h : x v ≠ none) :
    ∃ s y, st.get v = some s ∧ x v = some y ∧ val st.mem s = some y ∧ s ∈ objs st.vars := by
  have hv := hg.vals v
  rw [value_eq] at hv
  cases hs : st.get v with
  | none => rw [hs] at hv; exact absurd hv.symm h
  | some s =>
    rw [hs, Option.bind_some] at hv
    cases hy : val st.mem s with
    | none => rw [hy] at hv; exact absurd hv.symm h
    | some y => exact ⟨s, y, rfl, by rw [← hv, hy], hy, (mem_objs _ _).mpr ⟨v, get_some hs⟩⟩

theorem none_of_val {n : Nat} {st : State} {x : Spec.Strings.Vals} (hg : Good n st x) {v : Nat} (hv : v < n) (h : x v = none) :
    st.vars[v]? = some none := by
  have hval := hg.vals v
  rw [value_eq] at hval
  rw [List.getElem?_eq_getElem (by rw [hg.len]; exact hv)]
  congr 1
  cases ho : st.vars[v]'(by rw [hg.len]; exact hv) with
  | none => rfl
  | some s =>
    have hget : st.vars[v]? = some (some s) := by
      rw [List.getElem?_eq_getElem (by rw [hg.len]; exact hv), ho]
    have hs : st.get v = some s := by unfold State.get; rw [hget]; rfl
    rw [hs, Option.bind_some, h] at hval
    have hok := hg.inv.ok s ((mem_objs _ _).mpr ⟨v, hget⟩)
    rcases hok with rfl | ⟨id, off, b, rfl, hb, hof⟩
    · simp [val] at hval
    · obtain ⟨t, r, ht, -, -⟩ := text_ok hg.inv id off b hb hof
      simp [val, ht] at hval

/-- The variables without one. -/
theorem clear_perm {st : State} {v : Nat} {s : Str} (h : st.get v = some s) :
    (objs st.vars).Perm (s :: objs (st.vars.set v none)) := by
  have h1 := get_some h
  have hlt : v < st.vars.length := by
    refine Decidable.byContradiction fun hn => ?_
    rw [List.getElem?_eq_none (by omega)] at h1
    cases h1
  have hp := perm_set (st.vars.set v none) v s (by simp [hlt])
  rw [List.set_set] at hp
  have e : st.vars.set v (some s) = st.vars := by
    apply List.ext_getElem?
    intro u
    by_cases hu : u = v
    · subst hu
      rw [List.getElem?_set_self hlt, h1]
    · rw [List.getElem?_set_ne (Ne.symm hu)]
  rw [e] at hp
  exact hp.symm

theorem set_set_none (vars : List (Option Str)) (v : Nat) (o : Option Str) : (vars.set v none).set v o = vars.set v o := List.set_set ..

/-- A result is put into a variable whose old object is gone. -/
theorem put_good {n : Nat} {st : State} {x : Spec.Strings.Vals} (hg : Good n st x) (v : Nat) (hv : v < n)
    (r : Option (Mem × Str)) (y : Option (List Byte)) (hr : Result st.mem (objs (st.vars.set v none)) r y) :
    ∃ st', st.put v r = some st' ∧ Good n st' (Spec.Strings.set x v (some y)) := by
  obtain ⟨m', s, rfl, hi, hval, hvals⟩ := hr
  refine ⟨⟨m', st.vars.set v (some s)⟩, rfl, ⟨by simp [hg.len], ?_, ?_⟩⟩
  · have := hi.perm (perm_set (st.vars.set v none) v s (by simp [hg.len, hv]))
    rw [set_set_none] at this
    exact this
  · intro u
    rw [value_eq]
    unfold Spec.Strings.set
    by_cases hu : u = v
    · subst hu
      rw [if_pos rfl]
      have : State.get ⟨m', st.vars.set u (some s)⟩ u = some s := by
        unfold State.get
        rw [List.getElem?_set_self (by rw [hg.len]; exact hv)]; rfl
      rw [this, Option.bind_some, hval]
    · rw [if_neg hu]
      have : State.get ⟨m', st.vars.set v (some s)⟩ u = st.get u := by
        unfold State.get
        rw [List.getElem?_set_ne (Ne.symm hu)]
      rw [this, ← hg.vals u, value_eq]
      cases ho : st.get u with
      | none => rfl
      | some o =>
        rw [Option.bind_some, Option.bind_some]
        refine hvals o ((mem_objs _ _).mpr ⟨u, ?_⟩)
        rw [List.getElem?_set_ne (Ne.symm hu)]
        exact get_some ho

theorem lt_of_get {n : Nat} {st : State} {x : Spec.Strings.Vals} (hg : Good n st x) {v : Nat} {s : Str} (h : st.get v = some s) :
    v < n := by
  have h1 := get_some h
  refine Decidable.byContradiction fun hn => ?_
  rw [List.getElem?_eq_none (by rw [hg.len]; omega)] at h1
  cases h1

theorem clear_none {vars : List (Option Str)} {v : Nat} (h : vars[v]? = some none) : vars.set v none = vars := by
  apply List.ext_getElem?
  intro u
  by_cases hu : u = v
  · subst hu
    have hlt : u < vars.length := by
      refine Decidable.byContradiction fun hn => ?_
      rw [List.getElem?_eq_none (by omega)] at h
      cases h
    rw [List.getElem?_set_self hlt, h]
  · rw [List.getElem?_set_ne (Ne.symm hu)]

end StringFacts

open StringFacts (Good)

/-- The test by which assigning a `char *` to a string decides that it points into that string: it lies after the start of the
    variable's text and no further from it than the size of its buffer, which no other string uses. -/
def C62_Near (st : State) (v : Nat) (a : Nat) : Prop :=
  ∃ s id b a1, st.get v = some s ∧ s.buf = .blk id ∧ st.mem.buf id = some b ∧ b.links = 1 ∧ addr st.mem s.str = some a1 ∧
    a1 < a ∧ a ≤ a1 + b.size

/-- What is asked of the memory of the program's own strings. They lie outside of the buffers. When a `char *` is assigned, it
    is not taken for a part of the variable, unless it is one, and then the variable was not made by offset() (its text is at
    the start of its buffer). -/
def C62_Clear (st : State) : Op → Prop
  | .assignText v p => ∀ a t, p = some (a, t) → Outside st.mem a t ∧ ¬ C62_Near st v a
  | .appendText _ a t => Outside st.mem a t
  | .assignTail v w i => ∀ s a, st.get w = some s → addr st.mem (s.str.plus i) = some a → C62_Near st v a →
      w = v ∧ ∃ id, s.str = .at id 0
  | _ => True

/-- A program that keeps to the rules in every state it comes to. -/
def C62_Keeps (A : Calloc) (n : Nat) : State → Spec.Strings.Vals → List Op → Prop
  | _, _, [] => True
  | st, x, o :: r => Spec.Strings.Legal n x o ∧ C62_Clear st o ∧
      ∀ st', step A st o = some st' → C62_Keeps A n st' (Spec.Strings.step x o) r

namespace StringFacts
open Lemmas.Strings

theorem step_good (A : Calloc) (hA : Allocates A) (n : Nat) (st : State) (x : Spec.Strings.Vals) (hg : Good n st x) (o : Op)
    (hl : Spec.Strings.Legal n x o) (hc : C62_Clear st o) :
    ∃ st', step A st o = some st' ∧ Good n st' (Spec.Strings.step x o) := by
  cases o with
  | declare v =>
    obtain ⟨hv, hn⟩ := hl
    exact put_good hg v hv _ _ (by rw [clear_none (none_of_val hg hv hn)]; exact newNull_spec _ _ hg.inv)
  | make v p =>
    obtain ⟨hv, hn, hz⟩ := hl
    exact put_good hg v hv _ _ (by rw [clear_none (none_of_val hg hv hn)]; exact newText_spec A hA _ _ p hg.inv hz)
  | copy v w =>
    obtain ⟨hv, hn, hw⟩ := hl
    obtain ⟨s, y, hs, hy, hval, hmem⟩ := exists_of_val hg hw
    have := put_good hg v hv _ y (by
      rw [clear_none (none_of_val hg hv hn)]; exact (newCopy_spec A _ _ s y hg.inv (hg.inv.ok s hmem) hval).1)
    simp only [step, hs, Option.bind_some, Spec.Strings.step, hy]
    exact this
  | copyOffset v w i =>
    obtain ⟨hv, hn, hw⟩ := hl
    obtain ⟨s, y, hs, hy, hval, hmem⟩ := exists_of_val hg hw
    obtain ⟨⟨m1, t, ho, hi1, hv1, hvals1⟩, -⟩ := offset_spec st.mem _ s i y hg.inv (hg.inv.ok s hmem) hval
    obtain ⟨⟨m2, r, hr, hi2, hv2, hvals2⟩, -⟩ := newCopy_spec A m1 _ t _ hi1 (hi1.ok t (List.mem_cons_self ..)) hv1
    obtain ⟨m3, hu, -, hi3, hvals3, -⟩ := unlink_spec m2 _ t (hi2.perm (List.Perm.swap ..))
    have := put_good hg v hv ((unlink m2 t.buf).map fun m => (m, r)) (y.map (·.drop i)) (by
      rw [clear_none (none_of_val hg hv hn), hu]
      refine ⟨m3, r, rfl, hi3, by rw [hvals3 r (by simp), hv2], ?_⟩
      intro o ho
      rw [hvals3 o (by simp [ho]), hvals2 o (by simp [ho]), hvals1 o ho])
    simp only [step, hs, Option.bind_some, ho, hr, Spec.Strings.step, hy, Option.map_some]
    exact this
  | assign v w =>
    obtain ⟨hv, hw⟩ := hl
    obtain ⟨s, y0, hs, -, -, -⟩ := exists_of_val hg hv
    obtain ⟨s2, y, hs2, hy, hval, hmem⟩ := exists_of_val hg hw
    have hp := clear_perm hs
    have := put_good hg v (lt_of_get hg hs) _ y (fastAssign_spec st.mem _ s s2 y (hg.inv.perm hp) (hp.mem_iff.mp hmem) hval)
    simp only [step, hs, hs2, Option.bind_some, Spec.Strings.step, hy]
    exact this
  | assignOffset v w i =>
    obtain ⟨hv, hw⟩ := hl
    obtain ⟨s, y0, hs, -, -, -⟩ := exists_of_val hg hv
    obtain ⟨s2, y, hs2, hy, hval, hmem⟩ := exists_of_val hg hw
    have hp := clear_perm hs
    obtain ⟨⟨m1, t, ho, hi1, hv1, hvals1⟩, -⟩ := offset_spec st.mem _ s2 i y (hg.inv.perm hp) (hg.inv.ok s2 hmem) hval
    obtain ⟨⟨m2, r, hr, hi2, hv2, hvals2⟩, -⟩ := assign_spec A m1 (t :: objs (st.vars.set v none)) s t _
      (hi1.perm (List.Perm.swap ..)) (by simp) hv1
    obtain ⟨m3, hu, -, hi3, hvals3, -⟩ := unlink_spec m2 _ t (hi2.perm (List.Perm.swap ..))
    have := put_good hg v (lt_of_get hg hs) ((unlink m2 t.buf).map fun m => (m, r)) (y.map (·.drop i)) (by
      rw [hu]
      refine ⟨m3, r, rfl, hi3, by rw [hvals3 r (by simp), hv2], ?_⟩
      intro o ho
      rw [hvals3 o (by simp [ho]), hvals2 o (by simp [ho]), hvals1 o (by simp [ho])])
    simp only [step, hs, hs2, Option.bind_some, ho, hr, Spec.Strings.step, hy, Option.map_some]
    exact this
  | assignText v p =>
    obtain ⟨hv, hz⟩ := hl
    obtain ⟨s, y0, hs, -, -, -⟩ := exists_of_val hg hv
    have hp := clear_perm hs
    have := put_good hg v (lt_of_get hg hs) _ _ (assignText_spec A hA st.mem _ s p (hg.inv.perm hp) (by
      intro a t e
      obtain ⟨h1, h2⟩ := hc a t e
      refine ⟨hz a t e, h1, ?_⟩
      rintro ⟨id, b, a1, g1, g2, g3, g4, g5, g6⟩
      exact h2 ⟨s, id, b, a1, hs, g1, g2, g3, g4, g5, g6⟩))
    simp only [step, hs, Option.bind_some, Spec.Strings.step]
    exact this
  | assignTail v w i =>
    obtain ⟨hv, t, hw, hle⟩ := hl
    obtain ⟨s, y0, hs, -, -, -⟩ := exists_of_val hg hv
    obtain ⟨s2, y, hs2, hy, hval, hmem⟩ := exists_of_val hg (v := w) (by rw [hw]; simp)
    rw [hw] at hy
    cases hy
    have hp := clear_perm hs
    have ha : ∃ a, addr st.mem (s2.str.plus i) = some a := by
      rcases hg.inv.ok s2 hmem with rfl | ⟨id, off, b, rfl, hb, -⟩
      · exact ⟨0, rfl⟩
      · exact ⟨_, addr_at hb⟩
    obtain ⟨a, ha⟩ := ha
    have := put_good hg v (lt_of_get hg hs) _ _ (assignTail_spec A hA st.mem _ s s2 i a t (hg.inv.perm hp)
      (hp.mem_iff.mp hmem) hval hle ha (by
        rintro ⟨id, b, a1, g1, g2, g3, g4, g5, g6⟩
        obtain ⟨e, id0, h0⟩ := hc s2 a hs2 ha ⟨s, id, b, a1, hs, g1, g2, g3, g4, g5, g6⟩
        subst e
        rw [hs] at hs2
        cases hs2
        exact ⟨rfl, id0, h0⟩))
    simp only [step, hs, hs2, Option.bind_some, Spec.Strings.step, hw, Option.map_some]
    exact this
  | edit v i c =>
    obtain ⟨t, hx, hlt⟩ := hl
    obtain ⟨s, y, hs, hy, hval, hmem⟩ := exists_of_val hg (v := v) (by rw [hx]; simp)
    rw [hx] at hy
    cases hy
    have := put_good hg v (lt_of_get hg hs) _ _ (edit_spec A hA st.mem _ s i c t (hg.inv.perm (clear_perm hs)) hval hlt)
    simp only [step, hs, Option.bind_some, Spec.Strings.step, hx, Option.map_some]
    exact this
  | fill v t =>
    obtain ⟨hv, hz⟩ := hl
    obtain ⟨s, y, hs, -, -, -⟩ := exists_of_val hg hv
    have hf := fill_spec A hA st.mem _ s t (hg.inv.perm (clear_perm hs)) hz
    have := put_good hg v (lt_of_get hg hs) _ _ hf
    obtain ⟨m', s', he, -⟩ := hf
    obtain ⟨r, hr, -⟩ := Option.bind_eq_some_iff.mp he
    rw [hr, Option.bind_some] at this
    simp only [step, hs, hr, Option.bind_some, Spec.Strings.step]
    exact this
  | append v w =>
    obtain ⟨a, b, hxa, hxb, hlen⟩ := hl
    obtain ⟨s, y, hs, hy, hval, hmem⟩ := exists_of_val hg (v := v) (by rw [hxa]; simp)
    obtain ⟨s2, y2, hs2, hy2, hval2, hmem2⟩ := exists_of_val hg (v := w) (by rw [hxb]; simp)
    rw [hxa] at hy
    rw [hxb] at hy2
    cases hy
    cases hy2
    have hp := clear_perm hs
    have := put_good hg v (lt_of_get hg hs) _ _ (append_spec A hA st.mem _ s s2 a b (hg.inv.perm hp) (hp.mem_iff.mp hmem2)
      hval hval2 hlen)
    simp only [step, hs, hs2, Option.bind_some, Spec.Strings.step, hxa, hxb, Option.map_some]
    exact this
  | appendText v a t =>
    obtain ⟨hz, y0, hxa, hlen⟩ := hl
    obtain ⟨s, y, hs, hy, hval, hmem⟩ := exists_of_val hg (v := v) (by rw [hxa]; simp)
    rw [hxa] at hy
    cases hy
    have := put_good hg v (lt_of_get hg hs) _ _ (appendText_spec A hA st.mem _ s y0 a t (hg.inv.perm (clear_perm hs)) hval hz
      hc hlen)
    simp only [step, hs, Option.bind_some, Spec.Strings.step, hxa, Option.map_some]
    exact this
  | destroy v =>
    obtain ⟨s, y, hs, hy, hval, hmem⟩ := exists_of_val hg hl
    obtain ⟨m', hu, -, hi', hvals, -⟩ := unlink_spec st.mem _ s (hg.inv.perm (clear_perm hs))
    refine ⟨⟨m', st.vars.set v none⟩, by simp only [step, hs, Option.bind_some, hu, Option.map_some], ⟨by simp [hg.len], hi', ?_⟩⟩
    intro u
    rw [value_eq]
    simp only [Spec.Strings.step, Spec.Strings.set]
    by_cases huv : u = v
    · subst huv
      rw [if_pos rfl]
      have hlt := lt_of_get hg hs
      unfold State.get
      rw [List.getElem?_set_self (by rw [hg.len]; exact hlt)]; rfl
    · rw [if_neg huv]
      have : State.get ⟨m', st.vars.set v none⟩ u = st.get u := by
        unfold State.get
        rw [List.getElem?_set_ne (Ne.symm huv)]
      rw [this, ← hg.vals u, value_eq]
      cases ho : st.get u with
      | none => rfl
      | some o =>
        rw [Option.bind_some, Option.bind_some]
        refine hvals o ((mem_objs _ _).mpr ⟨u, ?_⟩)
        rw [List.getElem?_set_ne (Ne.symm huv)]
        exact get_some ho

theorem new_good (n : Nat) : Good n (State.new n) Spec.Strings.empty := by
  have ho : objs (State.new n).vars = [] := by
    unfold objs State.new
    rw [List.filterMap_eq_nil_iff]
    intro o h
    rw [List.eq_of_mem_replicate h]; rfl
  have hbuf : ∀ id, (State.new n).mem.buf id = none := by intro id; rfl
  refine ⟨by simp [State.new], ⟨?_, ?_, ?_, ?_, ?_⟩, ?_⟩
  · rw [ho]; simp
  · intro id b h; rw [hbuf] at h; cases h
  · intro id b h; rw [hbuf] at h; cases h
  · intro i j bi bj h; rw [hbuf] at h; cases h
  · rw [ho]; rfl
  · intro v
    rw [value_eq]
    have : (State.new n).get v = none := by
      unfold State.get State.new
      rw [List.getElem?_replicate]
      split <;> rfl
    rw [this]; rfl

theorem run_good (A : Calloc) (hA : Allocates A) (n : Nat) (ops : List Op) : ∀ (st : State) (x : Spec.Strings.Vals),
    Good n st x → C62_Keeps A n st x ops → ∃ st', run A st ops = some st' ∧ Good n st' (ops.foldl Spec.Strings.step x) := by
  induction ops with
  | nil => intro st x hg _; exact ⟨st, rfl, hg⟩
  | cons o ops ih =>
    intro st x hg hk
    obtain ⟨hl, hc, hk⟩ := hk
    obtain ⟨st1, h1, hg1⟩ := step_good A hA n st x hg o hl hc
    obtain ⟨st2, h2, hg2⟩ := ih st1 _ hg1 (hk st1 h1)
    exact ⟨st2, by rw [run, h1, Option.bind_some, h2], hg2⟩

end StringFacts

/-- C62: whatever a program does with any number of strings — making, copying, assigning, taking the rest of one, editing,
    appending and destroying them, in any order, and wherever the allocator puts their buffers — no freed or foreign memory is
    touched, and each variable shows what it would if every string were a value of its own. -/
theorem C62_values_partial (A : Calloc) (hA : Allocates A) (n : Nat) (ops : List Op)
    (hk : C62_Keeps A n (State.new n) Spec.Strings.empty ops) :
    ∃ st, run A (State.new n) ops = some st ∧
      ∀ v, st.value v = ops.foldl Spec.Strings.step Spec.Strings.empty v := by
  obtain ⟨st, h, hg⟩ := StringFacts.run_good A hA n ops _ _ (StringFacts.new_good n) hk
  exact ⟨st, h, hg.vals⟩

/-- C62 (no leak): at any time, every buffer that has not been freed is the buffer of some variable. -/
theorem C62_no_leak_partial (A : Calloc) (hA : Allocates A) (n : Nat) (ops : List Op)
    (hk : C62_Keeps A n (State.new n) Spec.Strings.empty ops) (st : State) (hr : run A (State.new n) ops = some st) (id : Nat)
    (b : Buf) (hb : st.mem.buf id = some b) : ∃ v s, st.get v = some s ∧ s.buf = .blk id := by
  obtain ⟨st', h, hg⟩ := StringFacts.run_good A hA n ops _ _ (StringFacts.new_good n) hk
  rw [hr] at h
  cases h
  obtain ⟨h1, h2⟩ := hg.inv.counts id b hb
  rw [h1] at h2
  obtain ⟨s, hs, he⟩ := List.countP_pos_iff.mp h2
  obtain ⟨v, hv⟩ := (StringFacts.mem_objs _ _).mp hs
  exact ⟨v, s, by unfold State.get; rw [hv]; rfl, by simpa using he⟩

/-- C62 (sharing): copying a string, or a rest of it, to another allocates nothing. -/
theorem C62_copy_shares_partial (A : Calloc) (hA : Allocates A) (n : Nat) (ops : List Op)
    (hk : C62_Keeps A n (State.new n) Spec.Strings.empty ops) (st : State) (hr : run A (State.new n) ops = some st)
    (o : Op) (ho : (∃ v w, o = .copy v w) ∨ (∃ v w i, o = .copyOffset v w i) ∨ (∃ v w, o = .assign v w) ∨
      ∃ v w i, o = .assignOffset v w i)
    (hl : Spec.Strings.Legal n (ops.foldl Spec.Strings.step Spec.Strings.empty) o) (st' : State) (hs : step A st o = some st') :
    st'.mem.heap.length = st.mem.heap.length := by
  obtain ⟨st1, h, hg⟩ := StringFacts.run_good A hA n ops _ _ (StringFacts.new_good n) hk
  rw [hr] at h
  cases h
  rcases ho with ⟨v, w, rfl⟩ | ⟨v, w, i, rfl⟩ | ⟨v, w, rfl⟩ | ⟨v, w, i, rfl⟩
  · obtain ⟨s, y, hsw, hy, hval, hmem⟩ := StringFacts.exists_of_val hg hl.2.2
    simp only [step, hsw, Option.bind_some, State.put] at hs
    obtain ⟨r, hr', rfl⟩ := Option.map_eq_some_iff.mp hs
    exact (Lemmas.Strings.newCopy_spec A _ _ s y hg.inv (hg.inv.ok s hmem) hval).2 r.1 r.2 hr'
  · obtain ⟨s, y, hsw, hy, hval, hmem⟩ := StringFacts.exists_of_val hg hl.2.2
    obtain ⟨⟨m1, t, ho, hi1, hv1, -⟩, h1⟩ := Lemmas.Strings.offset_spec st.mem _ s i y hg.inv (hg.inv.ok s hmem) hval
    have h1 := (h1 m1 t ho).2
    have h2 := (Lemmas.Strings.newCopy_spec A m1 _ t _ hi1 (hi1.ok t (List.mem_cons_self ..)) hv1).2
    simp only [step, hsw, Option.bind_some, ho] at hs
    obtain ⟨r, hr', hs⟩ := Option.bind_eq_some_iff.mp hs
    simp only [State.put] at hs
    obtain ⟨q, hq, rfl⟩ := Option.map_eq_some_iff.mp hs
    obtain ⟨m3, hm3, rfl⟩ := Option.map_eq_some_iff.mp hq
    have := Lemmas.Strings.unlink_length _ _ _ hm3
    show m3.heap.length = _
    rw [this, h2 r.1 r.2 hr', h1]
  · obtain ⟨s, _, hsv, -, -, -⟩ := StringFacts.exists_of_val hg hl.1
    obtain ⟨s2, _, hsw, -, -, -⟩ := StringFacts.exists_of_val hg hl.2
    simp only [step, hsv, hsw, Option.bind_some, State.put] at hs
    obtain ⟨r, hr', rfl⟩ := Option.map_eq_some_iff.mp hs
    exact Lemmas.Strings.fastAssign_length _ _ _ _ _ hr'
  · obtain ⟨s, _, hsv, -, -, -⟩ := StringFacts.exists_of_val hg hl.1
    obtain ⟨s2, y, hsw, hy, hval, hmem⟩ := StringFacts.exists_of_val hg hl.2
    have hp := StringFacts.clear_perm hsv
    obtain ⟨⟨m1, t, ho, hi1, hv1, -⟩, h1⟩ := Lemmas.Strings.offset_spec st.mem _ s2 i y (hg.inv.perm hp) (hg.inv.ok s2 hmem) hval
    have h1 := (h1 m1 t ho).2
    have h2 := (Lemmas.Strings.assign_spec A m1 (t :: StringFacts.objs (st.vars.set v none)) s t _
      (hi1.perm (List.Perm.swap ..)) (by simp) hv1).2
    simp only [step, hsv, hsw, Option.bind_some, ho] at hs
    obtain ⟨r, hr', hs⟩ := Option.bind_eq_some_iff.mp hs
    simp only [State.put] at hs
    obtain ⟨q, hq, rfl⟩ := Option.map_eq_some_iff.mp hs
    obtain ⟨m3, hm3, rfl⟩ := Option.map_eq_some_iff.mp hq
    have := Lemmas.Strings.unlink_length _ _ _ hm3
    show m3.heap.length = _
    rw [this, h2 r.1 r.2 hr', h1]

namespace StringFacts

/-- An allocator that puts each buffer behind all others, with a gap as `malloc` leaves it. -/
def bump : Calloc := fun m _ => m.heap.foldl (fun a o => match o with | some b => max a (b.base + b.size + 16) | none => a) 4096

theorem bump_le (l : List (Option Buf)) (a : Nat) :
    a ≤ l.foldl (fun a o => match o with | some b => max a (b.base + b.size + 16) | none => a) a := by
  induction l generalizing a with
  | nil => exact Nat.le_refl _
  | cons o l ih =>
    rw [List.foldl_cons]
    cases o with
    | none => exact ih a
    | some b => exact Nat.le_trans (Nat.le_max_left ..) (ih _)

theorem bump_mem (l : List (Option Buf)) (a : Nat) (b : Buf) (h : some b ∈ l) :
    b.base + b.size ≤ l.foldl (fun a o => match o with | some b => max a (b.base + b.size + 16) | none => a) a := by
  induction l generalizing a with
  | nil => cases h
  | cons o l ih =>
    rw [List.foldl_cons]
    rcases List.mem_cons.mp h with h | h
    · subst h
      refine Nat.le_trans ?_ (bump_le l _)
      dsimp only
      omega
    · exact ih _ h

theorem bump_allocates : Allocates bump := by
  intro m n
  refine ⟨Nat.lt_of_lt_of_le (by omega) (bump_le m.heap 4096), fun id b h => Or.inr (bump_mem m.heap 4096 b ?_)⟩
  unfold Mem.buf at h
  cases hh : m.heap[id]? with
  | none => rw [hh] at h; cases h
  | some o =>
    rw [hh] at h
    simp only [Option.join_some] at h
    subst h
    exact List.mem_of_getElem? hh

/-- WvString a("hello"); WvString b(a); b.edit()[0] = 'j'; a.append(b); WvString c(a.offset(5)); destroy a; b = b.cstr() + 2;
    c = "world". -/
def prog : List Op := [.make 0 (some (100, [ch 'h', ch 'e', ch 'l', ch 'l', ch 'o'])), .copy 1 0, .edit 1 0 (ch 'j'), .append 0 1,
  .copyOffset 2 0 5, .destroy 0, .assignTail 1 1 2, .assignText 2 (some (200, [ch 'w', ch 'o', ch 'r', ch 'l', ch 'd']))]

end StringFacts

/-- The program above runs, and shows "llo" and "world". -/
example : ((run StringFacts.bump (State.new 3) StringFacts.prog).map fun st => (st.value 0, st.value 1, st.value 2)) =
    some (none, some (some [ch 'l', ch 'l', ch 'o']), some (some [ch 'w', ch 'o', ch 'r', ch 'l', ch 'd'])) := by decide +kernel

/-- A program that keeps to the rules: it makes "hello", copies it, edits the copy, assigns a part of the copy to itself, assigns a
    `char *` to the first, and destroys it. -/
example : C62_Keeps StringFacts.bump 2 (State.new 2) Spec.Strings.empty [.make 0 (some (100, [ch 'h', ch 'e', ch 'l', ch 'l', ch 'o'])),
    .copy 1 0, .edit 1 0 (ch 'j'), .assignTail 1 1 2, .assignText 0 (some (200, [ch 'w', ch 'o'])), .destroy 0] := by
  refine ⟨⟨by omega, rfl, ?_⟩, trivial, ?_⟩
  · intro a t h; cases h; decide
  intro st h
  have h : some st = some ⟨⟨[some ⟨4096, 19, 1, [ch 'h', ch 'e', ch 'l', ch 'l', ch 'o', 0, 0]⟩], 1⟩, [some ⟨.blk 0, .at 0 0⟩, none]⟩ := h.symm.trans (by decide +kernel)
  cases h
  refine ⟨⟨by omega, rfl, by decide⟩, trivial, ?_⟩
  intro st h
  have h : some st = some ⟨⟨[some ⟨4096, 19, 2, [ch 'h', ch 'e', ch 'l', ch 'l', ch 'o', 0, 0]⟩], 1⟩, [some ⟨.blk 0, .at 0 0⟩, some ⟨.blk 0, .at 0 0⟩]⟩ := h.symm.trans (by decide +kernel)
  cases h
  refine ⟨⟨[ch 'h', ch 'e', ch 'l', ch 'l', ch 'o'], rfl, by decide⟩, trivial, ?_⟩
  intro st h
  have h : some st = some ⟨⟨[some ⟨4096, 19, 1, [ch 'h', ch 'e', ch 'l', ch 'l', ch 'o', 0, 0]⟩, some ⟨4131, 19, 1, [ch 'j', ch 'e', ch 'l', ch 'l', ch 'o', 0, 0]⟩], 1⟩, [some ⟨.blk 0, .at 0 0⟩, some ⟨.blk 1, .at 1 0⟩]⟩ := h.symm.trans (by decide +kernel)
  cases h
  refine ⟨⟨by decide, [ch 'j', ch 'e', ch 'l', ch 'l', ch 'o'], by decide +kernel, by decide⟩, ?_, ?_⟩
  · intro s a hs _ _
    cases hs
    exact ⟨rfl, 1, rfl⟩
  intro st h
  have h : some st = some ⟨⟨[some ⟨4096, 19, 1, [ch 'h', ch 'e', ch 'l', ch 'l', ch 'o', 0, 0]⟩, some ⟨4131, 19, 1, [ch 'l', ch 'l', ch 'o', 0, ch 'o', 0, 0]⟩], 1⟩, [some ⟨.blk 0, .at 0 0⟩, some ⟨.blk 1, .at 1 0⟩]⟩ := h.symm.trans (by decide +kernel)
  cases h
  refine ⟨⟨by decide, ?_⟩, ?_, ?_⟩
  · intro a t h; cases h; decide
  · intro a t h
    cases h
    refine ⟨⟨by omega, ?_⟩, ?_⟩
    · intro id b hb
      left
      rcases id with _ | _ | id
      · cases hb; decide
      · cases hb; decide
      · cases hb
    · rintro ⟨s, id, b, a1, hs, hb, -, -, ha, hlt, -⟩
      cases hs
      cases ha
      revert hlt
      decide
  intro st h
  have h : some st = some ⟨⟨[none, some ⟨4131, 19, 1, [ch 'l', ch 'l', ch 'o', 0, ch 'o', 0, 0]⟩, some ⟨4166, 15, 1, [ch 'w', ch 'o', 0]⟩], 1⟩, [some ⟨.blk 2, .at 2 0⟩, some ⟨.blk 1, .at 1 0⟩]⟩ := h.symm.trans (by decide +kernel)
  cases h
  exact ⟨(nofun : some (some [ch 'w', ch 'o']) ≠ none), trivial, fun _ _ => trivial⟩

/-- C62: a string made by offset() that has its buffer to itself loses its text when a later part of itself is assigned to it:
    `WvString a("abcdef"); WvString b(a.offset(2)); destroy a; b = b.cstr() + 1;` leaves "f" in b instead of "def". -/
theorem C62_offset_tail_fails :
    ((run StringFacts.bump (State.new 2) [.make 0 (some (100, [ch 'a', ch 'b', ch 'c', ch 'd', ch 'e', ch 'f'])), .copyOffset 1 0 2,
      .destroy 0, .assignTail 1 1 1]).map fun st => st.value 1) = some (some (some [ch 'f'])) ∧
    ([Op.make 0 (some (100, [ch 'a', ch 'b', ch 'c', ch 'd', ch 'e', ch 'f'])), .copyOffset 1 0 2, .destroy 0,
      .assignTail 1 1 1].foldl Spec.Strings.step Spec.Strings.empty) 1 = some (some [ch 'd', ch 'e', ch 'f']) := by
  constructor <;> decide +kernel

/-- C62: assigning a `char *` that lies just behind the string's buffer writes past the end of that buffer, though the two have
    nothing to do with each other: the size compared with includes the buffer's header. Here the string "1234567890" has its 23
    bytes at 4096, and the program's own twenty letters are at 4128, where the next block of 16-byte aligned memory is. -/
theorem C62_neighbour_fails :
    run StringFacts.bump (State.new 1) [.make 0 (some (100, (List.range 10).map fun i => ch '0' + UInt8.ofNat i)),
      .assignText 0 (some (4128, List.replicate 20 (ch 'x')))] = none ∧
    ∀ st, run StringFacts.bump (State.new 1) [.make 0 (some (100, (List.range 10).map fun i => ch '0' + UInt8.ofNat i))] = some st →
      Outside st.mem 4128 (List.replicate 20 (ch 'x')) := by
  constructor
  · have : (run StringFacts.bump (State.new 1) [.make 0 (some (100, (List.range 10).map fun i => ch '0' + UInt8.ofNat i)),
      .assignText 0 (some (4128, List.replicate 20 (ch 'x')))]).isNone = true := by decide +kernel
    simpa using this
  · intro st h
    have hm : (run StringFacts.bump (State.new 1) [.make 0 (some (100, (List.range 10).map fun i => ch '0' + UInt8.ofNat i))]).map
        State.mem = some ⟨[some ⟨4096, 23, 1, (List.range 10).map (fun i => ch '0' + UInt8.ofNat i) ++ [0]⟩], 1⟩ := by decide +kernel
    rw [h] at hm
    simp only [Option.map_some, Option.some.injEq] at hm
    rw [hm]
    refine ⟨by omega, ?_⟩
    intro id b hb
    cases id with
    | zero =>
      simp only [Mem.buf, List.getElem?_cons_zero, Option.join_some, Option.some.injEq] at hb
      subst hb
      right; show 4096 + 23 ≤ 4128; omega
    | succ id =>
      simp [Mem.buf] at hb

end Props
