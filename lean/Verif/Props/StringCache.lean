import Verif.Model.StringCache
/-!
C116: the cache of strings.
-/
namespace Props
open Wv Wv.StringCache
open Spec.StringCache (Op Text)

namespace ScP

/-- What a program sees: its strings, and how many caches it has. -/
def view (s : St) : List Text × Nat := (s.refs.map fun r => s.text r.buf, s.caches)

structure J (s : St) : Prop where
  refs : ∀ r ∈ s.refs, r.buf < s.bufs.length
  table : ∀ b ∈ s.table, b < s.bufs.length
  diff : s.table.Pairwise fun b c => s.text b ≠ s.text c
  got : ∀ r ∈ s.refs, r.got = true → r.buf ∈ s.table
  none : s.caches = 0 → s.table = []

theorem text_alloc {s : St} {t : Text} {b : Nat} (h : b < s.bufs.length) : (s.alloc t).text b = s.text b := by
  simp only [St.text, St.alloc, List.getElem?_append_left h]

theorem text_alloc_new {s : St} {t : Text} : (s.alloc t).text s.bufs.length = t := by
  simp [St.text, St.alloc]

theorem J.alloc {s : St} (h : J s) (t : Text) : J (s.alloc t) := by
  refine ⟨fun r hr => ?_, fun b hb => ?_, ?_, h.got, h.none⟩
  · have := h.refs r hr; simp only [St.alloc, List.length_append]; omega
  · have := h.table b hb; simp only [St.alloc, List.length_append]; omega
  · refine List.Pairwise.imp_of_mem ?_ h.diff
    intro b c hb hc hne
    rw [text_alloc (h.table b hb), text_alloc (h.table c hc)]; exact hne

theorem view_alloc {s : St} (h : J s) (t : Text) : view (s.alloc t) = view s := by
  simp only [view, Prod.mk.injEq]
  refine ⟨List.map_congr_left fun r hr => text_alloc (h.refs r hr), rfl⟩

theorem view_get {s : St} {b : Nat} : view (s.get b) = ((view s).1 ++ [s.text b], s.caches) := by
  unfold St.get
  split
  · rename_i c hc
    have := List.find?_some hc
    simp only [beq_iff_eq] at this
    simp only [view, List.map_append, List.map_cons, List.map_nil, Prod.mk.injEq, and_true]
    show _ ++ [s.text c] = _
    rw [this]; rfl
  · simp only [view, List.map_append, List.map_cons, List.map_nil]; rfl

theorem J.get {s : St} (h : J s) {b : Nat} (hb : b < s.bufs.length) (hc : s.caches ≠ 0) : J (s.get b) := by
  unfold St.get
  split
  · rename_i c hf
    have hm := List.mem_of_find?_eq_some hf
    refine ⟨fun r hr => ?_, h.table, h.diff, fun r hr hg => ?_, h.none⟩
    · rcases List.mem_append.1 hr with hr | hr
      · exact h.refs r hr
      · simp only [List.mem_singleton] at hr; subst hr; exact h.table c hm
    · rcases List.mem_append.1 hr with hr | hr
      · exact h.got r hr hg
      · simp only [List.mem_singleton] at hr; subst hr; exact hm
  · rename_i hf
    refine ⟨fun r hr => ?_, fun c hcm => ?_, ?_, fun r hr hg => ?_, fun h0 => absurd h0 hc⟩
    · rcases List.mem_append.1 hr with hr | hr
      · exact h.refs r hr
      · simp only [List.mem_singleton] at hr; subst hr; exact hb
    · rcases List.mem_append.1 hcm with hcm | hcm
      · exact h.table c hcm
      · simp only [List.mem_singleton] at hcm; subst hcm; exact hb
    · refine List.pairwise_append.2 ⟨h.diff, List.pairwise_singleton _ _, fun x hx y hy => ?_⟩
      simp only [List.mem_singleton] at hy; subst hy
      have := List.find?_eq_none.1 hf x hx
      simp only [beq_iff_eq] at this
      exact this
    · rcases List.mem_append.1 hr with hr | hr
      · exact List.mem_append_left _ (h.got r hr hg)
      · simp only [List.mem_singleton] at hr; subst hr; exact List.mem_append_right _ (by simp)

/-- A string of the program with a buffer of the table makes two links. -/
theorem links_two {s : St} {r : Ref} (hr : r ∈ s.refs) (hb : r.buf ∈ s.table) : s.links r.buf ≠ 1 := by
  have h1 := List.count_pos_iff.2 hb
  have h2 := List.count_pos_iff.2 (List.mem_map_of_mem (f := Ref.buf) hr)
  simp only [St.links]
  have : 0 < (s.refs.map (·.buf)).count r.buf := h2
  omega

theorem J.clean {s : St} (h : J s) : J s.clean := by
  unfold St.clean
  split
  · exact h
  · refine ⟨h.refs, fun b hb => h.table b (List.mem_filter.1 hb).1, h.diff.filter _, fun r hr hg => ?_, fun h0 => ?_⟩
    · refine List.mem_filter.2 ⟨h.got r hr hg, ?_⟩
      have := links_two (s := s) hr (h.got r hr hg)
      simp [List.mem_filter, this]
    · have := h.none h0
      simp [this]

theorem view_clean (s : St) : view s.clean = view s := by
  unfold St.clean
  split <;> rfl

theorem clean_caches (s : St) : s.clean.caches = s.caches := by
  unfold St.clean
  split <;> rfl

theorem two_count {a : Nat} : ∀ {l : List Nat} {i j : Nat}, l[i]? = some a → l[j]? = some a → i ≠ j → 2 ≤ l.count a
  | [], i, j, hi, _, _ => by simp at hi
  | x :: l, 0, 0, _, _, h => absurd rfl h
  | x :: l, 0, j + 1, hi, hj, _ => by
    simp only [List.getElem?_cons_zero, Option.some.injEq] at hi
    simp only [List.getElem?_cons_succ] at hj
    have := List.count_pos_iff.2 (List.mem_of_getElem? hj)
    subst hi
    rw [List.count_cons_self]; omega
  | x :: l, i + 1, 0, hi, hj, _ => by
    simp only [List.getElem?_cons_zero, Option.some.injEq] at hj
    simp only [List.getElem?_cons_succ] at hi
    have := List.count_pos_iff.2 (List.mem_of_getElem? hi)
    subst hj
    rw [List.count_cons_self]; omega
  | x :: l, i + 1, j + 1, hi, hj, h => by
    simp only [List.getElem?_cons_succ] at hi hj
    have := two_count hi hj (by omega)
    rw [List.count_cons]; omega

theorem edit_other {s : St} {i : Nat} {r : Ref} (hi : s.refs[i]? = some r) (hl : s.links r.buf = 1) :
    r.buf ∉ s.table ∧ ∀ j r', s.refs[j]? = some r' → j ≠ i → r'.buf ≠ r.buf := by
  have hm : r ∈ s.refs := List.mem_of_getElem? hi
  refine ⟨fun hb => links_two hm hb hl, fun j r' hj hne heq => ?_⟩
  have h2 : 2 ≤ (s.refs.map (·.buf)).count r.buf := by
    refine two_count (i := i) (j := j) ?_ ?_ (Ne.symm hne)
    · simp [hi]
    · simp [hj, heq]
  simp only [St.links] at hl
  omega

theorem text_set {s s' : St} {b c : Nat} {t : Text} (hs : s'.bufs = s.bufs.set b t) (h : c ≠ b) : s'.text c = s.text c := by
  simp only [St.text, hs, List.getElem?_set_ne (Ne.symm h)]

theorem text_set_self {s s' : St} {b : Nat} {t : Text} (hs : s'.bufs = s.bufs.set b t) (h : b < s.bufs.length) : s'.text b = t := by
  simp only [St.text, hs, List.getElem?_set_self h, Option.getD_some]

theorem map_erase {α β : Type} (f : α → β) : ∀ (l : List α) (i : Nat), (l.map f).eraseIdx i = (l.eraseIdx i).map f
  | [], _ => rfl
  | _ :: _, 0 => rfl
  | a :: l, i + 1 => by simp only [List.map_cons, List.eraseIdx_cons_succ, map_erase f l i]

theorem inj_of_pairwise {β : Type} {f : Nat → β} : ∀ {l : List Nat}, (l.Pairwise fun b c => f b ≠ f c) → ∀ {b c : Nat}, b ∈ l → c ∈ l → f b = f c → b = c
  | [], _, _, _, hb, _, _ => by cases hb
  | x :: l, h, b, c, hb, hc, e => by
    obtain ⟨h1, h2⟩ := List.pairwise_cons.1 h
    rcases List.mem_cons.1 hb with hb' | hb'
    · rcases List.mem_cons.1 hc with hc' | hc'
      · rw [hb', hc']
      · subst hb'; exact absurd e (h1 c hc')
    · rcases List.mem_cons.1 hc with hc' | hc'
      · subst hc'; exact absurd e.symm (h1 b hb')
      · exact inj_of_pairwise h2 hb' hc' e

theorem view_len (s : St) : (view s).1.length = s.refs.length := by simp [view]

theorem view_idx (s : St) (i : Nat) : (view s).1[i]? = s.refs[i]?.map fun r => s.text r.buf := by simp [view]

/-- One step: the program sees what it should, and the invariant stays. -/
theorem step_ok {s : St} (h : J s) (o : Op) : (s.step o).map view = Spec.StringCache.step (view s) o ∧ ∀ s', s.step o = some s' → J s' := by
  cases o with
  | make =>
    refine ⟨rfl, fun s' hs' => ?_⟩
    simp only [St.step, Option.some.injEq] at hs'; subst hs'
    exact ⟨h.refs, h.table, h.diff, h.got, fun h0 => absurd h0 (Nat.succ_ne_zero _)⟩
  | destroy =>
    simp only [St.step, Spec.StringCache.step]
    show _ = (if s.caches = 0 then none else some ((view s).1, s.caches - 1)) ∧ _
    by_cases h0 : s.caches = 0
    · simp [h0]
    · simp only [if_neg h0, Option.map_some, Option.some.injEq, forall_eq']
      unfold St.destroy
      dsimp only
      split
      · refine ⟨?_, ⟨fun r hr => ?_, fun b hb => (by cases hb), List.Pairwise.nil, fun r hr hg => ?_, fun _ => rfl⟩⟩
        · simp only [view, List.map_map, Prod.mk.injEq, and_true]; rfl
        · obtain ⟨q, hq, rfl⟩ := List.mem_map.1 hr; exact h.refs q hq
        · obtain ⟨q, hq, rfl⟩ := List.mem_map.1 hr; cases hg
      · rename_i h1
        refine ⟨view_clean _, J.clean ⟨h.refs, h.table, h.diff, h.got, fun h2 => absurd h2 h1⟩⟩
  | fresh t =>
    have ha := h.alloc t
    refine ⟨?_, fun s' hs' => ?_⟩
    · simp only [St.step, Spec.StringCache.step, Option.map_some, Option.some.injEq]
      have hv := view_alloc h t
      simp only [view, Prod.mk.injEq] at hv
      simp only [view, List.map_append, List.map_cons, List.map_nil, Prod.mk.injEq]
      refine ⟨?_, hv.2⟩
      rw [← hv.1]
      show _ ++ [(s.alloc t).text s.bufs.length] = _
      rw [text_alloc_new]; rfl
    · simp only [St.step, Option.some.injEq] at hs'; subst hs'
      refine ⟨fun r hr => ?_, ha.table, ha.diff, fun r hr hg => ?_, ha.none⟩
      · rcases List.mem_append.1 hr with hr | hr
        · exact ha.refs r hr
        · simp only [List.mem_singleton] at hr; subst hr; simp [St.alloc]
      · rcases List.mem_append.1 hr with hr | hr
        · exact ha.got r hr hg
        · simp only [List.mem_singleton] at hr; subst hr; cases hg
  | copy i =>
    simp only [St.step, Spec.StringCache.step, view_idx]
    cases hi : s.refs[i]? with
    | none => simp
    | some r =>
      have hm := List.mem_of_getElem? hi
      simp only [Option.map_some, Option.some.injEq, forall_eq']
      refine ⟨?_, ⟨fun q hq => ?_, h.table, h.diff, fun q hq hg => ?_, h.none⟩⟩
      · simp only [view, List.map_append, List.map_cons, List.map_nil]; rfl
      · rcases List.mem_append.1 hq with hq | hq
        · exact h.refs q hq
        · simp only [List.mem_singleton] at hq; subst hq; exact h.refs _ hm
      · rcases List.mem_append.1 hq with hq | hq
        · exact h.got q hq hg
        · simp only [List.mem_singleton] at hq; subst hq; exact h.got _ hm hg
  | edit i t =>
    simp only [St.step, Spec.StringCache.step, view_len]
    cases hi : s.refs[i]? with
    | none =>
      have := List.getElem?_eq_none_iff.1 hi
      rw [if_neg (by omega)]; simp
    | some r =>
      have hm := List.mem_of_getElem? hi
      obtain ⟨hil, hie⟩ := List.getElem?_eq_some_iff.1 hi
      simp only [Option.map_some, Option.some.injEq, forall_eq', if_pos hil]
      split
      · rename_i hl
        obtain ⟨hnt, hno⟩ := edit_other hi hl
        refine ⟨?_, ⟨fun q hq => ?_, fun b hb => ?_, ?_, fun q hq hg => ?_, h.none⟩⟩
        · simp only [view, Prod.mk.injEq, and_true]
          refine List.ext_getElem? fun j => ?_
          simp only [List.getElem?_map, List.getElem?_set, List.length_map]
          by_cases hij : i = j
          · subst hij
            simp only [if_true, if_pos hil, Option.map_some, Option.some.injEq]
            exact text_set_self rfl (h.refs r hm)
          · simp only [if_neg hij]
            cases hj : s.refs[j]? with
            | none => rfl
            | some q =>
              simp only [Option.map_some, Option.some.injEq]
              exact text_set rfl (hno j q hj (Ne.symm hij))
        · simp only [List.length_set]
          rcases List.mem_or_eq_of_mem_set hq with hq | hq
          · exact h.refs q hq
          · subst hq; exact h.refs r hm
        · simp only [List.length_set]; exact h.table b hb
        · refine List.Pairwise.imp_of_mem ?_ h.diff
          intro b c hb hc hne
          have e1 : b ≠ r.buf := fun e => hnt (e ▸ hb)
          have e2 : c ≠ r.buf := fun e => hnt (e ▸ hc)
          intro e
          apply hne
          rwa [text_set (s := s) (t := t) rfl e1, text_set (s := s) (t := t) rfl e2] at e
        · rcases List.mem_or_eq_of_mem_set hq with hq | hq
          · exact h.got q hq hg
          · subst hq; cases hg
      · have ha := h.alloc t
        refine ⟨?_, ⟨fun q hq => ?_, ha.table, ha.diff, fun q hq hg => ?_, ha.none⟩⟩
        · have hv := (Prod.mk.inj (view_alloc h t)).1
          simp only [view, Prod.mk.injEq]
          refine ⟨?_, rfl⟩
          rw [← hv, List.map_set]
          show List.set _ i ((s.alloc t).text s.bufs.length) = _
          rw [text_alloc_new]; rfl
        · rcases List.mem_or_eq_of_mem_set hq with hq | hq
          · exact ha.refs q hq
          · subst hq; simp [St.alloc]
        · rcases List.mem_or_eq_of_mem_set hq with hq | hq
          · exact ha.got q hq hg
          · subst hq; cases hg
  | drop i =>
    simp only [St.step, Spec.StringCache.step, view_len]
    cases hi : s.refs[i]? with
    | none =>
      have := List.getElem?_eq_none_iff.1 hi
      rw [if_neg (by omega)]; simp
    | some r =>
      obtain ⟨hil, hie⟩ := List.getElem?_eq_some_iff.1 hi
      simp only [Option.map_some, Option.some.injEq, forall_eq', if_pos hil]
      refine ⟨?_, ⟨fun q hq => h.refs q (List.mem_of_mem_eraseIdx hq), h.table, h.diff, fun q hq hg => h.got q (List.mem_of_mem_eraseIdx hq) hg, h.none⟩⟩
      simp only [view, Prod.mk.injEq, and_true]
      rw [map_erase]; rfl
  | get t =>
    simp only [St.step, Spec.StringCache.step]
    show _ = (if s.caches = 0 then none else some ((view s).1 ++ [t], s.caches)) ∧ _
    by_cases h0 : s.caches = 0
    · simp [h0]
    · simp only [if_neg h0, Option.map_some, Option.some.injEq, forall_eq']
      refine ⟨?_, (h.alloc t).get (by simp [St.alloc]) h0⟩
      rw [view_get, view_alloc h, text_alloc_new]; rfl
  | getOf i =>
    simp only [St.step, Spec.StringCache.step, view_idx]
    show _ = (if s.caches = 0 then none else _) ∧ _
    by_cases h0 : s.caches = 0
    · simp [h0]
    · simp only [if_neg h0]
      cases hi : s.refs[i]? with
      | none => simp
      | some r =>
        simp only [Option.map_some, Option.some.injEq, forall_eq']
        exact ⟨view_get, h.get (h.refs r (List.mem_of_getElem? hi)) h0⟩
  | clean =>
    simp only [St.step, Spec.StringCache.step]
    show _ = (if s.caches = 0 then none else some (view s)) ∧ _
    by_cases h0 : s.caches = 0
    · simp [h0]
    · simp only [if_neg h0, Option.map_some, Option.some.injEq, forall_eq']
      exact ⟨view_clean s, h.clean⟩

theorem run_ok : ∀ (os : List Op) {s : St}, J s →
    (St.run os s).map view = Spec.StringCache.run os (view s) ∧ ∀ s', St.run os s = some s' → J s'
  | [], s, h => ⟨rfl, fun s' hs' => by simp only [St.run, Option.some.injEq] at hs'; exact hs' ▸ h⟩
  | o :: os, s, h => by
    obtain ⟨h1, h2⟩ := step_ok h o
    simp only [St.run, Spec.StringCache.run, ← h1]
    cases ho : s.step o with
    | none => simp
    | some s1 =>
      simp only [Option.bind_some, Option.map_some]
      exact run_ok os (h2 s1 ho)

theorem J.init : J {} := ⟨fun r hr => (by cases hr), fun b hb => (by cases hb), List.Pairwise.nil, fun r hr => (by cases hr), fun _ => rfl⟩

end ScP

/-- **C116**. The cache does not change what strings say: whatever the program does with its strings and with caches - getting strings, copying, editing and destroying them, cleaning
    the cache, making and destroying caches -, its strings always have the texts that they would have as values. In particular `get` gives a string with the text asked for, and editing one string never changes another. -/
theorem C116_values (os : List Op) :
    (St.run os {}).map (fun s => (s.refs.map fun r => s.text r.buf, s.caches)) = Spec.StringCache.run os ([], 0) :=
  (ScP.run_ok os ScP.J.init).1

/-- **C116**. Strings are shared: two strings that came from a cache (or were copied from such), and have not been edited since, have the same buffer if they have the same text - as long as there has been a cache all the time. -/
theorem C116_shared {os : List Op} {s : St} (hs : St.run os {} = some s) {r r' : Ref} (hr : r ∈ s.refs) (hr' : r' ∈ s.refs)
    (hg : r.got = true) (hg' : r'.got = true) (ht : s.text r.buf = s.text r'.buf) : r.buf = r'.buf := by
  have hj := (ScP.run_ok os ScP.J.init).2 s hs
  exact ScP.inj_of_pairwise hj.diff (hj.got r hr hg) (hj.got r' hr' hg') ht

/-- **C116**. What `clean` keeps: every string of the table that the program has; and nothing else, if the table has as many strings as the threshold. Then the next one will be done when there is a tenth more. -/
theorem C116_clean_partial {os : List Op} {s : St} (hs : St.run os {} = some s) :
    (∀ b, b ∈ s.table → b ∈ s.refs.map (·.buf) → b ∈ s.clean.table) ∧
    (∀ b, b ∈ s.clean.table → b ∈ s.table) ∧
    (s.thresh ≤ s.table.length → (∀ b, b ∈ s.clean.table → b ∈ s.refs.map (·.buf)) ∧
      s.clean.thresh = s.clean.table.length + s.clean.table.length / 10 + 1) ∧
    (s.table.length < s.thresh → s.clean = s) := by
  have hj := (ScP.run_ok os ScP.J.init).2 s hs
  have hone : ∀ b ∈ s.table, s.table.count b = 1 := by
    intro b hb
    have h1 : s.table.Nodup := hj.diff.imp fun h e => h (by rw [e])
    rw [h1.count, if_pos hb]
  unfold St.clean
  refine ⟨fun b hb hr => ?_, fun b hb => ?_, fun hl => ?_, fun hl => by rw [if_pos hl]⟩
  · split
    · exact hb
    · have := List.count_pos_iff.2 hr
      refine List.mem_filter.2 ⟨hb, ?_⟩
      have h1 : s.links b ≠ 1 := by simp only [St.links, hone b hb]; omega
      simp [List.mem_filter, h1]
  · split at hb
    · exact hb
    · exact (List.mem_filter.1 hb).1
  · rw [if_neg (by omega)]
    refine ⟨fun b hb => ?_, rfl⟩
    obtain ⟨h1, h2⟩ := List.mem_filter.1 hb
    have h3 : s.links b ≠ 1 := by simpa [List.mem_filter, h1] using h2
    simp only [St.links, hone b h1] at h3
    exact List.count_pos_iff.1 (by omega)

/-- **C116**. The table that all caches share is there as long as one of them is: the strings in it that the program has stay in it, and when the last cache goes it is emptied. -/
theorem C116_caches {os : List Op} {s s' : St} (hs : St.run os {} = some s) (hd : s.step .destroy = some s') :
    (s.caches = 1 → s'.table = []) ∧
    (s.caches ≠ 1 → ∀ b, b ∈ s.table → b ∈ s.refs.map (·.buf) → b ∈ s'.table) := by
  have h0 : s.caches ≠ 0 := by
    intro h
    simp [St.step, h] at hd
  simp only [St.step, if_neg h0, Option.some.injEq] at hd
  have hc := (C116_clean_partial hs).1
  subst hd
  unfold St.destroy
  refine ⟨fun h1 => ?_, fun h1 b hb hr => ?_⟩
  · simp [h1]
  · dsimp only
    rw [if_neg (by omega)]
    have := hc b hb hr
    unfold St.clean at this ⊢
    by_cases hl : s.table.length < s.thresh
    · rw [if_pos hl]; exact hb
    · rw [if_neg hl] at this ⊢; exact this

/-- A string is got from two caches and edited, one cache goes, and it is got again: in one buffer with the first. -/
example : (St.run [.make, .get [1, 2], .make, .get [1, 2], .edit 1 [3], .destroy, .fresh [1, 2], .getOf 2, .drop 2] {}).map
    (fun s => (s.refs, s.table, s.refs.map fun r => s.text r.buf)) =
    some ([⟨0, true⟩, ⟨2, false⟩, ⟨0, true⟩], [0], [[1, 2], [3], [1, 2]]) := by decide +kernel

example : (St.run [.make, .make, .get [1], .get [2], .drop 0, .clean] {}).map (fun s => (s.table, s.caches, s.thresh)) = some ([1], 2, 2) := by decide +kernel

/-- **C116, not so**: "clean() ... remove any strings from the table that are no longer referenced elsewhere. This is especially important after deleting a large data structure". There are two strings when the cache is cleaned, then both are destroyed:
    cleaning again leaves both in the table. -/
theorem C116_clean_fails : ∃ (os : List Op) (s : St), St.run (os ++ [.clean]) {} = some s ∧ s.refs = [] ∧ s.table.length = 2 :=
  ⟨[.make, .get [1], .get [2], .clean, .drop 0, .drop 0], _, rfl, by decide +kernel, by decide +kernel⟩

end Props
