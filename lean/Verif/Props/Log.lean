import Verif.Model.Log
import Verif.Lemmas.Basic
/- C46: log buffers. -/
namespace Props
open Wv Wv.Log Spec.Log

namespace Lg

theorem isspace_eq (c : Byte) : isspace c = decide (space c) := by
  revert c; apply forall_byte; decide +kernel

theorem trim_nl (t : Text) : trimString (t ++ [10]) = trim t := by
  unfold trimString trim
  have : (fun c => decide (space c)) = isspace := by funext c; rw [isspace_eq]
  rw [this, List.reverse_append]
  have h10 : isspace 10 = true := by decide +kernel
  simp [List.dropWhile_cons, h10]

/-- Unprintable characters are those shown in hexadecimal. -/
theorem print_spec (c : Byte) : (c ≠ 10 ∧ c ≠ 13) → shown c =
    if c = 9 then [32] else if !myIsprint c then [ch '[', xdigit (c.toNat / 16), xdigit (c.toNat % 16), ch ']'] else [c] := by
  revert c; apply forall_byte; decide +kernel

theorem shown_no_nul (c : Byte) : (0 : Byte) ∉ shown c ∧ shown c ≠ [] := by
  revert c; apply forall_byte; decide +kernel

theorem print_nl (c : Byte) : myIsprint c = true → c ≠ 9 ∧ c ≠ 10 ∧ c ≠ 13 := by
  revert c; apply forall_byte; decide +kernel

theorem mid_last (c : Byte) : (c ≠ 10 ∧ c ≠ 13) → (shown c).getLast? ≠ some 10 := by
  revert c; apply forall_byte; decide +kernel

/-- How many of a kind are kept. -/
theorem keep_count (n : Nat) (src : Text) (lvl : Nat) (l : List Msg) :
    ((keep n l).filter (same src lvl)).length = min (l.filter (same src lvl)).length n := by
  induction l with
  | nil => simp [keep]
  | cons m l ih =>
    unfold keep
    by_cases hs : same src lvl m = true
    · have e : same m.src m.lvl = same src lvl := by
        simp only [same, Bool.and_eq_true, beq_iff_eq] at hs
        rw [hs.1, hs.2]
      rw [e, List.filter_cons_of_pos hs, List.length_cons]
      by_cases h : (l.filter (same src lvl)).length < n
      · rw [if_pos h, List.filter_cons_of_pos hs, List.length_cons, ih]; omega
      · rw [if_neg h, ih]; omega
    · rw [List.filter_cons_of_neg hs]
      by_cases h : (l.filter (same m.src m.lvl)).length < n
      · rw [if_pos h, List.filter_cons_of_neg hs, ih]
      · rw [if_neg h, ih]

/-- One more line: the oldest of its kind goes if there are too many. -/
theorem keep_append (n : Nat) (m : Msg) (l : List Msg) :
    keep n (l ++ [m]) = if n < ((keep n l).filter (same m.src m.lvl)).length + 1 then (keep n l ++ [m]).eraseP (same m.src m.lvl)
      else keep n l ++ [m] := by
  have hmm : same m.src m.lvl m = true := by simp [same]
  induction l with
  | nil =>
    cases n with
    | zero => simp [keep, hmm]
    | succ n => simp [keep]
  | cons x l ih =>
    have hk := keep_count n m.src m.lvl l
    rw [List.cons_append, keep]
    by_cases hs : same m.src m.lvl x = true
    · have e : same x.src x.lvl = same m.src m.lvl := by
        simp only [same, Bool.and_eq_true, beq_iff_eq] at hs
        rw [hs.1, hs.2]
      have hl : ((l ++ [m]).filter (same x.src x.lvl)).length = (l.filter (same m.src m.lvl)).length + 1 := by
        rw [e, List.filter_append, List.filter_cons_of_pos hmm]; simp
      rw [hl, ih]
      rw [show keep n (x :: l) = if (l.filter (same m.src m.lvl)).length < n then x :: keep n l else keep n l by rw [keep, e]]
      by_cases h1 : (l.filter (same m.src m.lvl)).length + 1 < n
      · rw [if_pos h1, if_pos (by omega : _ < n), if_neg (by omega), List.filter_cons_of_pos hs, List.length_cons, if_neg (by omega)]
        rfl
      · rw [if_neg h1]
        by_cases h2 : (l.filter (same m.src m.lvl)).length < n
        · rw [if_pos h2, if_neg (by omega), List.filter_cons_of_pos hs, List.length_cons, if_pos (by omega), List.cons_append,
            List.eraseP_cons_of_pos hs]
        · rw [if_neg h2]
    · have e : same x.src x.lvl m = false := by
        cases hh : same x.src x.lvl m with
        | false => rfl
        | true =>
          exfalso; apply hs
          simp only [same, Bool.and_eq_true, beq_iff_eq] at hh ⊢
          exact ⟨hh.1.symm, hh.2.symm⟩
      have hl : ((l ++ [m]).filter (same x.src x.lvl)).length = (l.filter (same x.src x.lvl)).length := by
        rw [List.filter_append, List.filter_cons_of_neg (by simp [e])]; simp
      rw [hl, ih, keep]
      by_cases h1 : (l.filter (same x.src x.lvl)).length < n
      · rw [if_pos h1, if_pos h1, List.filter_cons_of_neg hs]
        by_cases h2 : n < ((keep n l).filter (same m.src m.lvl)).length + 1
        · rw [if_pos h2, if_pos h2, List.cons_append, List.eraseP_cons_of_neg hs]
        · rw [if_neg h2, if_neg h2]; rfl
      · rw [if_neg h1, if_neg h1]

/-- Names of counters are different for different kinds. -/
theorem type_inj (s1 s2 : Text) (l1 l2 : Nat) (h1 : l1 < 10) (h2 : l2 < 10) (h : typeName (some s1) l1 = typeName (some s2) l2) : s1 = s2 ∧ l1 = l2 := by
  unfold typeName at h
  simp only [Option.getD_some] at h
  have := List.append_inj' h rfl
  refine ⟨this.1, ?_⟩
  have h3 : UInt8.ofNat (48 + l1) = UInt8.ofNat (48 + l2) := by
    have := this.2; simp only [List.cons.injEq, and_true, true_and] at this; exact this
  have h4 := congrArg UInt8.toNat h3
  simp [UInt8.toNat_ofNat'] at h4
  omega

/-- What a counter holds. -/
def count (c : List (Text × List Nat)) (k : Text) : List Nat := ((c.find? (fun x => x.1 = k)).map (·.2)).getD []

/-- The messages and the counters agree. -/
structure Agree (s : State) (done : List Msg) : Prop where
  msgs : s.msgs.map (·.2) = keep s.max done
  ids : (s.msgs.map (·.1)).Nodup
  fresh : ∀ x ∈ s.msgs, x.1 < s.next
  low : ∀ x ∈ s.msgs, x.2.lvl < 10
  counts : ∀ src lvl, lvl < 10 → count s.counters (typeName (some src) lvl) = (s.msgs.filter fun x => same src lvl x.2).map (·.1)

theorem count_put (c : List (Text × List Nat)) (k k' : Text) (v : List Nat) (h : ∃ x ∈ c, x.1 = k) :
    count (put c k v) k' = if k' = k then v else count c k' := by
  unfold count put
  induction c with
  | nil => simp at h
  | cons x c ih =>
    rw [List.map_cons]
    by_cases hk : k' = k
    · subst hk
      rw [if_pos rfl]
      by_cases hx : x.1 = k'
      · simp [hx]
      · have : ∃ y ∈ c, y.1 = k' := by
          obtain ⟨y, hy, e⟩ := h
          rcases List.mem_cons.mp hy with rfl | hy
          · exact absurd e hx
          · exact ⟨y, hy, e⟩
        have h2 := ih this
        rw [if_pos rfl] at h2
        rw [if_neg hx, List.find?_cons_of_neg (by simpa using hx)]
        exact h2
    · rw [if_neg hk]
      by_cases hx : x.1 = k
      · have hx' : ¬ x.1 = k' := fun e => hk (e.symm.trans hx)
        rw [if_pos hx, List.find?_cons_of_neg (by simpa using fun e : k = k' => hk e.symm), List.find?_cons_of_neg (by simpa using hx')]
        by_cases hc : ∃ y ∈ c, y.1 = k
        · have h2 := ih hc
          rw [if_neg hk] at h2; exact h2
        · have : c.map (fun x => if x.1 = k then (k, v) else x) = c := by
            conv => rhs; rw [← List.map_id c]
            apply List.map_congr_left
            intro y hy
            rw [if_neg (fun e => hc ⟨y, hy, e⟩)]; rfl
          rw [this]
      · rw [if_neg hx]
        have hc : ∃ y ∈ c, y.1 = k := by
          obtain ⟨y, hy, e⟩ := h
          rcases List.mem_cons.mp hy with rfl | hy
          · exact absurd e hx
          · exact ⟨y, hy, e⟩
        have h2 := ih hc
        rw [if_neg hk] at h2
        by_cases hx' : x.1 = k'
        · rw [List.find?_cons_of_pos (by simpa using hx'), List.find?_cons_of_pos (by simpa using hx')]
        · rw [List.find?_cons_of_neg (by simpa using hx'), List.find?_cons_of_neg (by simpa using hx')]
          exact h2

/-- Removing the first of a kind by its name. -/
theorem erase_first (l : List (Nat × Msg)) (p : Msg → Bool) (id : Nat) (hn : (l.map (·.1)).Nodup)
    (h : ((l.filter fun x => p x.2).map (·.1)).head? = some id) :
    ∃ a y b, l = a ++ y :: b ∧ (∀ x ∈ a, p x.2 = false) ∧ p y.2 = true ∧ y.1 = id ∧ l.eraseP (fun x => x.1 = id) = a ++ b ∧
      (l.map (·.2)).eraseP p = (a ++ b).map (·.2) ∧ (l.filter fun x => p x.2) = y :: b.filter fun x => p x.2 := by
  induction l with
  | nil => simp at h
  | cons x l ih =>
    by_cases hp : p x.2 = true
    · rw [List.filter_cons_of_pos (by simpa using hp)] at h
      simp only [List.map_cons, List.head?_cons, Option.some.injEq] at h
      refine ⟨[], x, l, rfl, by simp, hp, h, ?_, ?_, ?_⟩
      · rw [List.eraseP_cons_of_pos (by simpa using h)]; rfl
      · rw [List.map_cons, List.eraseP_cons_of_pos hp]; rfl
      · rw [List.filter_cons_of_pos (by simpa using hp)]
    · rw [List.filter_cons_of_neg (by simpa using hp)] at h
      rw [List.map_cons, List.nodup_cons] at hn
      obtain ⟨a, y, b, e, h1, h2, h3, h4, h5, h6⟩ := ih hn.2 h
      refine ⟨x :: a, y, b, by rw [e]; rfl, ?_, h2, h3, ?_, ?_, ?_⟩
      · intro z hz
        rcases List.mem_cons.mp hz with rfl | hz
        · simpa using hp
        · exact h1 z hz
      · have : x.1 ≠ id := by
          intro e2
          apply hn.1
          rw [e2, ← h3, e]
          simp
        rw [List.eraseP_cons_of_neg (by simpa using this), h4]; rfl
      · rw [List.map_cons, List.eraseP_cons_of_neg hp, h5]; rfl
      · rw [List.filter_cons_of_neg (by simpa using hp), h6]

theorem handle_spec (s : State) (done : List Msg) (h : Agree s done) (src : Text) (lvl : Nat) (t : Text) (hs : s.src = some src) (hl : s.lvl = lvl)
    (h10 : lvl < 10) : Agree (handleMsg s ⟨src, lvl, t⟩) (done ++ [⟨src, lvl, t⟩]) := by
  obtain ⟨m, hm⟩ : ∃ m : Msg, m = ⟨src, lvl, t⟩ := ⟨_, rfl⟩
  obtain ⟨k, hk⟩ : ∃ k, k = typeName (some src) lvl := ⟨_, rfl⟩
  obtain ⟨cs, hcs⟩ : ∃ cs, cs = ensure s.counters k := ⟨_, rfl⟩
  have hin : ∃ x ∈ cs, x.1 = k := by
    rw [hcs]
    unfold ensure
    cases hf : s.counters.find? (fun x => x.1 = k) with
    | none => exact ⟨(k, []), by simp, rfl⟩
    | some x => exact ⟨x, List.mem_of_find?_eq_some hf, by simpa using List.find?_some hf⟩
  have hsame : ∀ k', count cs k' = count s.counters k' := by
    intro k'
    rw [hcs]
    unfold ensure
    cases hf : s.counters.find? (fun x => x.1 = k) with
    | none =>
      unfold count
      simp only [List.find?_append]
      cases hf' : s.counters.find? (fun x => x.1 = k') with
      | none =>
        by_cases e : k = k'
        · simp [e]
        · simp [e]
      | some y => simp
    | some x => rfl
  obtain ⟨old, hold⟩ : ∃ old, old = (s.msgs.filter fun x => same src lvl x.2).map (·.1) := ⟨_, rfl⟩
  have hcount : count cs k = old := by rw [hsame, hk, h.counts src lvl h10, hold]
  have hmm : same src lvl m = true := by rw [hm]; simp [same]
  have hnew : ((s.msgs ++ [(s.next, m)]).filter fun x => same src lvl x.2).map (·.1) = old ++ [s.next] := by
    rw [List.filter_append, List.filter_cons_of_pos (by simpa using hmm), hold]; simp
  have hids : ((s.msgs ++ [(s.next, m)]).map (·.1)).Nodup := by
    rw [List.map_append, List.nodup_append]
    refine ⟨h.ids, by simp, ?_⟩
    intro a ha b hb
    obtain ⟨x, hx, rfl⟩ := List.mem_map.mp ha
    have := h.fresh x hx
    simp at hb; omega
  have hlen : old.length = ((keep s.max done).filter (same src lvl)).length := by
    rw [hold, ← h.msgs, List.length_map, List.filter_map, List.length_map]; rfl
  have hmap : (s.msgs ++ [(s.next, m)]).map (·.2) = keep s.max done ++ [m] := by rw [List.map_append, h.msgs]; rfl
  have hka := keep_append s.max m done
  have e2 : same m.src m.lvl = same src lvl := by rw [hm]
  rw [e2, ← hlen] at hka
  have hform : handleMsg s m = { s with
      msgs := (match (counterAdd (count cs k) s.next s.max).2 with
        | none => s.msgs ++ [(s.next, m)]
        | some kill => (s.msgs ++ [(s.next, m)]).eraseP (fun x => x.1 = kill)),
      counters := put cs k (counterAdd (count cs k) s.next s.max).1, next := s.next + 1 } := by
    unfold handleMsg
    rw [hcs, hk]
    simp only [hs, hl]
    rfl
  rw [← hm, hform, hcount]
  have hother : ∀ src' lvl', lvl' < 10 → ¬ (src' = src ∧ lvl' = lvl) → typeName (some src') lvl' ≠ k ∧
      ((s.msgs ++ [(s.next, m)]).filter fun x => same src' lvl' x.2) = s.msgs.filter (fun x => same src' lvl' x.2) ∧
      ∀ y : Msg, same src lvl y = true → same src' lvl' y = false := by
    intro src' lvl' hl' hne
    refine ⟨?_, ?_, ?_⟩
    · intro e; rw [hk] at e
      exact hne (type_inj _ _ _ _ hl' h10 e)
    · rw [List.filter_append, List.filter_cons_of_neg]
      · simp
      · rw [hm]; simp only [same, Bool.and_eq_true, beq_iff_eq]
        intro e; exact hne ⟨e.1.symm, e.2.symm⟩
    · intro y hy
      cases hh : same src' lvl' y with
      | false => rfl
      | true =>
        simp only [same, Bool.and_eq_true, beq_iff_eq] at hh hy
        exact absurd ⟨hh.1.symm.trans hy.1, hh.2.symm.trans hy.2⟩ hne
  unfold counterAdd
  by_cases hmax : s.max < (old ++ [s.next]).length
  · rw [if_pos hmax]
    obtain ⟨id, hid⟩ : ∃ id, (old ++ [s.next]).head? = some id := by
      cases old <;> exact ⟨_, rfl⟩
    rw [hid]
    obtain ⟨a, y, b, g1, g2, g3, g4, g5, g6, g7⟩ := erase_first (s.msgs ++ [(s.next, m)]) (same src lvl) id hids (by rw [hnew, hid])
    have hsub : ∀ x ∈ a ++ b, x ∈ s.msgs ++ [(s.next, m)] := by
      intro x hx
      rw [g1]
      rcases List.mem_append.mp hx with hx | hx <;> simp [hx]
    have hmem : ∀ x ∈ s.msgs ++ [(s.next, m)], x.1 < s.next + 1 ∧ x.2.lvl < 10 := by
      intro x hx
      rcases List.mem_append.mp hx with hx | hx
      · exact ⟨by have := h.fresh x hx; omega, h.low x hx⟩
      · rw [List.mem_singleton.mp hx, hm]; exact ⟨Nat.lt_succ_self _, h10⟩
    simp only []
    rw [g5]
    refine ⟨?_, ?_, fun x hx => (hmem x (hsub x hx)).1, fun x hx => (hmem x (hsub x hx)).2, ?_⟩
    · simp only []
      rw [hka, if_pos (by simpa using hmax), ← hmap, g6]
    · simp only []
      have : (a ++ b).Sublist (s.msgs ++ [(s.next, m)]) := by
        rw [g1]; exact List.Sublist.append (List.Sublist.refl _) (List.sublist_cons_self _ _)
      exact List.Nodup.sublist (this.map _) hids
    · intro src' lvl' hl'
      simp only []
      rw [count_put _ _ _ _ hin]
      by_cases he : src' = src ∧ lvl' = lvl
      · rw [he.1, he.2, if_pos hk.symm, ← hnew, g7, List.filter_append, List.map_cons, List.tail_cons]
        have : a.filter (fun x => same src lvl x.2) = [] := List.filter_eq_nil_iff.mpr (by intro x hx; simp [g2 x hx])
        rw [this]; rfl
      · obtain ⟨k1, k2, k3⟩ := hother src' lvl' hl' he
        rw [if_neg k1, hsame, h.counts _ _ hl', ← k2, g1]
        rw [List.filter_append, List.filter_cons_of_neg (by simp [k3 _ g3]), ← List.filter_append]
  · rw [if_neg hmax]
    refine ⟨?_, hids, ?_, ?_, ?_⟩
    · simp only []
      rw [hka, if_neg (by simpa using hmax), ← hmap]
    · intro x hx
      simp only [] at hx ⊢
      rcases List.mem_append.mp hx with hx | hx
      · have := h.fresh x hx; omega
      · rw [List.mem_singleton.mp hx]; exact Nat.lt_succ_self _
    · intro x hx
      simp only [] at hx
      rcases List.mem_append.mp hx with hx | hx
      · exact h.low x hx
      · rw [List.mem_singleton.mp hx, hm]; exact h10
    · intro src' lvl' hl'
      simp only []
      rw [count_put _ _ _ _ hin]
      by_cases he : src' = src ∧ lvl' = lvl
      · rw [he.1, he.2, if_pos hk.symm, ← hnew]
      · obtain ⟨k1, k2, k3⟩ := hother src' lvl' hl' he
        rw [if_neg k1, hsame, h.counts _ _ hl', ← k2]

/-- The receiver is in step with the specification. -/
structure Sim (s : State) (l : Lines) : Prop where
  agree : Agree s l.done
  who : match l.who with
    | none => s.src = none ∧ s.lvl = 10 ∧ l.part = none
    | some (src, lvl) => s.src = some src ∧ s.lvl = lvl ∧ lvl < 10
  part : match l.part with
    | none => s.nl = true ∧ s.cur = []
    | some t => s.nl = false ∧ s.cur = t ∧ (0 : Byte) ∉ t

theorem endLine_sim (s : State) (l : Lines) (h : Sim s l) : Sim (endLine s) (cut l) ∧ (endLine s).max = s.max ∧ (endLine s).nl = true := by
  obtain ⟨ha, hw, hp⟩ := h
  unfold endLine
  cases hpart : l.part with
  | none =>
    rw [hpart] at hp
    simp only [hp.1, if_true]
    have : cut l = l := by
      unfold cut
      cases l
      simp only at hpart
      subst hpart
      split <;> first | rfl | simp_all
    rw [this]
    refine ⟨⟨ha, hw, by rw [hpart]; exact hp⟩, trivial, trivial⟩
  | some t =>
    rw [hpart] at hp
    obtain ⟨p1, p2, p3⟩ := hp
    cases hwho : l.who with
    | none => rw [hwho] at hw; rw [hpart] at hw; simp at hw
    | some w =>
      obtain ⟨src, lvl⟩ := w
      rw [hwho] at hw
      obtain ⟨w1, w2, w3⟩ := hw
      have hcut : cut l = ⟨l.done ++ [⟨src, lvl, trim t⟩], some (src, lvl), none⟩ := by
        unfold cut; rw [hwho, hpart]
      have htext : trimString ((s.cur ++ [10] ++ [0]).takeWhile (· ≠ 0)) = trim t := by
        rw [List.takeWhile_append_of_pos, p2]
        · simp [trim_nl]
        · intro x hx
          rw [p2] at hx
          rcases List.mem_append.mp hx with hx | hx
          · simp; intro e; exact p3 (e ▸ hx)
          · rw [List.mem_singleton.mp hx]; decide
      have hs' : Agree { s with cur := [] } l.done := ⟨ha.msgs, ha.ids, ha.fresh, ha.low, ha.counts⟩
      have hh := handle_spec { s with cur := [] } l.done hs' src lvl (trim t) w1 w2 w3
      simp only [p1, Bool.false_eq_true, if_false]
      have hend : endLine' (midLine' s [10]) = handleMsg { s with cur := [] } ⟨src, lvl, trim t⟩ := by
        unfold endLine' midLine'
        simp only [w1, w2, Option.getD_some]
        rw [if_pos (show lvl < numLevels from w3), htext]
      rw [hend, hcut]
      refine ⟨⟨⟨hh.msgs, hh.ids, hh.fresh, hh.low, hh.counts⟩, ?_, ?_⟩, rfl, trivial⟩
      · exact ⟨w1, w2, w3⟩
      · exact ⟨rfl, rfl⟩

/-- Adding shown text. -/
theorem mid_sim (s : State) (l : Lines) (h : Sim s l) (hw : l.who ≠ none) (t : Text) (ht : (0 : Byte) ∉ t) (hl : t.getLast? ≠ some 10) :
    Sim (midLine (beginLine s) t) { l with part := some (l.part.getD [] ++ t) } ∧ (midLine (beginLine s) t).max = s.max := by
  obtain ⟨ha, hwho, hp⟩ := h
  have e1 : midLine (beginLine s) t = { s with nl := false, cur := s.cur ++ t } := by
    unfold midLine
    rw [if_neg hl]
    unfold midLine' beginLine
    cases hn : s.nl with
    | false => simp [hn]
    | true => simp
  rw [e1]
  refine ⟨⟨⟨ha.msgs, ha.ids, ha.fresh, ha.low, ha.counts⟩, ?_, ?_⟩, rfl⟩
  · cases hw' : l.who with
    | none => exact absurd hw' hw
    | some w => rw [hw'] at hwho; exact hwho
  · cases hpart : l.part with
    | none =>
      rw [hpart] at hp
      simp only [Option.getD_none, List.nil_append]
      exact ⟨trivial, by rw [hp.2]; rfl, ht⟩
    | some u =>
      rw [hpart] at hp
      simp only [Option.getD_some]
      refine ⟨trivial, by rw [hp.2.1], ?_⟩
      intro hm
      rcases List.mem_append.mp hm with hm | hm
      · exact hp.2.2 hm
      · exact ht hm

theorem cut_who (l : Lines) : (cut l).who = l.who := by
  unfold cut
  split
  · rfl
  · rfl

theorem chars_text (t : List Byte) : ∀ (l : Lines), (∀ c ∈ t, myIsprint c = true) → t ≠ [] →
    t.foldl char l = { l with part := some (l.part.getD [] ++ t) } := by
  induction t with
  | nil => intro l _ h; exact absurd rfl h
  | cons c t ih =>
    intro l hc _
    have hp := hc c (by simp)
    obtain ⟨n1, n2, n3⟩ := print_nl c hp
    have hsh : shown c = [c] := by rw [print_spec c ⟨n2, n3⟩, if_neg n1, hp]; rfl
    have hch : char l c = { l with part := some (l.part.getD [] ++ [c]) } := by
      unfold char; rw [if_neg (by simp [n2, n3]), hsh]
    rw [List.foldl_cons, hch]
    by_cases ht : t = []
    · subst ht; rfl
    · rw [ih _ (fun x hx => hc x (by simp [hx])) ht]
      simp

theorem loop_sim (n : Nat) : ∀ (buf : List Byte), buf.length ≤ n → ∀ (s : State) (l : Lines), Sim s l → l.who ≠ none →
    Sim (logLoop s buf) (buf.foldl char l) ∧ (logLoop s buf).max = s.max ∧ (buf.foldl char l).who = l.who := by
  induction n with
  | zero =>
    intro buf hb s l h hw
    have : buf = [] := List.eq_nil_of_length_eq_zero (by omega)
    subst this
    rw [logLoop]
    exact ⟨h, rfl, rfl⟩
  | succ n ih =>
    intro buf hb s l h hw
    cases buf with
    | nil => rw [logLoop]; exact ⟨h, rfl, rfl⟩
    | cons c r =>
      simp only [List.length_cons] at hb
      rw [logLoop]
      by_cases h1 : c = 10 ∨ c = 13
      · rw [if_pos h1]
        obtain ⟨g1, g2, _⟩ := endLine_sim s l h
        obtain ⟨k1, k2, k3⟩ := ih r (by omega) (endLine s) (cut l) g1 (by rw [cut_who]; exact hw)
        have hch : char l c = cut l := by unfold char; rw [if_pos h1]
        rw [List.foldl_cons, hch]
        exact ⟨k1, k2.trans g2, k3.trans (cut_who l)⟩
      · rw [if_neg h1]
        simp only []
        have hne : c ≠ 10 ∧ c ≠ 13 := ⟨fun e => h1 (Or.inl e), fun e => h1 (Or.inr e)⟩
        have hps := print_spec c hne
        have one : ∀ b, shown c = b → Sim (logLoop (midLine (beginLine s) b) r) ((c :: r).foldl char l) ∧
            (logLoop (midLine (beginLine s) b) r).max = s.max ∧ ((c :: r).foldl char l).who = l.who := by
          intro b hb'
          subst hb'
          obtain ⟨g1, g2⟩ := mid_sim s l h hw (shown c) (shown_no_nul c).1 (mid_last c hne)
          have hch : char l c = { l with part := some (l.part.getD [] ++ shown c) } := by unfold char; rw [if_neg h1]
          rw [List.foldl_cons, hch]
          obtain ⟨k1, k2, k3⟩ := ih r (by omega) _ _ g1 hw
          exact ⟨k1, k2.trans g2, k3⟩
        by_cases h9 : c = 9
        · rw [if_pos h9]
          rw [if_pos h9] at hps
          exact one _ hps
        · rw [if_neg h9] at hps ⊢
          by_cases hp : myIsprint c = true
          · simp only [hp, Bool.not_true, Bool.false_eq_true, if_false]
            obtain ⟨f, hf⟩ : ∃ f, f = (fun c : Byte => !(c == 10 || !myIsprint c)) := ⟨_, rfl⟩
            rw [← hf]
            have hall : ∀ x ∈ c :: r.takeWhile f, myIsprint x = true := by
              intro x hx
              rcases List.mem_cons.mp hx with rfl | hx
              · exact hp
              · have := List.all_eq_true.mp (List.all_takeWhile (p := f) (l := r)) x hx
                rw [hf] at this
                simp at this; exact this.2
            have hsplit : (c :: r).foldl char l = (r.dropWhile f).foldl char ((c :: r.takeWhile f).foldl char l) := by
              rw [← List.foldl_append]
              congr 1
              rw [List.cons_append, List.takeWhile_append_dropWhile]
            have h0 : (0 : Byte) ∉ c :: r.takeWhile f := by
              intro hm; have := hall 0 hm; revert this; decide +kernel
            have hlast : (c :: r.takeWhile f).getLast? ≠ some 10 := by
              intro e
              have := hall 10 (List.mem_of_getLast? e)
              revert this; decide +kernel
            obtain ⟨g1, g2⟩ := mid_sim s l h hw _ h0 hlast
            rw [hsplit, chars_text _ l hall (by simp)]
            have hdl := (List.dropWhile_suffix (l := r) f).length_le
            obtain ⟨k1, k2, k3⟩ := ih (r.dropWhile f) (by omega) _ _ g1 hw
            exact ⟨k1, k2.trans g2, k3⟩
          · have hp' : (!myIsprint c) = true := by simpa using hp
            rw [if_pos hp'] at hps
            rw [if_pos hp']
            exact one _ hps

theorem step_sim (limit : Text → Nat) (s : State) (l : Lines) (h : Sim s l) (e : Event) (he : ∀ src lvl t, e = .log src lvl t → lvl < 10) :
    Sim (step limit s e) (event limit l e) ∧ (step limit s e).max = s.max := by
  cases e with
  | ask => exact ⟨(endLine_sim s l h).1, (endLine_sim s l h).2.1⟩
  | log src lvl t =>
    have hl := he src lvl t rfl
    unfold step event
    simp only []
    unfold Wv.Log.log
    by_cases ht : lvl > limit src
    · rw [if_pos ht, if_pos ht]; exact ⟨h, rfl⟩
    · rw [if_neg ht, if_neg ht]
      simp only []
      by_cases hw : l.who = some (src, lvl)
      · rw [if_pos hw]
        have hwho := h.who
        rw [hw] at hwho
        rw [if_neg (by simp [hwho.1, hwho.2.1])]
        obtain ⟨k1, k2, _⟩ := loop_sim t.length t (Nat.le_refl _) s l h (by rw [hw]; simp)
        exact ⟨k1, k2⟩
      · rw [if_neg hw]
        have hne : some src ≠ s.src ∨ lvl ≠ s.lvl := by
          refine Decidable.byContradiction fun hc => ?_
          have h1 : some src = s.src := Decidable.byContradiction fun h' => hc (Or.inl h')
          have h2 : lvl = s.lvl := Decidable.byContradiction fun h' => hc (Or.inr h')
          have hwho := h.who
          cases hww : l.who with
          | none => rw [hww] at hwho; rw [hwho.1] at h1; simp at h1
          | some w =>
            rw [hww] at hwho
            apply hw
            rw [hww]
            obtain ⟨a, b⟩ := w
            have e1 : some a = some src := hwho.1.symm.trans h1.symm
            have e2 : b = lvl := hwho.2.1.symm.trans h2.symm
            rw [Option.some.inj e1, e2]
        rw [if_pos hne]
        obtain ⟨g1, g2, g3⟩ := endLine_sim s l h
        have hcp : (cut l).part = none := by
          have := g1.part
          cases hc : (cut l).part with
          | none => rfl
          | some u => rw [hc] at this; rw [g3] at this; simp at this
        have g1' : Sim { endLine s with src := some src, lvl := lvl } { cut l with who := some (src, lvl) } := by
          refine ⟨⟨g1.agree.msgs, g1.agree.ids, g1.agree.fresh, g1.agree.low, g1.agree.counts⟩, ⟨rfl, rfl, hl⟩, ?_⟩
          have := g1.part
          rw [hcp] at this
          simp only [hcp]
          exact this
        obtain ⟨k1, k2, _⟩ := loop_sim t.length t (Nat.le_refl _) _ _ g1' (by simp)
        exact ⟨k1, k2.trans g2⟩

theorem run_sim (limit : Text → Nat) (h : List Event) : ∀ (s : State) (l : Lines), Sim s l → (∀ src lvl t, Event.log src lvl t ∈ h → lvl < 10) →
    Sim (run limit s h) (h.foldl (event limit) l) ∧ (run limit s h).max = s.max := by
  induction h with
  | nil => intro s l hs _; exact ⟨hs, rfl⟩
  | cons e h ih =>
    intro s l hs he
    obtain ⟨g1, g2⟩ := step_sim limit s l hs e (fun src lvl t e' => he src lvl t (by simp [e']))
    obtain ⟨k1, k2⟩ := ih _ _ g1 (fun src lvl t e' => he src lvl t (by simp [e']))
    exact ⟨k1, k2.trans g2⟩

theorem new_sim (max : Nat) : Sim (new max) start := by
  refine ⟨⟨rfl, List.nodup_nil, ?_, ?_, ?_⟩, ⟨rfl, rfl, rfl⟩, ⟨rfl, rfl⟩⟩
  · intro x hx; simp [new] at hx
  · intro x hx; simp [new] at hx
  · intro src lvl _; rfl

end Lg
open Lg

/-- C46: after any history of pieces of text from any sources, and of requests, the log buffer holds those lines of it that fewer than `max` lines of the
    same source and level follow, in the order they arrived. -/
theorem C46_keeps (limit : Text → Nat) (max : Nat) (h : List Event) (hl : ∀ src lvl t, Event.log src lvl t ∈ h → lvl < 10) :
    messages (run limit (new max) h) = keep max (lines limit h) := by
  obtain ⟨g1, g2⟩ := run_sim limit h (new max) start (new_sim max) hl
  obtain ⟨k1, k2, _⟩ := endLine_sim _ _ g1
  unfold messages lines
  rw [k1.agree.msgs, k2, g2]
  rfl

/-- C46: so for each source and level these are its last `max` lines. -/
theorem C46_last (limit : Text → Nat) (max : Nat) (h : List Event) (hl : ∀ src lvl t, Event.log src lvl t ∈ h → lvl < 10) (src : Text) (lvl : Nat) :
    (messages (run limit (new max) h)).filter (same src lvl) =
      ((lines limit h).filter (same src lvl)).drop (((lines limit h).filter (same src lvl)).length - max) := by
  rw [C46_keeps limit max h hl]
  generalize lines limit h = l
  induction l with
  | nil => simp [keep]
  | cons m l ih =>
    unfold keep
    by_cases hs : same src lvl m = true
    · have e : same m.src m.lvl = same src lvl := by
        simp only [same, Bool.and_eq_true, beq_iff_eq] at hs
        rw [hs.1, hs.2]
      rw [e, List.filter_cons_of_pos hs, List.length_cons]
      by_cases hc : (l.filter (same src lvl)).length < max
      · rw [if_pos hc, List.filter_cons_of_pos hs, ih]
        have e1 : (l.filter (same src lvl)).length - max = 0 := by omega
        have e2 : (l.filter (same src lvl)).length + 1 - max = 0 := by omega
        rw [e1, e2]; rfl
      · rw [if_neg hc, ih]
        have e2 : (l.filter (same src lvl)).length + 1 - max = ((l.filter (same src lvl)).length - max) + 1 := by omega
        rw [e2]; rfl
    · rw [List.filter_cons_of_neg hs]
      by_cases hc : (l.filter (same m.src m.lvl)).length < max
      · rw [if_pos hc, List.filter_cons_of_neg hs, ih]
      · rw [if_neg hc, ih]

/-- A history: pieces of lines from two sources, a control character, a message above the limit. -/
def exampleLog : List Event :=
  [.log (str ['a']) 1 (str ['x', '\t', 'y']), .log (str ['a']) 1 ([1] ++ str [' ', '\n', '\n', 'z']), .log (str ['b']) 1 (str ['u']),
    .log (str ['a']) 9 (str ['v', '\n']), .ask, .log (str ['b']) 1 (str ['w', '\r', 't'])]

example : (∀ src lvl t, Event.log src lvl t ∈ exampleLog → lvl < 10) ∧
    messages (run (fun _ => 5) (new 2) exampleLog) =
      [⟨str ['a'], 1, str ['x', ' ', 'y', '[', '0', '1', ']']⟩, ⟨str ['a'], 1, str ['z']⟩, ⟨str ['b'], 1, str ['w']⟩, ⟨str ['b'], 1, str ['t']⟩] := by
  constructor
  · intro src lvl t h
    simp only [exampleLog, List.mem_cons, List.not_mem_nil, or_false, Event.log.injEq, reduceCtorEq, false_or] at h
    rcases h with h | h | h | h | h <;> omega
  · rw [C46_keeps _ _ _ (by
      intro src lvl t h
      simp only [exampleLog, List.mem_cons, List.not_mem_nil, or_false, Event.log.injEq, reduceCtorEq, false_or] at h
      rcases h with h | h | h | h | h <;> omega)]
    decide +kernel

/-- Feeding what a log buffer holds to another one joins lines of the same source and level: the ends of lines are not passed on. -/
theorem C46_feed_fails : ¬ ∀ (limit : Text → Nat) (max : Nat) (h : List Event), (∀ src lvl t, Event.log src lvl t ∈ h → lvl < 10) →
    messages (feedReceiver limit (endLine (run limit (new max) h)) (new max)) = messages (run limit (new max) h) := by
  intro hall
  have h0 : ∀ src lvl t, Event.log src lvl t ∈ [Event.log (str ['a']) 1 (str ['x', '\n', 'y', '\n'])] → lvl < 10 := by
    intro src lvl t h
    simp only [List.mem_cons, List.not_mem_nil, or_false, Event.log.injEq] at h
    omega
  have h1 : ∀ src lvl t, Event.log src lvl t ∈ [Event.log (str ['a']) 1 (str ['x']), Event.log (str ['a']) 1 (str ['y'])] → lvl < 10 := by
    intro src lvl t h
    simp only [List.mem_cons, List.not_mem_nil, or_false, Event.log.injEq] at h
    omega
  have := hall (fun _ => 9) 5 [Event.log (str ['a']) 1 (str ['x', '\n', 'y', '\n'])] h0
  have e1 := C46_keeps (fun _ => 9) 5 [Event.log (str ['a']) 1 (str ['x', '\n', 'y', '\n'])] h0
  have e2 := C46_keeps (fun _ => 9) 5 [Event.log (str ['a']) 1 (str ['x']), Event.log (str ['a']) 1 (str ['y'])] h1
  rw [e1] at this
  have e3 : feedReceiver (fun _ => 9) (endLine (run (fun _ => 9) (new 5) [Event.log (str ['a']) 1 (str ['x', '\n', 'y', '\n'])])) (new 5) =
      run (fun _ => 9) (new 5) [Event.log (str ['a']) 1 (str ['x']), Event.log (str ['a']) 1 (str ['y'])] := by
    have hm : (endLine (run (fun _ => 9) (new 5) [Event.log (str ['a']) 1 (str ['x', '\n', 'y', '\n'])])).msgs.map (·.2) =
        [⟨str ['a'], 1, str ['x']⟩, ⟨str ['a'], 1, str ['y']⟩] := by
      have : messages (run (fun _ => 9) (new 5) [Event.log (str ['a']) 1 (str ['x', '\n', 'y', '\n'])]) =
        [⟨str ['a'], 1, str ['x']⟩, ⟨str ['a'], 1, str ['y']⟩] := by rw [e1]; decide +kernel
      exact this
    have hf : ∀ (l : List (Nat × Msg)) (r : State), l.foldl (fun r m => Wv.Log.log (fun _ => 9) r m.2.src m.2.lvl m.2.text) r =
        (l.map (·.2)).foldl (fun r m => Wv.Log.log (fun _ => 9) r m.src m.lvl m.text) r := by
      intro l; induction l with
      | nil => intro r; rfl
      | cons x l ih => intro r; exact ih _
    unfold feedReceiver
    rw [hf, hm]
    rfl
  rw [e3, e2] at this
  revert this
  decide +kernel

end Props
