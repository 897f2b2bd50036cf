import Verif.Model.StreamList
/-
C52: lists of streams.
-/
namespace Props
open Wv Wv.StreamList Spec.StreamList

namespace Sl

theorem pending_append (l m : List Ev) : ∀ q, pending (l ++ m) q = (pending l q).bind (pending m) := by
  induction l with
  | nil => intro q; rfl
  | cons e l ih =>
    intro q
    cases e with
    | start => exact ih _
    | ready x => exact ih _
    | removed x => exact ih _
    | called x =>
      cases q with
      | nil => rfl
      | cons y t =>
        show (if _ then _ else _) = Option.bind (if _ then _ else _) _
        by_cases h : x = y
        · rw [if_pos h, if_pos h]; exact ih _
        · rw [if_neg h, if_neg h]; rfl

/-- Those in `sure_thing` are those still to be called. -/
def Inv (s : St) : Prop := pending s.log [] = some s.sure

theorem acts_same (l : List Act) : ∀ s : St, (l.foldl act s).sure = s.sure ∧ (l.foldl act s).log = s.log ∧ (l.foldl act s).prune = s.prune ∧ (l.foldl act s).tick = s.tick := by
  induction l with
  | nil => intro s; exact ⟨rfl, rfl, rfl, rfl⟩
  | cons a l ih =>
    intro s
    rw [List.foldl_cons]
    obtain ⟨h1, h2, h3, h4⟩ := ih (act s a)
    rw [h1, h2, h3, h4]
    cases a <;> exact ⟨rfl, rfl, rfl, rfl⟩

theorem report_inv (dev : Nat → Ans) (s s' : St) (x : Nat) (h : Inv s) (hr : report dev s x = some s') : Inv s' := by
  unfold report at hr
  simp only [] at hr
  obtain ⟨h1, h2, _⟩ := acts_same (dev s.tick).acts { s with tick := s.tick + 1 }
  generalize (dev s.tick).acts.foldl act { s with tick := s.tick + 1 } = s1 at *
  simp only [] at h1 h2
  have hi : Inv s1 := by unfold Inv; rw [h1, h2]; exact h
  by_cases c1 : (dev s.tick).ready = true
  · rw [if_pos c1] at hr
    obtain rfl := Option.some.inj hr
    show pending (s1.log ++ _) [] = _
    rw [pending_append, hi]; rfl
  · rw [if_neg c1] at hr
    by_cases c2 : s1.sure.contains x = true
    · rw [if_pos c2] at hr; simp at hr
    · rw [if_neg c2] at hr
      obtain rfl := Option.some.inj hr
      exact hi

theorem exec_inv (dev : Nat → Ans) (f : Nat) : ∀ (c : Call) (s s' : St) (b : Bool), Inv s → exec dev f c s = some (s', b) → Inv s' := by
  induction f with
  | zero => intro c s s' b _ h; simp [exec] at h
  | succ f ih =>
    intro c s s' b hi h
    cases c with
    | post k sure =>
      replace h : post dev (exec dev f) k sure s = some (s', b) := h
      unfold post at h
      cases hx : s.list[k]? with
      | none => rw [hx] at h; simp at h; rw [← h.1]; exact hi
      | some x =>
        rw [hx] at h
        simp only [] at h
        obtain ⟨s1, h1, h2⟩ := Option.bind_eq_some_iff.mp h
        have i1 := report_inv dev s s1 x hi h1
        by_cases c1 : isok s1 x = true
        · rw [if_pos c1] at h2; exact ih _ _ _ _ i1 h2
        · rw [if_neg c1] at h2
          by_cases c2 : s1.prune = true
          · rw [if_pos c2] at h2
            exact ih _ { s1 with list := s1.list.eraseIdx (if k = 0 then 0 else k + prepends (dev s.tick).acts) } _ _ i1 h2
          · rw [if_neg c2] at h2; exact ih _ _ _ _ i1 h2
    | loop =>
      replace h : loop dev (exec dev f) s = some (s', b) := h
      unfold loop at h
      cases hx : s.sure with
      | nil => rw [hx] at h; simp at h; rw [← h.1]; exact hi
      | cons x t =>
        rw [hx] at h
        simp only [] at h
        obtain ⟨⟨s1, b1⟩, h1, h2⟩ := Option.bind_eq_some_iff.mp h
        refine ih _ _ _ _ (ih _ _ _ _ ?_ h1) h2
        show pending (s.log ++ _) [] = _
        rw [pending_append, hi, hx]
        show (if _ then _ else _) = _
        rw [if_pos rfl]; rfl
    | ops l =>
      replace h : ops (exec dev f) l s = some (s', b) := h
      cases l with
      | nil => simp [ops] at h; rw [← h.1]; exact hi
      | cons o l =>
        obtain ⟨⟨s1, b1⟩, h1, h2⟩ := Option.bind_eq_some_iff.mp h
        exact ih _ _ _ _ (ih _ _ _ _ hi h1) h2
    | op o =>
      replace h : op dev (exec dev f) s o = some (s', b) := h
      cases o with
      | append x => simp [op] at h; rw [← h.1]; exact hi
      | prepend x => simp [op] at h; rw [← h.1]; exact hi
      | unlink x =>
        simp only [op, Option.some.injEq, Prod.mk.injEq] at h
        rw [← h.1]
        show pending (s.log ++ _) [] = _
        rw [pending_append, hi]; rfl
      | iterRemove x => simp [op] at h; rw [← h.1]; exact hi
      | kill x => simp [op] at h; rw [← h.1]; exact hi
      | autoPrune x => simp [op] at h; rw [← h.1]; exact hi
      | preSelect =>
        simp only [op, Option.some.injEq, Prod.mk.injEq] at h
        rw [← h.1]
        show pending (s.log ++ _) [] = _
        rw [pending_append, hi]; rfl
      | postSelect => exact ih _ _ _ _ (by exact hi) h
      | callback =>
        obtain ⟨⟨s1, b1⟩, h1, h2⟩ := Option.bind_eq_some_iff.mp h
        exact ih _ _ _ _ (ih _ _ _ _ (by exact hi) h1) h2

theorem loop_empty (dev : Nat → Ans) (f : Nat) : ∀ (s s' : St) (b : Bool), exec dev f .loop s = some (s', b) → s'.sure = [] := by
  induction f with
  | zero => intro s s' b h; simp [exec] at h
  | succ f ih =>
    intro s s' b h
    replace h : loop dev (exec dev f) s = some (s', b) := h
    unfold loop at h
    cases hx : s.sure with
    | nil => rw [hx] at h; simp at h; rw [← h.1]; exact hx
    | cons x t =>
      rw [hx] at h
      simp only [] at h
      obtain ⟨⟨s1, b1⟩, _, h2⟩ := Option.bind_eq_some_iff.mp h
      exact ih _ _ _ h2

theorem pending_count (x : Nat) (l : List Ev) : ∀ q q', pending l q = some q' → l.count (.called x) + q'.count x ≤ l.count (.ready x) + q.count x := by
  induction l with
  | nil => intro q q' h; simp [pending] at h; simp [h]
  | cons e l ih =>
    intro q q' h
    cases e with
    | start =>
      have := ih _ _ h
      simp only [List.count_nil] at this
      rw [List.count_cons_of_ne (by simp), List.count_cons_of_ne (by simp)]
      omega
    | ready y =>
      have := ih _ _ h
      rw [List.count_append] at this
      rw [List.count_cons_of_ne (by simp)]
      by_cases hy : y = x
      · subst hy
        rw [List.count_cons_self]
        have h0 : (q.filter (· ≠ y)).count y = 0 := List.count_eq_zero.mpr (by simp [List.mem_filter])
        have h1 : [y].count y = 1 := by simp
        omega
      · rw [List.count_cons_of_ne (by simpa using hy)]
        have h0 : (q.filter (· ≠ y)).count x ≤ q.count x := List.Sublist.count_le _ List.filter_sublist
        have h1 : [y].count x = 0 := by simp [List.count_cons, hy]
        omega
    | called y =>
      cases q with
      | nil => simp [pending] at h
      | cons z t =>
        replace h : (if y = z then pending l t else none) = some q' := h
        by_cases hz : y = z
        · rw [if_pos hz] at h
          have := ih _ _ h
          subst hz
          rw [List.count_cons_of_ne (b := Ev.called y) (a := Ev.ready x) (by simp)]
          by_cases hy : y = x
          · subst hy; rw [List.count_cons_self, List.count_cons_self]; omega
          · rw [List.count_cons_of_ne (by simpa using hy), List.count_cons_of_ne hy]; omega
        · rw [if_neg hz] at h; simp at h
    | removed y =>
      have := ih _ _ h
      have h0 : (q.filter (· ≠ y)).count x ≤ q.count x := List.Sublist.count_le _ List.filter_sublist
      rw [List.count_cons_of_ne (by simp), List.count_cons_of_ne (by simp)]
      omega

/-- What callbacks may do without calling off a call that is due: neither `unlink` nor another round. -/
def Calm : Op → Prop
  | .unlink _ => False
  | .preSelect => False
  | .postSelect => False
  | .callback => False
  | _ => True

theorem calm_op (dev : Nat → Ans) (f : Nat) (o : Op) (ho : Calm o) (s : St) : ∃ s' b, exec dev (f + 1) (.op o) s = some (s', b) ∧ s'.sure = s.sure ∧ s'.log = s.log := by
  cases o with
  | unlink x => exact ho.elim
  | preSelect => exact ho.elim
  | postSelect => exact ho.elim
  | callback => exact ho.elim
  | _ => exact ⟨_, _, rfl, rfl, rfl⟩

theorem calm_ops (dev : Nat → Ans) (l : List Op) : ∀ (f : Nat) (s : St), (∀ o ∈ l, Calm o) → l.length + 1 < f → ∃ s' b, exec dev f (.ops l) s = some (s', b) ∧ s'.sure = s.sure ∧ s'.log = s.log := by
  induction l with
  | nil =>
    intro f s _ hf
    obtain ⟨f, rfl⟩ : ∃ g, f = g + 1 := ⟨f - 1, by simp at hf; omega⟩
    exact ⟨s, false, rfl, rfl, rfl⟩
  | cons o l ih =>
    intro f s hl hf
    simp only [List.length_cons] at hf
    obtain ⟨f, rfl⟩ : ∃ g, f = g + 2 := ⟨f - 2, by omega⟩
    obtain ⟨s1, b1, h1, h2, h3⟩ := calm_op dev f o (hl o (by simp)) s
    obtain ⟨s2, b2, k1, k2, k3⟩ := ih (f + 1) s1 (fun o' ho' => hl o' (by simp [ho'])) (by omega)
    refine ⟨s2, b2, ?_, by rw [k2, h2], by rw [k3, h3]⟩
    show (exec dev (f + 1) (.op o) s).bind _ = _
    rw [h1]; exact k1

theorem calm_loop (dev : Nat → Ans) (m : Nat) (hd : ∀ i, (∀ o ∈ (dev i).code, Calm o) ∧ (dev i).code.length ≤ m) (q : List Nat) : ∀ (f : Nat) (s : St), s.sure = q → q.length + m + 2 < f →
    ∃ s' b, exec dev f .loop s = some (s', b) ∧ s'.sure = [] ∧ s'.log = s.log ++ q.map .called := by
  induction q with
  | nil =>
    intro f s hs hf
    obtain ⟨f, rfl⟩ : ∃ g, f = g + 1 := ⟨f - 1, by omega⟩
    refine ⟨s, false, ?_, hs, by simp⟩
    show loop dev (exec dev f) s = _
    unfold loop; rw [hs]
  | cons x t ih =>
    intro f s hs hf
    simp only [List.length_cons] at hf
    obtain ⟨f, rfl⟩ : ∃ g, f = g + 1 := ⟨f - 1, by omega⟩
    obtain ⟨s1, b1, h1, h2, h3⟩ := calm_ops dev (dev s.tick).code f { s with tick := s.tick + 1, sure := t, log := s.log ++ [.called x] } (hd _).1 (by have := (hd s.tick).2; omega)
    obtain ⟨s2, b2, k1, k2, k3⟩ := ih f s1 h2 (by omega)
    refine ⟨s2, b2, ?_, k2, by rw [k3, h3]; simp⟩
    show loop dev (exec dev f) s = _
    unfold loop; rw [hs]
    simp only []
    rw [h1]; exact k1

/-- Streams that do not prepend others in `post_select`. -/
def NoPrepend (dev : Nat → Ans) : Prop := ∀ i x, .prepend x ∉ (dev i).acts

theorem noPrepend_zero {dev : Nat → Ans} (h : NoPrepend dev) (i : Nat) : prepends (dev i).acts = 0 := by
  unfold prepends
  rw [List.countP_eq_zero]
  intro a ha
  cases a with
  | prepend x => exact absurd ha (h i x)
  | _ => simp

theorem acts_grow (l : List Act) (hl : ∀ x, .prepend x ∉ l) : ∀ s : St, (∃ m, (l.foldl act s).list = s.list ++ m) ∧ ∀ x ∈ s.dead, x ∈ (l.foldl act s).dead := by
  induction l with
  | nil => intro s; exact ⟨⟨[], by simp⟩, fun _ h => h⟩
  | cons a l ih =>
    intro s
    rw [List.foldl_cons]
    obtain ⟨⟨m, h1⟩, h2⟩ := ih (fun x hx => hl x (by simp [hx])) (act s a)
    cases a with
    | append x => exact ⟨⟨[x] ++ m, by rw [h1]; simp [act]⟩, h2⟩
    | prepend x => exact absurd (by simp) (hl x)
    | kill x => exact ⟨⟨m, h1⟩, fun y hy => h2 y (by simp [act, hy])⟩

theorem report_grow {dev : Nat → Ans} (hn : NoPrepend dev) (s s' : St) (x : Nat) (hr : report dev s x = some s') :
    (∃ m, s'.list = s.list ++ m) ∧ (∀ x ∈ s.dead, x ∈ s'.dead) ∧ s'.prune = s.prune := by
  unfold report at hr
  simp only [] at hr
  obtain ⟨k1, k2⟩ := acts_grow (dev s.tick).acts (hn s.tick) { s with tick := s.tick + 1 }
  obtain ⟨_, _, k3, _⟩ := acts_same (dev s.tick).acts { s with tick := s.tick + 1 }
  generalize (dev s.tick).acts.foldl act { s with tick := s.tick + 1 } = s1 at *
  by_cases c1 : (dev s.tick).ready = true
  · rw [if_pos c1] at hr
    obtain rfl := Option.some.inj hr
    exact ⟨k1, k2, k3⟩
  · rw [if_neg c1] at hr
    by_cases c2 : s1.sure.contains x = true
    · rw [if_pos c2] at hr; simp at hr
    · rw [if_neg c2] at hr
      obtain rfl := Option.some.inj hr
      exact ⟨k1, k2, k3⟩

theorem post_grow {dev : Nat → Ans} (hn : NoPrepend dev) (f : Nat) : ∀ (k : Nat) (sure : Bool) (s s' : St) (b : Bool) (dead0 : List Nat), (∀ x ∈ dead0, x ∈ s.dead) → s.prune = true →
    (∀ x ∈ s.list.take k, x ∉ dead0) → exec dev f (.post k sure) s = some (s', b) →
    (∀ x ∈ s.dead, x ∈ s'.dead) ∧ (∀ x ∈ s'.list, x ∉ dead0) ∧ (∀ x ∈ s.list, x ∉ s'.dead → x ∈ s'.list) := by
  induction f with
  | zero => intro k sure s s' b d0 _ _ _ h; simp [exec] at h
  | succ f ih =>
    intro k sure s s' b d0 hd hp ht h
    replace h : post dev (exec dev f) k sure s = some (s', b) := h
    unfold post at h
    cases hx : s.list[k]? with
    | none =>
      rw [hx] at h; simp at h
      obtain ⟨rfl, _⟩ := h
      refine ⟨fun _ h => h, ?_, fun _ h _ => h⟩
      rw [List.getElem?_eq_none_iff] at hx
      rwa [List.take_of_length_le hx] at ht
    | some x =>
      rw [hx] at h
      simp only [noPrepend_zero hn, Nat.add_zero, ite_self] at h
      have e0 : (if k = 0 then 0 else k) = k := by split <;> omega
      rw [e0] at h
      obtain ⟨s1, h1, h2⟩ := Option.bind_eq_some_iff.mp h
      obtain ⟨⟨m, g1⟩, g2, g3⟩ := report_grow hn s s1 x h1
      obtain ⟨hk, hkx⟩ := List.getElem?_eq_some_iff.mp hx
      have hk1 : k < s1.list.length := by rw [g1, List.length_append]; omega
      have hkx1 : s1.list[k] = x := by simp only [g1]; rw [List.getElem_append_left hk]; exact hkx
      have htk : s1.list.take k = s.list.take k := by rw [g1, List.take_append_of_le_length (by omega)]
      by_cases c1 : isok s1 x = true
      · rw [if_pos c1] at h2
        have hx1 : x ∉ s1.dead := by simpa [isok] using c1
        obtain ⟨i1, i2, i3⟩ := ih (k + 1) sure s1 s' b d0 (fun y hy => g2 y (hd y hy)) (g3.trans hp) (by
          intro y hy
          rw [List.take_add_one, List.mem_append] at hy
          rcases hy with hy | hy
          · rw [htk] at hy; exact ht y hy
          · rw [List.getElem?_eq_getElem hk1, hkx1] at hy
            simp at hy
            subst hy
            exact fun h => hx1 (g2 _ (hd _ h))) h2
        exact ⟨fun y hy => i1 y (g2 y hy), i2, fun y hy hn' => i3 y (by rw [g1]; simp [hy]) hn'⟩
      · rw [if_neg c1, if_pos (g3.trans hp)] at h2
        have hx1 : x ∈ s1.dead := by simpa [isok] using c1
        obtain ⟨i1, i2, i3⟩ := ih k true { s1 with list := s1.list.eraseIdx k } s' b d0 (fun y hy => g2 y (hd y hy)) (g3.trans hp) (by
          intro y hy
          replace hy : y ∈ (s1.list.eraseIdx k).take k := hy
          rw [List.eraseIdx_eq_take_drop_succ, List.take_append_of_le_length (by rw [List.length_take]; omega), List.take_take, Nat.min_self, htk] at hy
          exact ht y hy) h2
        refine ⟨fun y hy => i1 y (g2 y hy), i2, fun y hy hn' => i3 y ?_ hn'⟩
        show y ∈ s1.list.eraseIdx k
        have hyx : y ≠ x := by rintro rfl; exact hn' (i1 _ hx1)
        have hy1 : y ∈ s1.list := by rw [g1]; simp [hy]
        obtain ⟨j, hj, hjy⟩ := List.mem_iff_getElem.mp hy1
        rw [List.mem_eraseIdx_iff_getElem]
        refine ⟨j, hj, ?_, hjy⟩
        rintro rfl
        exact hyx (hjy.symm.trans hkx1)

/-- Streams that change nothing in `post_select`. -/
def Still (dev : Nat → Ans) : Prop := ∀ i, (dev i).acts = []

/-- Of these streams, those that answer that they are ready, asked one after the other. -/
def readies (dev : Nat → Ans) : Nat → List Nat → List Nat
  | _, [] => []
  | t, x :: l => (if (dev t).ready then [x] else []) ++ readies dev (t + 1) l

theorem post_still {dev : Nat → Ans} (hs : Still dev) (l : List Nat) : ∀ (f : Nat) (kept : List Nat) (sure : Bool) (s : St), s.list = kept ++ l → l.Nodup → (∀ x ∈ l, x ∉ s.sure) → l.length < f →
    ∃ s' , exec dev f (.post kept.length sure) s = some (s', sure || l.any (fun x => !isok s x) || !s'.sure.isEmpty) ∧ s'.sure = s.sure ++ readies dev s.tick l ∧
      s'.list = kept ++ (if s.prune then l.filter (isok s) else l) ∧ s'.dead = s.dead ∧ s'.log = s.log ++ (readies dev s.tick l).map .ready := by
  induction l with
  | nil =>
    intro f kept sure s hl _ _ hf
    obtain ⟨f, rfl⟩ : ∃ g, f = g + 1 := ⟨f - 1, by omega⟩
    refine ⟨s, ?_, by simp [readies], by simpa using hl, rfl, by simp [readies]⟩
    show post dev (exec dev f) _ sure s = _
    unfold post
    rw [hl, List.append_nil, List.getElem?_eq_none (Nat.le_refl _)]
    simp
  | cons x l ih =>
    intro f kept sure s hl hnd hsure hf
    simp only [List.length_cons] at hf
    obtain ⟨f, rfl⟩ : ∃ g, f = g + 1 := ⟨f - 1, by omega⟩
    obtain ⟨hxl, hnd'⟩ := List.nodup_cons.mp hnd
    have hxs : x ∉ s.sure := hsure x (by simp)
    obtain ⟨s1, r1, r2, r3, r4, r5, r6, r7⟩ : ∃ s1, report dev s x = some s1 ∧ s1.sure = s.sure ++ (if (dev s.tick).ready then [x] else []) ∧ s1.list = s.list ∧ s1.dead = s.dead ∧
        s1.prune = s.prune ∧ s1.tick = s.tick + 1 ∧ s1.log = s.log ++ (if (dev s.tick).ready then [x] else []).map .ready := by
      unfold report
      simp only [hs s.tick, List.foldl_nil]
      by_cases c1 : (dev s.tick).ready = true
      · simp only [c1, if_true]
        refine ⟨_, rfl, ?_, rfl, rfl, rfl, rfl, rfl⟩
        show unlink x s.sure ++ [x] = _
        unfold unlink
        rw [List.filter_eq_self.mpr]
        intro y hy; simp; rintro rfl; exact hxs hy
      · simp only [c1]
        rw [if_neg (by simp), if_neg (by simpa using hxs)]
        exact ⟨_, rfl, by simp, rfl, rfl, rfl, rfl, by simp⟩
    have hstep : exec dev (f + 1) (.post kept.length sure) s = (if isok s1 x then exec dev f (.post (kept.length + 1) sure) s1
        else if s1.prune then exec dev f (.post kept.length true) { s1 with list := s1.list.eraseIdx kept.length }
        else exec dev f (.post (kept.length + 1) true) s1) := by
      show post dev (exec dev f) _ sure s = _
      unfold post
      rw [hl, List.getElem?_append_right (Nat.le_refl _), Nat.sub_self]
      simp only [List.getElem?_cons_zero, hs s.tick]
      rw [r1]
      have e0 : (if kept.length = 0 then 0 else kept.length + prepends []) = kept.length := by
        have : prepends [] = 0 := rfl
        rw [this]; split <;> omega
      rw [e0]
      rfl
    have hsure1 : ∀ y ∈ l, y ∉ s1.sure := by
      intro y hy
      rw [r2, List.mem_append]
      rintro (h | h)
      · exact hsure y (by simp [hy]) h
      · split at h
        · simp at h; subst h; exact hxl hy
        · simp at h
    have hiso : ∀ y, isok s1 y = isok s y := by intro y; unfold isok; rw [r4]
    rw [hstep]
    by_cases c1 : isok s1 x = true
    · rw [if_pos c1]
      obtain ⟨s2, k1, k2, k3, k4, k5⟩ := ih f (kept ++ [x]) sure s1 (by rw [r3, hl]; simp) hnd' hsure1 (by omega)
      rw [List.length_append] at k1
      refine ⟨s2, ?_, ?_, ?_, k4.trans r4, ?_⟩
      · rw [show kept.length + 1 = kept.length + [x].length from rfl, k1]
        have hx2 : isok s x = true := by rw [← hiso]; exact c1
        simp only [hiso, List.any_cons, hx2, Bool.not_true, Bool.false_or]
      · rw [k2, r2, r6]; simp [readies]
      · rw [k3, r5]
        have hx2 : isok s x = true := by rw [← hiso]; exact c1
        have : l.filter (isok s1) = l.filter (isok s) := by congr 1; funext y; exact hiso y
        rw [this]
        split <;> simp [hx2]
      · rw [k5, r7, r6]; simp [readies]
    · rw [if_neg c1]
      have hx2 : isok s x = false := by rw [← hiso]; simpa using c1
      have hf2 : l.filter (isok s1) = l.filter (isok s) := by congr 1; funext y; exact hiso y
      by_cases c2 : s1.prune = true
      · rw [if_pos c2]
        obtain ⟨s2, k1, k2, k3, k4, k5⟩ := ih f kept true { s1 with list := s1.list.eraseIdx kept.length } (by
          show s1.list.eraseIdx kept.length = _
          rw [r3, hl, List.eraseIdx_append_of_length_le (Nat.le_refl _), Nat.sub_self]; rfl) hnd' hsure1 (by omega)
        refine ⟨s2, ?_, ?_, ?_, k4.trans r4, ?_⟩
        · rw [k1]; simp [hx2]
        · rw [k2]
          show s1.sure ++ readies dev s1.tick l = _
          rw [r2, r6]; simp [readies]
        · rw [k3]
          show kept ++ (if s1.prune = true then l.filter (isok s1) else l) = _
          rw [hf2]
          rw [r5] at c2
          rw [r5, if_pos c2, if_pos c2, List.filter_cons_of_neg (by simp [hx2])]
        · rw [k5]
          show s1.log ++ (readies dev s1.tick l).map _ = _
          rw [r7, r6]; simp [readies]
      · rw [if_neg c2]
        obtain ⟨s2, k1, k2, k3, k4, k5⟩ := ih f (kept ++ [x]) true s1 (by rw [r3, hl]; simp) hnd' hsure1 (by omega)
        rw [List.length_append] at k1
        refine ⟨s2, ?_, ?_, ?_, k4.trans r4, ?_⟩
        · rw [show kept.length + 1 = kept.length + [x].length from rfl, k1]; simp [hx2]
        · rw [k2, r2, r6]; simp [readies]
        · rw [k3]
          rw [if_neg c2]
          rw [r5] at c2
          rw [if_neg c2]; simp
        · rw [k5, r7, r6]; simp [readies]

end Sl

variable (dev : Nat → Ans)

/-- **C52.** For every history of a list, with any behaviour of the streams and any code in their callbacks (which may use the list again): each call is that of the stream that was next of those which
had reported ready and were not yet called or removed; and those not called yet are in `sure_thing`. -/
theorem C52_calls (fuel : Nat) (h : List Op) (s : St) (b : Bool) (hr : exec dev fuel (.ops h) new = some (s, b)) : pending s.log [] = some s.sure :=
  Sl.exec_inv dev fuel _ new _ _ (show pending [] [] = some [] from rfl) hr

/-- **C52.** When `callback` returns there is none left to call. -/
theorem C52_all_called (fuel : Nat) (h : List Op) (s s' : St) (b b' : Bool) (hr : exec dev fuel (.ops h) new = some (s, b)) (hc : exec dev fuel (.op .callback) s = some (s', b')) :
    pending s'.log [] = some [] := by
  have h1 := Sl.exec_inv dev fuel _ _ _ _ (C52_calls dev fuel h s b hr) hc
  have h2 : s'.sure = [] := by
    cases fuel with
    | zero => simp [exec] at hc
    | succ f =>
      obtain ⟨r, _, k2⟩ := Option.bind_eq_some_iff.mp (show (exec dev f (.ops (dev s.tick).code) { s with tick := s.tick + 1 }).bind _ = some (s', b') from hc)
      exact Sl.loop_empty dev f _ _ _ k2
  have h3 : pending s'.log [] = some s'.sure := h1
  rw [h3, h2]

/-- **C52.** So over every history no stream is called more often than it reported ready. -/
theorem C52_at_most_once (fuel : Nat) (h : List Op) (s : St) (b : Bool) (hr : exec dev fuel (.ops h) new = some (s, b)) (x : Nat) : s.log.count (.called x) ≤ s.log.count (.ready x) := by
  have := Sl.pending_count x _ _ _ (C52_calls dev fuel h s b hr)
  simp only [List.count_nil] at this
  omega

/-- **C52.** If callbacks neither `unlink` streams nor start another round (but they may add streams, close them, or remove them with an iterator), then `callback` calls exactly
those that are in `sure_thing`, each once, in order. -/
theorem C52_exactly (m : Nat) (hd : ∀ i, (∀ o ∈ (dev i).code, Sl.Calm o) ∧ (dev i).code.length ≤ m) (s : St) (fuel : Nat) (hf : s.sure.length + m + 3 < fuel) :
    ∃ s' b, exec dev fuel (.op .callback) s = some (s', b) ∧ s'.sure = [] ∧ s'.log = s.log ++ s.sure.map .called := by
  obtain ⟨f, rfl⟩ : ∃ g, fuel = g + 1 := ⟨fuel - 1, by omega⟩
  obtain ⟨s1, b1, h1, h2, h3⟩ := Sl.calm_ops dev (dev s.tick).code f { s with tick := s.tick + 1 } (hd _).1 (by have := (hd s.tick).2; omega)
  obtain ⟨s2, b2, k1, k2, k3⟩ := Sl.calm_loop dev m hd s.sure f s1 h2 (by omega)
  refine ⟨s2, b2, ?_, k2, by rw [k3, h3]⟩
  show (exec dev f (.ops (dev s.tick).code) { s with tick := s.tick + 1 }).bind _ = _
  rw [h1]; exact k1

/-- **C52.** If streams change nothing in `post_select`, and none is in the list twice: after `pre_select`, `post_select` asks each once in order, those to be called are exactly those that answer that they
are ready, exactly those that are not ok leave the list (if `auto_prune` is on), and it returns true if it was asked to, or one is to be called, or one is not ok. -/
theorem C52_ready (hs : Sl.Still dev) (s : St) (hn : s.list.Nodup) (h0 : s.sure = []) (fuel : Nat) (hf : s.list.length + 1 < fuel) :
    ∃ s', exec dev fuel (.op .postSelect) s = some (s', (dev s.tick).ready || s.list.any (fun x => !isok s x) || !s'.sure.isEmpty) ∧
      s'.sure = Sl.readies dev (s.tick + 1) s.list ∧ s'.list = (if s.prune then s.list.filter (isok s) else s.list) := by
  obtain ⟨f, rfl⟩ : ∃ g, fuel = g + 1 := ⟨fuel - 1, by omega⟩
  obtain ⟨s', h1, h2, h3, _, _⟩ := Sl.post_still hs s.list f [] (dev s.tick).ready { s with tick := s.tick + 1 } (by simp) hn (by simp [h0]) (by omega)
  refine ⟨s', h1, ?_, by rw [List.nil_append] at h3; exact h3⟩
  simpa [h0] using h2

/-- **C52.** Streams may also close streams and append streams to the list in `post_select`: with `auto_prune`, a stream that was not ok before `post_select` is not in the list after it, and one
that is ok after it is not lost. -/
theorem C52_pruned_partial (hn : Sl.NoPrepend dev) (fuel : Nat) (s s' : St) (b : Bool) (hp : s.prune = true) (hr : exec dev fuel (.op .postSelect) s = some (s', b)) :
    (∀ x, isok s x = false → x ∉ s'.list) ∧ (∀ x ∈ s.list, isok s' x = true → x ∈ s'.list) := by
  cases fuel with
  | zero => simp [exec] at hr
  | succ f =>
    obtain ⟨_, h2, h3⟩ := Sl.post_grow hn f 0 (dev s.tick).ready { s with tick := s.tick + 1 } s' b s.dead (fun _ h => h) hp (by simp) hr
    refine ⟨fun x hx hm => h2 x hm (by simpa [isok] using hx), fun x hx hx' => h3 x hx (by simpa [isok] using hx')⟩

/-- **C52.** But if the first stream of the list prepends one in `post_select` and is not ok then, the new one is removed in its place. -/
theorem C52_prepend_fails : ∃ (dev : Nat → Ans) (s s' : St), (exec dev 10 (.op .postSelect) s).map (·.1) = some s' ∧ s.list = [1] ∧ isok s' 2 = true ∧ s'.list = [] ∧
    .prepend 2 ∈ (dev 1).acts :=
  ⟨fun i => if i = 1 then ⟨false, [.prepend 2, .kill 1], []⟩ else ⟨false, [], []⟩, { new with list := [1] }, ⟨[], [], [1], true, 3, []⟩, by decide +kernel⟩

/-- **C52.** And if a stream is in the list twice, ready when asked first and not ready when asked again, an assertion fails. -/
theorem C52_twice_fails : ∃ (dev : Nat → Ans) (s : St), s.list = [1, 1] ∧ ∀ fuel, exec dev fuel (.op .postSelect) s = none := by
  refine ⟨fun i => ⟨i == 1, [], []⟩, { new with list := [1, 1] }, rfl, ?_⟩
  intro fuel
  match fuel with
  | 0 => rfl
  | 1 => rfl
  | 2 => rfl
  | f + 3 => rfl

namespace Sl

/-- Streams 1 and 3 are ready, stream 2 is not ok; stream 1 adds 4 and removes 3 with an iterator when it is called. -/
def day : Nat → Ans := fun i => ⟨i == 1 || i == 3, [], if i == 5 then [.append 4, .iterRemove 3, .kill 3] else []⟩

/-- Stream 1 unlinks 3 when it is called, and starts another round. -/
def night : Nat → Ans := fun i => ⟨i == 1 || i == 3, [], if i == 5 then [.unlink 3, .preSelect, .postSelect, .callback] else []⟩

def three : List Op := [.append 1, .append 2, .append 3, .kill 2, .preSelect, .postSelect]

end Sl

example : (exec Sl.day 40 (.ops Sl.three) new).map (·.1) = some ⟨[1, 3], [1, 3], [2], true, 4, [.start, .ready 1, .ready 3]⟩ := by decide +kernel
example : (exec Sl.day 40 (.ops (Sl.three ++ [.callback])) new).map (·.1) = some ⟨[1, 4], [], [3, 2], true, 7, [.start, .ready 1, .ready 3, .called 1, .called 3]⟩ := by decide +kernel
example : (exec Sl.night 40 (.ops (Sl.three ++ [.callback])) new).map (·.1.log) = some [.start, .ready 1, .ready 3, .called 1, .removed 3, .start] := by decide +kernel
example : Sl.Still Sl.day ∧ (∀ i, (∀ o ∈ (Sl.day i).code, Sl.Calm o) ∧ (Sl.day i).code.length ≤ 3) := by
  refine ⟨fun _ => rfl, fun i => ?_⟩
  by_cases h : (i == 5) = true
  · simp [Sl.day, h, Sl.Calm]
  · simp [Sl.day, h]
example : Sl.NoPrepend (fun _ => ⟨true, [.append 3, .kill 3], []⟩) := by intro i x; simp

end Props
