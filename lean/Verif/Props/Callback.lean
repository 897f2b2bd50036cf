import Verif.Model.Callback
/- C113: callbacks. -/
namespace Props
open Wv.Callback Spec.Callback

namespace CbP

theorem mem_put (c e : Nat) (l : List Nat) : e ∈ put c l ↔ e = c ∨ e ∈ l := by
  induction l with
  | nil => simp [put]
  | cons d l ih =>
    unfold put
    split
    · simp
    · rw [List.mem_cons, ih, List.mem_cons]
      constructor
      · rintro (h | h | h) <;> simp [h]
      · rintro (h | h | h) <;> simp [h]

theorem put_sorted (c : Nat) (l : List Nat) (h : l.Pairwise (· < ·)) (hc : c ∉ l) : (put c l).Pairwise (· < ·) := by
  induction l with
  | nil => simp [put]
  | cons d l ih =>
    obtain ⟨h1, h2⟩ := List.pairwise_cons.1 h
    unfold put
    split
    · rename_i hlt
      refine List.pairwise_cons.2 ⟨?_, h⟩
      intro e he
      rcases List.mem_cons.1 he with e' | e'
      · rw [e']; exact hlt
      · exact Nat.lt_trans hlt (h1 e e')
    · rename_i hlt
      have hne : c ≠ d := fun e => hc (by simp [e])
      refine List.pairwise_cons.2 ⟨?_, ih h2 (fun e => hc (by simp [e]))⟩
      intro e he
      rcases (mem_put c e l).1 he with e' | e'
      · omega
      · exact h1 e e'

theorem nodup_of (l : List Nat) (h : l.Pairwise (· < ·)) : l.Nodup := h.imp fun x => Nat.ne_of_lt x

theorem step_ok (cur : Option Nat) (l l' : List Nat) (o : Op) (h : l.Pairwise (· < ·)) (hs : step cur l o = .ok l') :
    l'.Pairwise (· < ·) ∧ (∀ c, c ∈ l' ↔ (o = .add c ∨ (c ∈ l ∧ o ≠ .del c))) := by
  cases o with
  | add a =>
    unfold step at hs
    dsimp only at hs
    split at hs
    · cases hs
    · rename_i hc
      cases hs
      refine ⟨put_sorted a l h hc, ?_⟩
      intro c
      rw [mem_put]
      constructor
      · rintro (e | e)
        · left; rw [e]
        · right; exact ⟨e, by simp⟩
      · rintro (e | e)
        · left; cases e; rfl
        · exact Or.inr e.1
  | del a =>
    unfold step at hs
    dsimp only at hs
    split at hs
    · cases hs
    · split at hs
      · cases hs
      · cases hs
        refine ⟨h.sublist List.erase_sublist, ?_⟩
        intro c
        rw [(nodup_of l h).mem_erase_iff]
        constructor
        · rintro ⟨e1, e2⟩
          right
          exact ⟨e2, by intro e; cases e; exact e1 rfl⟩
        · rintro (e | ⟨e1, e2⟩)
          · cases e
          · exact ⟨fun e => e2 (by rw [e]), e1⟩

theorem steps_ok (cur : Option Nat) (os : List Op) : ∀ l l', l.Pairwise (· < ·) → steps cur os l = .ok l' →
    l'.Pairwise (· < ·) ∧ (∀ c, c ∈ l → .del c ∉ os → c ∈ l') ∧ (∀ c, c ∈ l' → c ∈ l ∨ .add c ∈ os) ∧ (∀ c, .add c ∉ os → .del c ∈ os → c ∉ l') := by
  induction os with
  | nil =>
    intro l l' h hs
    cases hs
    exact ⟨h, fun c hc _ => hc, fun c hc => Or.inl hc, fun c _ h => by simp at h⟩
  | cons o os ih =>
    intro l l' h hs
    unfold steps at hs
    cases ho : step cur l o with
    | error b => rw [ho] at hs; cases hs
    | ok l1 =>
      rw [ho] at hs
      obtain ⟨p1, p2⟩ := step_ok cur l l1 o h ho
      obtain ⟨q1, q2, q3, q4⟩ := ih l1 l' p1 hs
      refine ⟨q1, ?_, ?_, ?_⟩
      · intro c hc hd
        exact q2 c ((p2 c).2 (Or.inr ⟨hc, fun e => hd (by simp [e])⟩)) (fun e => hd (by simp [e]))
      · intro c hc
        rcases q3 c hc with e | e
        · rcases (p2 c).1 e with e' | e'
          · exact Or.inr (by simp [e'])
          · exact Or.inl e'.1
        · exact Or.inr (by simp [e])
      · intro c ha hd hc
        have ha' : .add c ∉ os := fun e => ha (by simp [e])
        by_cases hd' : .del c ∈ os
        · exact q4 c ha' hd' hc
        · have ho' : o = .del c := by
            rcases List.mem_cons.1 hd with e | e
            · exact e.symm
            · exact absurd e hd'
          rcases q3 c hc with e | e
          · rcases (p2 c).1 e with e' | e'
            · rw [ho'] at e'; cases e'
            · exact e'.2 ho'
          · exact ha' e

/-- What is still to come after `it`. -/
def Above (it : Option Nat) (c : Nat) : Prop := ∀ k, it = some k → k < c

theorem next_none (it : Option Nat) (l : List Nat) (h : next it l = none) : ∀ c ∈ l, ¬ Above it c := by
  intro c hc ha
  cases it with
  | none =>
    cases l with
    | nil => simp at hc
    | cons d l => cases h
  | some k =>
    have := List.find?_eq_none.1 h c hc
    exact this (by simpa using ha k rfl)

theorem next_some (it : Option Nat) (l : List Nat) (c : Nat) (hl : l.Pairwise (· < ·)) (h : next it l = some c) :
    c ∈ l ∧ Above it c ∧ ∀ e ∈ l, Above it e → c ≤ e := by
  cases it with
  | none =>
    cases l with
    | nil => cases h
    | cons d l =>
      cases h
      refine ⟨by simp, fun k hk => (by cases hk), ?_⟩
      intro e he _
      rcases List.mem_cons.1 he with e' | e'
      · omega
      · exact Nat.le_of_lt ((List.pairwise_cons.1 hl).1 e e')
  | some k =>
    obtain ⟨h1, as, bs, h2, h3⟩ := List.find?_eq_some_iff_append.1 h
    subst h2
    refine ⟨by simp, fun k' hk => by cases hk; simpa using h1, ?_⟩
    intro e he ha
    have hk := ha k rfl
    rcases List.mem_append.1 he with e' | e'
    · exact absurd (h3 e e') (by simpa using hk)
    · rcases List.mem_cons.1 e' with e'' | e''
      · omega
      · exact Nat.le_of_lt ((List.pairwise_cons.1 (List.pairwise_append.1 hl).2.1).1 e e'')

theorem call_ok (code : Nat → List Op) (n : Nat) : ∀ it l log l', l.Pairwise (· < ·) → call code n it l = .ok (log, some l') →
    log.Pairwise (· < ·) ∧ (∀ c ∈ log, Above it c) ∧ l'.Pairwise (· < ·) ∧
    (∀ c ∈ l, Above it c → (∀ d ∈ log, .del c ∉ code d) → c ∈ log) ∧
    (∀ c ∈ log, c ∈ l ∨ ∃ d ∈ log, .add c ∈ code d) ∧
    (∀ c, (∀ e, .add c ∉ code e) → ∀ d ∈ log, d < c → .del c ∈ code d → c ∉ log) := by
  induction n with
  | zero => intro it l log l' _ h; cases h
  | succ n ih =>
    intro it l log l' hl h
    unfold call at h
    cases hn : next it l with
    | none =>
      rw [hn] at h
      cases h
      exact ⟨List.Pairwise.nil, by simp, hl, fun c hc ha => absurd ha (next_none it l hn c hc), by simp, by simp⟩
    | some c =>
      rw [hn] at h
      dsimp only at h
      cases hs : steps (some c) (code c) l with
      | error b => rw [hs] at h; cases h
      | ok l1 =>
        rw [hs] at h
        dsimp only at h
        cases hr : call code n (some c) l1 with
        | error b => rw [hr] at h; cases h
        | ok x =>
          obtain ⟨lg, r⟩ := x
          rw [hr] at h
          dsimp only at h
          cases h
          obtain ⟨s1, s2, s3, s4⟩ := steps_ok (some c) (code c) l l1 hl hs
          obtain ⟨c1, c2, c3, c4, c5, c6⟩ := ih (some c) l1 lg l' s1 hr
          obtain ⟨n1, n2, n3⟩ := next_some it l c hl hn
          refine ⟨List.pairwise_cons.2 ⟨fun e he => c2 e he c rfl, c1⟩, ?_, c3, ?_, ?_, ?_⟩
          · intro e he k hk
            rcases List.mem_cons.1 he with e' | e'
            · rw [e']; exact n2 k hk
            · exact Nat.lt_trans (n2 k hk) (c2 e e' c rfl)
          · intro e he ha hd
            by_cases hec : e = c
            · simp [hec]
            · have : c < e := Nat.lt_of_le_of_ne (n3 e he ha) (Ne.symm hec)
              refine List.mem_cons_of_mem _ (c4 e (s2 e he (hd c (by simp))) (fun k hk => by cases hk; exact this) (fun d hdl => hd d (by simp [hdl])))
          · intro e he
            rcases List.mem_cons.1 he with e' | e'
            · rw [e']; exact Or.inl n1
            · rcases c5 e e' with h1 | ⟨d, h1, h2⟩
              · rcases s3 e h1 with h2 | h2
                · exact Or.inl h2
                · exact Or.inr ⟨c, by simp, h2⟩
              · exact Or.inr ⟨d, by simp [h1], h2⟩
          · intro e ha d hd hlt hdel
            have : e ∉ lg := by
              rcases List.mem_cons.1 hd with h1 | h1
              · subst h1
                intro hel
                rcases c5 e hel with h2 | ⟨d', _, h3⟩
                · exact s4 e (ha d) hdel h2
                · exact ha d' h3
              · exact c6 e ha d h1 hlt hdel
            intro hel
            rcases List.mem_cons.1 hel with h1 | h1
            · subst h1
              rcases List.mem_cons.1 hd with h2 | h2
              · omega
              · have := c2 d h2 e rfl; omega
            · exact this h1

end CbP

/-- C113: a list of callbacks is in order after any calls. -/
theorem C113_sorted (os : List Op) (l : List Nat) (h : steps none os [] = .ok l) : l.Pairwise (· < ·) :=
  (CbP.steps_ok none os [] l List.Pairwise.nil h).1

/-- C113: calling a list of callbacks that do not change it calls each of them once. -/
theorem C113_all (code : Nat → List Op) (l : List Nat) (hl : l.Pairwise (· < ·)) (h : ∀ c ∈ l, code c = []) :
    call code (l.length + 1) none l = .ok (l, some l) := by
  have key : ∀ (b a : List Nat) (it : Option Nat), l = a ++ b → (∀ e ∈ a, ¬ CbP.Above it e) → (∀ e ∈ b, CbP.Above it e) →
      call code (b.length + 1) it l = .ok (b, some l) := by
    intro b
    induction b with
    | nil =>
      intro a it hab ha _
      have : next it l = none := by
        cases hn : next it l with
        | none => rfl
        | some c =>
          obtain ⟨h1, h2, _⟩ := CbP.next_some it l c hl hn
          rw [hab, List.append_nil] at h1
          exact absurd h2 (ha c h1)
      show call code (0 + 1) it l = _
      unfold call
      rw [this]
    | cons c b ih =>
      intro a it hab ha hb
      have hp : (a ++ c :: b).Pairwise (· < ·) := hab ▸ hl
      obtain ⟨_, pcb, hacb⟩ := List.pairwise_append.1 hp
      have hn : next it l = some c := by
        cases hn : next it l with
        | none => exact absurd (hb c (by simp)) (CbP.next_none it l hn c (by rw [hab]; simp))
        | some d =>
          obtain ⟨h1, h2, h3⟩ := CbP.next_some it l d hl hn
          have hle := h3 c (by rw [hab]; simp) (hb c (by simp))
          rw [hab] at h1
          rcases List.mem_append.1 h1 with e | e
          · exact absurd h2 (ha d e)
          · rcases List.mem_cons.1 e with e' | e'
            · rw [e']
            · have := (List.pairwise_cons.1 pcb).1 d e'; omega
      show call code (b.length + 1 + 1) it l = _
      unfold call
      rw [hn]
      dsimp only
      rw [h c (by rw [hab]; simp)]
      simp only [steps]
      rw [ih (a ++ [c]) (some c) (by rw [hab]; simp) ?_ ?_]
      · intro e he ha'
        have hlt := ha' c rfl
        rcases List.mem_append.1 he with e' | e'
        · have := hacb e e' c (by simp); omega
        · simp at e'; omega
      · intro e he k hk
        cases hk
        exact (List.pairwise_cons.1 pcb).1 e he
  exact key l [] none rfl (by simp) (fun e _ k hk => by cases hk)

/-- C113 (partial, if no callback removes itself, see below): whatever callbacks add or remove while the list is called, each is called at most once, and in order; those are
    called that were in the list and that none of those called removed; only those are called that were in the list or that one of those called added; and
    those are not called that one before them removed. -/
theorem C113_changes_partial (code : Nat → List Op) (n : Nat) (l log l' : List Nat) (hl : l.Pairwise (· < ·)) (h : call code n none l = .ok (log, some l')) :
    log.Pairwise (· < ·) ∧ (∀ c ∈ l, (∀ d ∈ log, .del c ∉ code d) → c ∈ log) ∧ (∀ c ∈ log, c ∈ l ∨ ∃ d ∈ log, .add c ∈ code d) ∧
    (∀ c, (∀ e, .add c ∉ code e) → ∀ d ∈ log, d < c → .del c ∈ code d → c ∉ log) := by
  obtain ⟨h1, _, _, h4, h5, h6⟩ := CbP.call_ok code n none l log l' hl h
  exact ⟨h1, fun c hc => h4 c hc (fun k hk => by cases hk), h5, h6⟩

/-- A case: 2 removes 5 and adds 9 and 1. -/
example : call (fun c => if c = 2 then [.del 5, .add 9, .add 1] else []) 9 none [2, 4, 5, 7] = .ok ([2, 4, 7, 9], some [1, 2, 4, 7, 9]) := by rfl

/-- C113 fails: a callback that removes itself. -/
theorem C113_self_fails : ¬ ∀ (code : Nat → List Op) (n : Nat) (l : List Nat), (∀ c, ∀ d, .del d ∈ code c → d ∈ l) → call code n none l ≠ .error .undefined := by
  intro h
  refine h (fun c => if c = 2 then [.del 2] else []) 5 [2, 4] ?_ (by rfl)
  intro c d hd
  by_cases hc : c = 2
  · simp [hc] at hd; simp [hd]
  · simp [hc] at hd

namespace CbP

theorem last_append (d : Nat) (t : List Ev) (e : Ev) : last d (t ++ [e]) = if e.who = d then some e else last d t := by
  unfold last
  rw [List.filter_append]
  by_cases h : e.who = d
  · rw [if_pos h, List.filter_cons_of_pos (by simpa using h)]; simp
  · rw [if_neg h, List.filter_cons_of_neg (by simpa using h)]; simp

theorem right_append (t : List Ev) (e : Ev) (h : Right t) (he : ∀ d x, e = .ran d x → last d t = some (.called d x)) : Right (t ++ [e]) := by
  intro pre d x post heq
  rcases List.eq_nil_or_concat post with hp | ⟨q, z, hp⟩
  · subst hp
    have := List.append_inj' heq rfl
    rw [← this.1]
    exact he d x (by simpa using this.2)
  · subst hp
    rw [List.concat_eq_append] at heq
    have : t ++ [e] = (pre ++ .ran d x :: q) ++ [z] := by rw [heq]; simp
    have := List.append_inj' this rfl
    exact h pre d x q this.1

/-- `rem`: streams that are to be run in this round. -/
structure J (rem : List Nat) (s : St) : Prop where
  armed : ∀ d t, s.strs[d]? = some t → t.armed = true → ∃ x, t.args = some x ∧ last d s.log = some (.called d x)
  idle : ∀ d t, s.strs[d]? = some t → t.armed = false → ∀ x, last d s.log ≠ some (.called d x)
  out : ∀ d, s.strs.length ≤ d → last d s.log = none
  gone : ∀ d t, s.strs[d]? = some t → t.gone = true → t.open_ = false ∧ (t.armed = true → d ∈ rem)
  right : Right s.log
  nodup : rem.Nodup
  ready : ∀ d ∈ rem, ∃ t, s.strs[d]? = some t ∧ t.armed = true

theorem getElem?_push (l : List Str) (a t : Str) (d : Nat) : (l ++ [a])[d]? = some t → l[d]? = some t ∨ (d = l.length ∧ t = a) := by
  intro h
  by_cases hd : d < l.length
  · rw [List.getElem?_append_left hd] at h; exact Or.inl h
  · rw [List.getElem?_append_right (by omega)] at h
    have : d - l.length = 0 := by
      rcases Nat.eq_zero_or_pos (d - l.length) with e | e
      · exact e
      · rw [List.getElem?_eq_none (by simp; omega)] at h; cases h
    rw [this] at h
    right
    exact ⟨by omega, by simpa using h.symm⟩

theorem J.push {rem : List Nat} {s : St} (h : J rem s) : J rem { s with strs := s.strs ++ [{}] } where
  armed := by
    intro d t ht ha
    rcases getElem?_push _ _ _ _ ht with e | ⟨_, e⟩
    · exact h.armed d t e ha
    · subst e; cases ha
  idle := by
    intro d t ht ha x
    rcases getElem?_push _ _ _ _ ht with e | ⟨e1, e⟩
    · exact h.idle d t e ha x
    · dsimp only
      rw [h.out d (by omega)]; simp
  out := by
    intro d hd
    exact h.out d (by simp at hd; omega)
  gone := by
    intro d t ht hg
    rcases getElem?_push _ _ _ _ ht with e | ⟨_, e⟩
    · exact h.gone d t e hg
    · subst e; cases hg
  right := h.right
  nodup := h.nodup
  ready := by
    intro d hd
    obtain ⟨t, ht, ha⟩ := h.ready d hd
    refine ⟨t, ?_, ha⟩
    obtain ⟨hl, _⟩ := List.getElem?_eq_some_iff.1 ht
    dsimp only
    rw [List.getElem?_append_left hl]; exact ht

theorem set_get {l : List Str} {d e : Nat} {a t : Str} (h : (l.set d a)[e]? = some t) : (e = d ∧ t = a) ∨ (e ≠ d ∧ l[e]? = some t) := by
  rw [List.getElem?_set] at h
  split at h
  · rename_i hd
    split at h
    · cases h; exact Or.inl ⟨hd.symm, rfl⟩
    · cases h
  · rename_i hd
    exact Or.inr ⟨fun x => hd x.symm, h⟩

theorem set_self {l : List Str} {d : Nat} {a t : Str} (h : l[d]? = some t) : (l.set d a)[d]? = some a := by
  obtain ⟨hl, _⟩ := List.getElem?_eq_some_iff.1 h
  rw [List.getElem?_set, if_pos rfl, if_pos hl]

theorem set_other {l : List Str} {d e : Nat} {a : Str} (h : e ≠ d) : (l.set d a)[e]? = l[e]? := by
  rw [List.getElem?_set, if_neg (Ne.symm h)]

theorem J.call {rem : List Nat} {s : St} (h : J rem s) (d x : Nat) (t : Str) (ht : s.strs[d]? = some t) (ho : t.open_ = true) :
    J rem { strs := s.strs.set d { t with armed := true, args := some x }, log := s.log ++ [.called d x] } where
  armed := by
    intro e u hu ha
    dsimp only
    rw [last_append]
    rcases set_get hu with ⟨e1, e2⟩ | ⟨e1, e2⟩
    · subst e1 e2
      exact ⟨x, rfl, by simp [Ev.who]⟩
    · rw [if_neg (by simpa [Ev.who] using Ne.symm e1)]
      exact h.armed e u e2 ha
  idle := by
    intro e u hu ha y
    dsimp only
    rw [last_append]
    rcases set_get hu with ⟨e1, e2⟩ | ⟨e1, e2⟩
    · subst e2; cases ha
    · rw [if_neg (by simpa [Ev.who] using Ne.symm e1)]
      exact h.idle e u e2 ha y
  out := by
    intro e he
    dsimp only at he ⊢
    rw [List.length_set] at he
    obtain ⟨hl, _⟩ := List.getElem?_eq_some_iff.1 ht
    rw [last_append, if_neg (by simp [Ev.who]; omega)]
    exact h.out e he
  gone := by
    intro e u hu hg
    rcases set_get hu with ⟨e1, e2⟩ | ⟨e1, e2⟩
    · subst e1 e2
      exact absurd (h.gone e t ht hg).1 (by simp [ho])
    · exact h.gone e u e2 hg
  right := right_append _ _ h.right (by intro a b hab; cases hab)
  nodup := h.nodup
  ready := by
    intro e he
    by_cases hd : e = d
    · subst hd; exact ⟨_, set_self ht, rfl⟩
    · obtain ⟨u, hu, ha⟩ := h.ready e he
      exact ⟨u, by dsimp only; rw [set_other hd]; exact hu, ha⟩

theorem J.destroy {rem : List Nat} {s : St} (h : J rem s) (d : Nat) (t : Str) (ht : s.strs[d]? = some t) :
    J rem { s with strs := s.strs.set d { t with open_ := false } } where
  armed := by
    intro e u hu ha
    rcases set_get hu with ⟨e1, e2⟩ | ⟨e1, e2⟩
    · subst e1 e2; exact h.armed e t ht ha
    · exact h.armed e u e2 ha
  idle := by
    intro e u hu ha y
    rcases set_get hu with ⟨e1, e2⟩ | ⟨e1, e2⟩
    · subst e1 e2; exact h.idle e t ht ha y
    · exact h.idle e u e2 ha y
  out := by
    intro e he
    exact h.out e (by simpa using he)
  gone := by
    intro e u hu hg
    rcases set_get hu with ⟨e1, e2⟩ | ⟨e1, e2⟩
    · subst e1 e2; exact ⟨rfl, (h.gone e t ht hg).2⟩
    · exact h.gone e u e2 hg
  right := h.right
  nodup := h.nodup
  ready := by
    intro e he
    by_cases hd : e = d
    · subst hd
      obtain ⟨u, hu, ha⟩ := h.ready e he
      rw [ht] at hu; cases hu
      exact ⟨_, set_self ht, ha⟩
    · obtain ⟨u, hu, ha⟩ := h.ready e he
      exact ⟨u, by dsimp only; rw [set_other hd]; exact hu, ha⟩

/-- Only calls are added to what happened. -/
def Calls (a b : List Ev) : Prop := ∃ ext, b = a ++ ext ∧ ∀ e ∈ ext, ∃ d x, e = .called d x

theorem Calls.refl (a : List Ev) : Calls a a := ⟨[], by simp, by simp⟩
theorem Calls.trans {a b c : List Ev} (h1 : Calls a b) (h2 : Calls b c) : Calls a c := by
  obtain ⟨x, hx, hx'⟩ := h1
  obtain ⟨y, hy, hy'⟩ := h2
  refine ⟨x ++ y, by rw [hy, hx]; simp, ?_⟩
  intro e he
  rcases List.mem_append.1 he with h | h
  · exact hx' e h
  · exact hy' e h

theorem J.do {rem : List Nat} {s s' : St} (h : J rem s) (run : Option Nat) (o : Do) (hs : s.do run o = some s') : J rem s' ∧ Calls s.log s'.log := by
  unfold St.do at hs
  cases o with
  | make => cases hs; exact ⟨h.push, Calls.refl _⟩
  | copy d =>
    dsimp only at hs
    split at hs
    · cases hs
    · split at hs
      · cases hs; exact ⟨h.push, Calls.refl _⟩
      · cases hs
  | call d x =>
    dsimp only at hs
    split at hs
    · cases hs
    · rename_i t ht
      split at hs
      · cases hs
      · rename_i hc
        cases hs
        refine ⟨h.call d x t ht ?_, ⟨[.called d x], rfl, by simp⟩⟩
        cases ho : t.open_ with
        | true => rfl
        | false => simp [ho] at hc
  | destroy d =>
    dsimp only at hs
    split at hs
    · cases hs
    · rename_i t ht
      split at hs
      · cases hs; exact ⟨h.destroy d t ht, Calls.refl _⟩
      · cases hs

theorem J.dos {rem : List Nat} (run : Option Nat) (os : List Do) : ∀ {s s' : St}, J rem s → St.dos run os s = some s' → J rem s' ∧ Calls s.log s'.log := by
  induction os with
  | nil => intro s s' h hs; cases hs; exact ⟨h, Calls.refl _⟩
  | cons o os ih =>
    intro s s' h hs
    unfold St.dos at hs
    cases ho : s.do run o with
    | none => rw [ho] at hs; cases hs
    | some s1 =>
      rw [ho] at hs
      obtain ⟨h1, h2⟩ := h.do run o ho
      obtain ⟨h3, h4⟩ := ih h1 hs
      exact ⟨h3, h2.trans h4⟩

theorem J.run {d : Nat} {rem : List Nat} {s s' : St} (code : Nat → Nat → List Do) (h : J (d :: rem) s) (hs : s.run code d = some s') :
    J rem s' ∧ ∃ x ext, s'.log = s.log ++ .ran d x :: ext := by
  obtain ⟨t, ht, ha⟩ := h.ready d (by simp)
  obtain ⟨x, hx, hl⟩ := h.armed d t ht ha
  have hn := List.nodup_cons.1 h.nodup
  unfold St.run at hs
  rw [ht] at hs
  dsimp only at hs
  rw [hx] at hs
  dsimp only at hs
  have hJ : J rem { strs := s.strs.set d { open_ := t.open_, armed := false, args := some x, gone := t.gone }, log := s.log ++ [.ran d x] } := by
    refine ⟨?_, ?_, ?_, ?_, ?_, hn.2, ?_⟩
    · intro e u hu hua
      rcases set_get hu with ⟨e1, e2⟩ | ⟨e1, e2⟩
      · subst e2; cases hua
      · dsimp only
        rw [last_append, if_neg (by simpa [Ev.who] using Ne.symm e1)]
        exact h.armed e u e2 hua
    · intro e u hu hua y
      dsimp only
      rw [last_append]
      rcases set_get hu with ⟨e1, e2⟩ | ⟨e1, e2⟩
      · rw [if_pos (by simp [Ev.who, e1])]; simp
      · rw [if_neg (by simpa [Ev.who] using Ne.symm e1)]
        exact h.idle e u e2 hua y
    · intro e he
      dsimp only at he ⊢
      rw [List.length_set] at he
      obtain ⟨hl', _⟩ := List.getElem?_eq_some_iff.1 ht
      rw [last_append, if_neg (by simp [Ev.who]; omega)]
      exact h.out e he
    · intro e u hu hg
      rcases set_get hu with ⟨e1, e2⟩ | ⟨e1, e2⟩
      · subst e1 e2
        exact ⟨(h.gone e t ht hg).1, fun hc => by cases hc⟩
      · refine ⟨(h.gone e u e2 hg).1, fun hc => ?_⟩
        rcases List.mem_cons.1 ((h.gone e u e2 hg).2 hc) with h' | h'
        · exact absurd h' e1
        · exact h'
    · refine right_append _ _ h.right ?_
      intro a b hab
      cases hab
      exact hl
    · intro e he
      obtain ⟨u, hu, hua⟩ := h.ready e (by simp [he])
      have hne : e ≠ d := fun x => hn.1 (x ▸ he)
      exact ⟨u, by dsimp only; rw [set_other hne]; exact hu, hua⟩
  have ht' : { t with armed := false } = { open_ := t.open_, armed := false, args := some x, gone := t.gone : Str } := by rw [← hx]
  rw [← hx] at hJ
  rw [hx] at hJ
  obtain ⟨h1, ext, h2, _⟩ := J.dos (some d) (code d x) hJ (by rw [← hs, ← hx])
  exact ⟨h1, x, ext, by rw [h2]; simp⟩

theorem J.runs (code : Nat → Nat → List Do) (l : List Nat) : ∀ {s s' : St}, J l s → St.runs code l s = some s' →
    J [] s' ∧ ∃ ext, s'.log = s.log ++ ext ∧ ∀ d ∈ l, ∃ x, .ran d x ∈ ext := by
  induction l with
  | nil => intro s s' h hs; cases hs; exact ⟨h, [], by simp, by simp⟩
  | cons d l ih =>
    intro s s' h hs
    unfold St.runs at hs
    cases ho : s.run code d with
    | none => rw [ho] at hs; cases hs
    | some s1 =>
      rw [ho] at hs
      obtain ⟨h1, x, e1, h2⟩ := h.run code ho
      obtain ⟨h3, e2, h4, h5⟩ := ih h1 hs
      refine ⟨h3, .ran d x :: e1 ++ e2, by rw [h4, h2]; simp, ?_⟩
      intro e he
      rcases List.mem_cons.1 he with e' | e'
      · exact ⟨x, by simp [e']⟩
      · obtain ⟨y, hy⟩ := h5 e e'
        exact ⟨y, by simp [hy]⟩

theorem prune_get {s : St} {d : Nat} {u : Str} (h : s.prune.strs[d]? = some u) : ∃ t, s.strs[d]? = some t ∧ u = { t with gone := t.gone || !t.open_ } := by
  unfold St.prune at h
  dsimp only at h
  rw [List.getElem?_map] at h
  cases ht : s.strs[d]? with
  | none => rw [ht] at h; cases h
  | some t => rw [ht] at h; cases h; exact ⟨t, rfl, rfl⟩

theorem get_prune {s : St} {d : Nat} {t : Str} (h : s.strs[d]? = some t) : s.prune.strs[d]? = some { t with gone := t.gone || !t.open_ } := by
  unfold St.prune
  dsimp only
  rw [List.getElem?_map, h]; rfl

theorem mem_sure (s : St) (d : Nat) : d ∈ s.sure ↔ ∃ t, s.strs[d]? = some t ∧ t.armed = true ∧ t.gone = false := by
  unfold St.sure
  rw [List.mem_filter, List.mem_range]
  constructor
  · rintro ⟨h1, h2⟩
    cases ht : s.strs[d]? with
    | none => rw [ht] at h2; cases h2
    | some t =>
      rw [ht] at h2
      exact ⟨t, rfl, by simpa using h2⟩
  · rintro ⟨t, h1, h2, h3⟩
    refine ⟨(List.getElem?_eq_some_iff.1 h1).1, ?_⟩
    rw [h1]; simp [h2, h3]

theorem J.tick {s s' : St} (code : Nat → Nat → List Do) (h : J [] s) (hs : s.tick code = some s') :
    J [] s' ∧ ∃ ext, s'.log = s.log ++ ext ∧ ∀ d ∈ s.sure, ∃ x, .ran d x ∈ ext := by
  have hJ : J s.sure s.prune := by
    refine ⟨?_, ?_, ?_, ?_, h.right, ?_, ?_⟩
    · intro d u hu ha
      obtain ⟨t, ht, rfl⟩ := prune_get hu
      exact h.armed d t ht ha
    · intro d u hu ha x
      obtain ⟨t, ht, rfl⟩ := prune_get hu
      exact h.idle d t ht ha x
    · intro d hd
      refine h.out d ?_
      simpa [St.prune] using hd
    · intro d u hu hg
      obtain ⟨t, ht, rfl⟩ := prune_get hu
      dsimp only at hg ⊢
      cases htg : t.gone with
      | true =>
        obtain ⟨g1, g2⟩ := h.gone d t ht htg
        exact ⟨g1, fun ha => by have := g2 ha; simp at this⟩
      | false =>
        rw [htg] at hg
        refine ⟨by simpa using hg, fun ha => (mem_sure s d).2 ⟨t, ht, ha, htg⟩⟩
    · exact List.Nodup.sublist List.filter_sublist List.nodup_range
    · intro d hd
      obtain ⟨t, ht, ha, _⟩ := (mem_sure s d).1 hd
      exact ⟨_, get_prune ht, ha⟩
  have := J.runs (s := s.prune) code s.sure hJ hs
  exact this

theorem J.hist (code : Nat → Nat → List Do) (l : List (Option Do)) : ∀ {s s' : St}, J [] s → St.hist code l s = some s' → J [] s' := by
  induction l with
  | nil => intro s s' h hs; cases hs; exact h
  | cons o l ih =>
    intro s s' h hs
    cases o with
    | none =>
      unfold St.hist at hs
      cases ht : s.tick code with
      | none => rw [ht] at hs; cases hs
      | some s1 => rw [ht] at hs; exact ih (h.tick code ht).1 hs
    | some o =>
      unfold St.hist at hs
      cases ht : s.do none o with
      | none => rw [ht] at hs; cases hs
      | some s1 => rw [ht] at hs; exact ih (h.do none o ht).1 hs

theorem J.new : J [] {} where
  armed := by intro d t h; simp at h
  idle := by intro d t h; simp at h
  out := by intro d _; rfl
  gone := by intro d t h; simp at h
  right := by intro pre d x post h; simp at h
  nodup := List.nodup_nil
  ready := by simp

end CbP

/-- C113: in every history, whatever the functions do, the function of a delayed callback runs just for the last call that it had not run for, with its
    argument, even if the callback was destroyed since. -/
theorem C113_delayed (code : Nat → Nat → List Do) (l : List (Option Do)) (s : St) (h : St.hist code l {} = some s) : Right s.log :=
  (CbP.J.hist code l CbP.J.new h).right

/-- C113: it runs in the next round of the main loop. -/
theorem C113_next (code : Nat → Nat → List Do) (l : List (Option Do)) (s s' : St) (h : St.hist code l {} = some s) (ht : s.tick code = some s') :
    ∃ ext, s'.log = s.log ++ ext ∧ ∀ d x, last d s.log = some (.called d x) → ∃ y, .ran d y ∈ ext := by
  have hJ := CbP.J.hist code l CbP.J.new h
  obtain ⟨_, ext, h1, h2⟩ := hJ.tick code ht
  refine ⟨ext, h1, ?_⟩
  intro d x hl
  apply h2
  cases hd : s.strs[d]? with
  | none =>
    have := hJ.out d (by simpa using hd)
    rw [this] at hl; cases hl
  | some t =>
    cases ha : t.armed with
    | false => exact absurd hl (hJ.idle d t hd ha x)
    | true =>
      cases hg : t.gone with
      | false => exact (CbP.mem_sure s d).2 ⟨t, hd, ha, hg⟩
      | true =>
        have := (hJ.gone d t hd hg).2 ha
        simp at this

/-- C113: it does not run before. -/
theorem C113_later (code : Nat → Nat → List Do) (l : List (Option Do)) (s s' : St) (h : St.hist code l {} = some s) (o : Do) (ht : s.do none o = some s') :
    ∃ ext, s'.log = s.log ++ ext ∧ ∀ e ∈ ext, ∃ d x, e = .called d x :=
  ((CbP.J.hist code l CbP.J.new h).do none o ht).2

/-- C113: a callback that was destroyed leaves nothing in the list after the next round. -/
theorem C113_gone (s : St) (d : Nat) (t : Str) (h : s.strs[d]? = some t) (ho : t.open_ = false) : ∃ u, s.prune.strs[d]? = some u ∧ u.gone = true := by
  exact ⟨_, CbP.get_prune h, by simp [ho]⟩

/-- A case: called twice, and destroyed; the function of the second calls the third. -/
example : (St.hist (fun d x => if d = 1 then [.call 2 (x + 1)] else []) [some .make, some .make, some (.copy 0), some (.call 0 5), some (.call 0 6), some (.destroy 0),
    some (.call 1 7), none, none, none] {}).map (·.log) =
    some [.called 0 5, .called 0 6, .called 1 7, .ran 0 6, .ran 1 7, .called 2 8, .ran 2 8] := by decide +kernel

/-- C113 fails: of two calls in one round only one is made. -/
theorem C113_both_fails : ¬ ∀ (l : List (Option Do)) (s : St), St.hist (fun _ _ => []) (l ++ [none]) {} = some s → ∀ d x, .called d x ∈ s.log → .ran d x ∈ s.log := by
  intro h
  have := h [some .make, some (.call 0 5), some (.call 0 6)] ⟨[⟨true, false, some 6, false⟩], [.called 0 5, .called 0 6, .ran 0 6]⟩ (by decide +kernel) 0 5 (by decide)
  exact absurd this (by decide)

end Props
