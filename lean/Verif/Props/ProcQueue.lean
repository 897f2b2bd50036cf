import Verif.Model.ProcQueue
/- C44: process queues. -/
namespace Props
open Wv.ProcQueue Spec.ProcQueue

namespace Pq

theorem running_append (a b : List Event) : running (a ++ b) = running a + running b := by
  induction a with
  | nil => simp [running]
  | cons e a ih =>
    cases e <;> simp only [List.cons_append, running, ih] <;> omega

/-- What holds at every moment. -/
structure Good (s : State) : Prop where
  wsorted : s.waitq.Pairwise (fun a b => a.ticket < b.ticket)
  rsorted : s.runq.Pairwise (fun a b => a.ticket < b.ticket)
  fresh : ∀ e ∈ s.waitq, e.ticket < s.next
  enqfresh : ∀ t c, Event.enq t c ∈ s.trace → t < s.next
  enqsorted : ∀ p t c q u c' r, s.trace = p ++ Event.enq t c :: q ++ Event.enq u c' :: r → t < u
  started : ∀ t c, Event.start t c ∈ s.trace → ∀ e ∈ s.waitq, t < e.ticket
  place : ∀ t c, Event.enq t c ∈ s.trace → Event.start t c ∈ s.trace ∨ ∃ e ∈ s.waitq, e.ticket = t ∧ e.cookie = c
  waits : ∀ e ∈ s.waitq, Event.enq e.ticket e.cookie ∈ s.trace
  runs : ∀ t c, (∃ e ∈ s.runq, e.ticket = t ∧ e.cookie = c) ↔ (Event.start t c ∈ s.trace ∧ Event.fin t ∉ s.trace)
  fins : ∀ t, Event.fin t ∈ s.trace → ∃ c, Event.start t c ∈ s.trace
  starts : ∀ t c, Event.start t c ∈ s.trace → Event.enq t c ∈ s.trace
  alone : ∀ e ∈ s.runq, e.cookie ≠ none → s.runq = [e]
  few : s.runq.length ≤ s.max
  count : running s.trace = s.runq.length
  limited : Limited s.max s.trace
  inorder : InOrder s.trace
  synced : Synced s.trace

theorem new_good (max : Nat) : Good (new max) := by
  constructor
  case limited => intro pre post h; have : pre = [] := by cases pre with
                    | nil => rfl
                    | cons x y => simp [new] at h
                  subst this; simp [running]
  case inorder => intro pre t c post h; simp [new] at h
  case synced => intro pre t c post h; simp [new] at h
  all_goals simp [new, running]

/-- Lists that end in one element more. -/
theorem snoc_split {α} (l pre post : List α) (x : α) (h : l ++ [x] = pre ++ post) : post = [] ∧ pre = l ++ [x] ∨ ∃ post', post = post' ++ [x] ∧ l = pre ++ post' := by
  rcases List.eq_nil_or_concat post with rfl | ⟨p, y, rfl⟩
  · left; exact ⟨rfl, by simpa using h.symm⟩
  · right
    rw [List.concat_eq_append, ← List.append_assoc] at h
    have := List.append_inj' h rfl
    simp only [List.cons.injEq, and_true] at this
    exact ⟨p, by rw [List.concat_eq_append, this.2], this.1⟩

theorem limited_snoc (n : Nat) (tr : List Event) (e : Event) (h : Limited n tr) (h2 : running (tr ++ [e]) ≤ n) : Limited n (tr ++ [e]) := by
  intro pre post hp
  rcases snoc_split _ _ _ _ hp with ⟨_, rfl⟩ | ⟨post', _, h3⟩
  · exact h2
  · exact h _ _ h3

/-- Adding something that is not a start. -/
theorem inorder_snoc (tr : List Event) (e : Event) (he : ∀ t c, e ≠ .start t c) (h : InOrder tr)
    (hq : ∀ t c, e = .enq t c → ∀ c', Event.start t c' ∉ tr) : InOrder (tr ++ [e]) := by
  intro pre t c post hp
  rcases snoc_split _ _ _ _ hp with ⟨h1, _⟩ | ⟨post', h1, h2⟩
  · simp at h1
  · cases post' with
    | nil => simp only [List.nil_append, List.cons.injEq] at h1; exact absurd h1.1.symm (he t c)
    | cons x post' =>
      simp only [List.cons_append, List.cons.injEq] at h1
      rw [← h1.1] at h2
      obtain ⟨g1, g2, g3⟩ := h pre t c post' h2
      refine ⟨g1, g2, ?_⟩
      rintro u c' ⟨p, q, r, hr⟩
      rcases snoc_split _ _ _ _ hr with ⟨k1, _⟩ | ⟨r', k1, k2⟩
      · simp at k1
      · cases r' with
        | nil =>
          simp only [List.nil_append, List.cons.injEq] at k1
          exact absurd (by rw [h2]; simp) (hq t c k1.1.symm c)
        | cons y r' =>
          simp only [List.cons_append, List.cons.injEq] at k1
          rw [← k1.1] at k2
          exact g3 u c' ⟨p, q, r', k2⟩

theorem synced_snoc (tr : List Event) (e : Event) (he : ∀ t c, e ≠ .start t c) (h : Synced tr) : Synced (tr ++ [e]) := by
  intro pre t c post hp
  rcases snoc_split _ _ _ _ hp with ⟨h1, _⟩ | ⟨post', h1, h2⟩
  · simp at h1
  · cases post' with
    | nil => simp only [List.nil_append, List.cons.injEq] at h1; exact absurd h1.1.symm (he t c)
    | cons x post' =>
      simp only [List.cons_append, List.cons.injEq] at h1
      rw [← h1.1] at h2
      exact h pre t c post' h2

theorem enqueue_good (s : State) (h : Good s) (c : Option Nat) : Good (enqueue s c) := by
  have hmem : ∀ x, x ∈ (enqueue s c).trace ↔ x ∈ s.trace ∨ x = .enq s.next c := by intro x; simp [enqueue]
  have hw : ∀ e, e ∈ (enqueue s c).waitq ↔ e ∈ s.waitq ∨ e = ⟨s.next, c, false⟩ := by intro e; simp [enqueue]
  have hst : ∀ t c', Event.start t c' ∈ s.trace → t < s.next := fun t c' hm => h.enqfresh t c' (h.starts t c' hm)
  constructor
  case wsorted =>
    show (s.waitq ++ [_]).Pairwise _
    rw [List.pairwise_append]
    refine ⟨h.wsorted, by simp, ?_⟩
    intro a ha b hb
    rw [List.mem_singleton.mp hb]; exact h.fresh a ha
  case rsorted => exact h.rsorted
  case fresh =>
    intro e he
    show e.ticket < s.next + 1
    rcases (hw e).mp he with he | rfl
    · have := h.fresh e he; omega
    · exact Nat.lt_succ_self _
  case enqfresh =>
    intro t c' hm
    show t < s.next + 1
    rcases (hmem _).mp hm with hm | hm
    · have := h.enqfresh t c' hm; omega
    · simp only [Event.enq.injEq] at hm; omega
  case enqsorted =>
    intro p t c1 q u c2 r hp
    rcases snoc_split _ _ _ _ hp with ⟨h1, _⟩ | ⟨r', h1, h2⟩
    · simp at h1
    · cases r' with
      | nil =>
        simp only [List.nil_append, List.cons.injEq, Event.enq.injEq] at h1
        rw [h1.1.1]
        apply h.enqfresh t c1
        rw [h2]; simp
      | cons y r' =>
        simp only [List.cons_append, List.cons.injEq] at h1
        rw [← h1.1] at h2
        exact h.enqsorted p t c1 q u c2 r' h2
  case started =>
    intro t c' hm e he
    rcases (hmem _).mp hm with hm | hm
    · rcases (hw e).mp he with he | rfl
      · exact h.started t c' hm e he
      · exact hst t c' hm
    · simp at hm
  case place =>
    intro t c' hm
    rcases (hmem _).mp hm with hm | hm
    · rcases h.place t c' hm with h1 | ⟨e, he, h1⟩
      · exact Or.inl ((hmem _).mpr (Or.inl h1))
      · exact Or.inr ⟨e, (hw e).mpr (Or.inl he), h1⟩
    · simp only [Event.enq.injEq] at hm
      exact Or.inr ⟨_, (hw _).mpr (Or.inr rfl), hm.1.symm, hm.2.symm⟩
  case waits =>
    intro e he
    rcases (hw e).mp he with he | rfl
    · exact (hmem _).mpr (Or.inl (h.waits e he))
    · exact (hmem _).mpr (Or.inr rfl)
  case runs =>
    intro t c'
    rw [hmem, hmem]
    simp only [reduceCtorEq, or_false]
    exact h.runs t c'
  case fins =>
    intro t hm
    rcases (hmem _).mp hm with hm | hm
    · obtain ⟨c', h1⟩ := h.fins t hm
      exact ⟨c', (hmem _).mpr (Or.inl h1)⟩
    · simp at hm
  case starts =>
    intro t c' hm
    rcases (hmem _).mp hm with hm | hm
    · exact (hmem _).mpr (Or.inl (h.starts t c' hm))
    · simp at hm
  case alone => exact h.alone
  case few => exact h.few
  case count =>
    show running (s.trace ++ [_]) = _
    rw [running_append, h.count]; simp [running, enqueue]
  case limited =>
    apply limited_snoc _ _ _ h.limited
    rw [running_append, h.count]
    have := h.few
    simp [running]; exact_mod_cast this
  case inorder =>
    apply inorder_snoc _ _ (by simp) h.inorder
    intro t c1 e c' hm
    simp only [Event.enq.injEq] at e
    have := hst t c' hm
    omega
  case synced => exact synced_snoc _ _ (by simp) h.synced

theorem finish_good (s : State) (h : Good s) (e : Ent) (he : e ∈ s.runq) : Good (finish s e) := by
  have hmem : ∀ x, x ∈ (finish s e).trace ↔ x ∈ s.trace ∨ x = .fin e.ticket := by intro x; simp [finish]
  have hr : ∀ x, x ∈ (finish s e).runq ↔ x ∈ s.runq ∧ x.ticket ≠ e.ticket := by intro x; simp [finish]
  have hlen : (finish s e).runq.length + 1 = s.runq.length := by
    show (s.runq.filter fun x => x.ticket ≠ e.ticket).length + 1 = _
    have hs := h.rsorted
    generalize s.runq = l at he hs
    induction l with
    | nil => simp at he
    | cons x l ih =>
      rw [List.pairwise_cons] at hs
      rcases List.mem_cons.mp he with rfl | he
      · rw [List.filter_cons_of_neg (by simp), List.filter_eq_self.mpr]
        · rfl
        · intro y hy
          have := hs.1 y hy
          simp only [ne_eq, decide_eq_true_eq]; omega
      · have := hs.1 e he
        rw [List.filter_cons_of_pos (by simp only [ne_eq, decide_eq_true_eq]; omega), List.length_cons, List.length_cons, ← ih he hs.2]
  constructor
  case wsorted => exact h.wsorted
  case rsorted => exact h.rsorted.sublist List.filter_sublist
  case fresh => exact h.fresh
  case enqfresh =>
    intro t c hm
    rcases (hmem _).mp hm with hm | hm
    · exact h.enqfresh t c hm
    · simp at hm
  case enqsorted =>
    intro p t c1 q u c2 r hp
    rcases snoc_split _ _ _ _ hp with ⟨h1, _⟩ | ⟨r', h1, h2⟩
    · simp at h1
    · cases r' with
      | nil => simp at h1
      | cons y r' =>
        simp only [List.cons_append, List.cons.injEq] at h1
        rw [← h1.1] at h2
        exact h.enqsorted p t c1 q u c2 r' h2
  case started =>
    intro t c hm
    rcases (hmem _).mp hm with hm | hm
    · exact h.started t c hm
    · simp at hm
  case place =>
    intro t c hm
    rcases (hmem _).mp hm with hm | hm
    · rcases h.place t c hm with h1 | h1
      · exact Or.inl ((hmem _).mpr (Or.inl h1))
      · exact Or.inr h1
    · simp at hm
  case waits => intro x hx; exact (hmem _).mpr (Or.inl (h.waits x hx))
  case runs =>
    intro t c
    rw [hmem, hmem]
    simp only [reduceCtorEq, or_false, Event.fin.injEq, not_or]
    constructor
    · rintro ⟨x, hx, h1, h2⟩
      obtain ⟨h3, h4⟩ := (hr x).mp hx
      obtain ⟨k1, k2⟩ := (h.runs t c).mp ⟨x, h3, h1, h2⟩
      exact ⟨k1, k2, by omega⟩
    · rintro ⟨h1, h2, h3⟩
      obtain ⟨x, hx, k1, k2⟩ := (h.runs t c).mpr ⟨h1, h2⟩
      exact ⟨x, (hr x).mpr ⟨hx, by omega⟩, k1, k2⟩
  case fins =>
    intro t hm
    rcases (hmem _).mp hm with hm | hm
    · obtain ⟨c', h1⟩ := h.fins t hm
      exact ⟨c', (hmem _).mpr (Or.inl h1)⟩
    · simp only [Event.fin.injEq] at hm
      subst hm
      obtain ⟨k1, k2⟩ := (h.runs e.ticket e.cookie).mp ⟨e, he, rfl, rfl⟩
      exact ⟨e.cookie, (hmem _).mpr (Or.inl k1)⟩
  case starts =>
    intro t c hm
    rcases (hmem _).mp hm with hm | hm
    · exact (hmem _).mpr (Or.inl (h.starts t c hm))
    · simp at hm
  case alone =>
    intro x hx hc
    obtain ⟨h1, h2⟩ := (hr x).mp hx
    have := h.alone x h1 hc
    rw [this] at he
    rw [List.mem_singleton.mp he] at h2
    exact absurd rfl h2
  case few => have := h.few; show (finish s e).runq.length ≤ s.max; omega
  case count =>
    show running (s.trace ++ [_]) = _
    rw [running_append, h.count]
    simp only [running]; omega
  case limited =>
    apply limited_snoc _ _ _ h.limited
    rw [running_append, h.count]
    have := h.few
    simp only [running]
    show _ ≤ (s.max : Int)
    omega
  case inorder =>
    apply inorder_snoc _ _ (by simp) h.inorder
    intro t c1 e; simp at e
  case synced => exact synced_snoc _ _ (by simp) h.synced

theorem start_good (s : State) (h : Good s) (e : Ent) (r : List Ent) (hw : s.waitq = e :: r) (h1 : s.runq.length < s.max)
    (h2 : ¬ (((e.cookie.isSome && !s.runq.isEmpty) || cookieRunning s) = true)) : Good (start s e r) := by
  have hmem : ∀ x, x ∈ (start s e r).trace ↔ x ∈ s.trace ∨ x = .start e.ticket e.cookie := by intro x; simp [start]
  have hwm : ∀ x ∈ r, x ∈ s.waitq := by intro x hx; rw [hw]; simp [hx]
  have hem : e ∈ s.waitq := by rw [hw]; simp
  have hws := h.wsorted
  rw [hw, List.pairwise_cons] at hws
  have hnos : ∀ c, Event.start e.ticket c ∉ s.trace := fun c hm => absurd (h.started _ c hm e hem) (Nat.lt_irrefl _)
  have hnof : Event.fin e.ticket ∉ s.trace := by
    intro hm
    obtain ⟨c, hc⟩ := h.fins _ hm
    exact hnos c hc
  have hrun : ∀ x ∈ s.runq, x.cookie = none ∧ e.cookie = none := by
    intro x hx
    simp only [Bool.or_eq_true, Bool.and_eq_true, Bool.not_eq_true', not_or, not_and] at h2
    constructor
    · have := h2.2
      unfold cookieRunning at this
      rw [List.any_eq_true] at this
      cases hc : x.cookie with
      | none => rfl
      | some k => exact absurd ⟨x, hx, by rw [hc]; rfl⟩ this
    · cases hc : e.cookie with
      | none => rfl
      | some k =>
        have := h2.1 (by rw [hc]; rfl)
        simp at this
        rw [this] at hx; simp at hx
  constructor
  case wsorted => exact hws.2
  case rsorted =>
    show (s.runq ++ [e]).Pairwise _
    rw [List.pairwise_append]
    refine ⟨h.rsorted, by simp, ?_⟩
    intro a ha b hb
    rw [List.mem_singleton.mp hb]
    exact h.started a.ticket a.cookie ((h.runs _ _).mp ⟨a, ha, rfl, rfl⟩).1 e hem
  case fresh => intro x hx; exact h.fresh x (hwm x hx)
  case enqfresh =>
    intro t c hm
    rcases (hmem _).mp hm with hm | hm
    · exact h.enqfresh t c hm
    · simp at hm
  case enqsorted =>
    intro p t c1 q u c2 r' hp
    rcases snoc_split _ _ _ _ hp with ⟨h1, _⟩ | ⟨r', h1, h2⟩
    · simp at h1
    · cases r' with
      | nil => simp at h1
      | cons y r' =>
        simp only [List.cons_append, List.cons.injEq] at h1
        rw [← h1.1] at h2
        exact h.enqsorted p t c1 q u c2 r' h2
  case started =>
    intro t c hm x hx
    rcases (hmem _).mp hm with hm | hm
    · exact h.started t c hm x (hwm x hx)
    · simp only [Event.start.injEq] at hm
      rw [hm.1]; exact hws.1 x hx
  case place =>
    intro t c hm
    rcases (hmem _).mp hm with hm | hm
    · rcases h.place t c hm with h1 | ⟨x, hx, k1, k2⟩
      · exact Or.inl ((hmem _).mpr (Or.inl h1))
      · rw [hw] at hx
        rcases List.mem_cons.mp hx with rfl | hx
        · left; rw [← k1, ← k2]; exact (hmem _).mpr (Or.inr rfl)
        · exact Or.inr ⟨x, hx, k1, k2⟩
    · simp at hm
  case waits => intro x hx; exact (hmem _).mpr (Or.inl (h.waits x (hwm x hx)))
  case runs =>
    intro t c
    rw [hmem, hmem]
    simp only [reduceCtorEq, or_false, Event.start.injEq]
    show (∃ x ∈ s.runq ++ [e], _) ↔ _
    constructor
    · rintro ⟨x, hx, k1, k2⟩
      rcases List.mem_append.mp hx with hx | hx
      · obtain ⟨j1, j2⟩ := (h.runs t c).mp ⟨x, hx, k1, k2⟩
        exact ⟨Or.inl j1, j2⟩
      · rw [List.mem_singleton.mp hx] at k1 k2
        exact ⟨Or.inr ⟨k1.symm, k2.symm⟩, by rw [← k1]; exact hnof⟩
    · rintro ⟨k1 | k1, k2⟩
      · obtain ⟨x, hx, j⟩ := (h.runs t c).mpr ⟨k1, k2⟩
        exact ⟨x, by simp [hx], j⟩
      · exact ⟨e, by simp, k1.1.symm, k1.2.symm⟩
  case fins =>
    intro t hm
    rcases (hmem _).mp hm with hm | hm
    · obtain ⟨c', h1⟩ := h.fins t hm
      exact ⟨c', (hmem _).mpr (Or.inl h1)⟩
    · simp at hm
  case starts =>
    intro t c hm
    rcases (hmem _).mp hm with hm | hm
    · exact (hmem _).mpr (Or.inl (h.starts t c hm))
    · simp only [Event.start.injEq] at hm
      rw [hm.1, hm.2]
      exact (hmem _).mpr (Or.inl (h.waits e hem))
  case alone =>
    show ∀ x ∈ s.runq ++ [e], _ → s.runq ++ [e] = [x]
    intro x hx hc
    cases hq : s.runq with
    | nil =>
      rw [hq] at hx
      rw [List.mem_singleton.mp hx]; rfl
    | cons y l =>
      have hy := hrun y (by rw [hq]; simp)
      rcases List.mem_append.mp hx with hx | hx
      · exact absurd (hrun x hx).1 hc
      · rw [List.mem_singleton.mp hx] at hc; exact absurd hy.2 hc
  case few => show (s.runq ++ [e]).length ≤ s.max; simp; omega
  case count =>
    show running (s.trace ++ [_]) = ((s.runq ++ [e]).length : Int)
    rw [running_append, h.count]
    simp [running]
  case limited =>
    apply limited_snoc _ _ _ h.limited
    rw [running_append, h.count]
    simp only [running]
    show _ ≤ (s.max : Int)
    omega
  case inorder =>
    intro pre t c post hp
    rcases snoc_split _ _ _ _ hp with ⟨k1, _⟩ | ⟨post', k1, k2⟩
    · simp at k1
    · cases post' with
      | nil =>
        simp only [List.nil_append, List.cons.injEq, Event.start.injEq, List.append_nil] at k1 k2
        subst k2
        rw [k1.1.1, k1.1.2]
        refine ⟨hnos, h.waits e hem, ?_⟩
        rintro u c' ⟨p, q, r', hr'⟩
        rcases snoc_split _ _ _ _ hr' with ⟨j1, _⟩ | ⟨r'', j1, j2⟩
        · simp at j1
        · cases r'' with
          | nil => simp at j1
          | cons y r'' =>
            simp only [List.cons_append, List.cons.injEq] at j1
            rw [← j1.1] at j2
            have hlt := h.enqsorted p u c' q _ _ r'' j2
            rcases h.place u c' (by rw [j2]; simp) with j3 | ⟨x, hx, j3, j4⟩
            · exact j3
            · rw [hw] at hx
              rcases List.mem_cons.mp hx with rfl | hx
              · omega
              · have := hws.1 x hx; omega
      | cons x post' =>
        simp only [List.cons_append, List.cons.injEq] at k1
        rw [← k1.1] at k2
        obtain ⟨g1, g2, g3⟩ := h.inorder pre t c post' k2
        refine ⟨g1, g2, ?_⟩
        rintro u c' ⟨p, q, r', hr'⟩
        rcases snoc_split _ _ _ _ hr' with ⟨j1, _⟩ | ⟨r'', j1, j2⟩
        · simp at j1
        · cases r'' with
          | nil => simp at j1
          | cons y r'' =>
            simp only [List.cons_append, List.cons.injEq] at j1
            rw [← j1.1] at j2
            exact g3 u c' ⟨p, q, r'', j2⟩
  case synced =>
    intro pre t c post hp
    rcases snoc_split _ _ _ _ hp with ⟨k1, _⟩ | ⟨post', k1, k2⟩
    · simp at k1
    · cases post' with
      | nil =>
        simp only [List.nil_append, List.cons.injEq, Event.start.injEq, List.append_nil] at k1 k2
        subst k2
        intro u c' hu hc
        refine Decidable.byContradiction fun hf => ?_
        obtain ⟨x, hx, j1, j2⟩ := (h.runs u c').mpr ⟨hu, hf⟩
        obtain ⟨i1, i2⟩ := hrun x hx
        rcases hc with hc | hc
        · rw [k1.1.2] at hc; exact hc i2
        · rw [← j2] at hc; exact hc i1
      | cons x post' =>
        simp only [List.cons_append, List.cons.injEq] at k1
        rw [← k1.1] at k2
        exact h.synced pre t c post' k2

/-- Marking changes no ticket and no cookie. -/
theorem mark_same (c : Nat) : ∀ (l w : List Ent), mark c l = some w →
    w.map (fun e => (e.ticket, e.cookie)) = l.map (fun e => (e.ticket, e.cookie)) := by
  intro l
  induction l with
  | nil => intro w h; simp [mark] at h
  | cons e r ih =>
    intro w h
    unfold mark at h
    by_cases hc : e.cookie = some c
    · rw [if_pos hc] at h
      cases r with
      | nil => simp at h; subst h; rfl
      | cons x r => simp at h; subst h; rfl
    · rw [if_neg hc] at h
      cases hm : mark c r with
      | none => rw [hm] at h; simp at h
      | some w' =>
        rw [hm] at h
        simp only [Option.map_some, Option.some.injEq] at h
        subst h
        rw [List.map_cons, List.map_cons, ih w' hm]

theorem mem_of_map {l w : List Ent} (h : w.map (fun e => (e.ticket, e.cookie)) = l.map (fun e => (e.ticket, e.cookie))) (e : Ent) (he : e ∈ w) :
    ∃ x ∈ l, x.ticket = e.ticket ∧ x.cookie = e.cookie := by
  have : (e.ticket, e.cookie) ∈ l.map (fun e => (e.ticket, e.cookie)) := by rw [← h]; exact List.mem_map_of_mem (f := fun e : Ent => (e.ticket, e.cookie)) he
  obtain ⟨x, hx, hh⟩ := List.mem_map.mp this
  simp only [Prod.mk.injEq] at hh
  exact ⟨x, hx, hh⟩

theorem remark_good (s : State) (h : Good s) (w : List Ent) (hm : w.map (fun e => (e.ticket, e.cookie)) = s.waitq.map (fun e => (e.ticket, e.cookie))) :
    Good { s with waitq := w } := by
  have h1 := fun e he => mem_of_map hm e he
  have h2 := fun e he => mem_of_map hm.symm e he
  constructor
  case wsorted =>
    have hs := h.wsorted
    have := congrArg (List.map Prod.fst) hm
    rw [List.map_map, List.map_map] at this
    have h3 : w.map (·.ticket) = s.waitq.map (·.ticket) := this
    have e1 : (s.waitq.map (·.ticket)).Pairwise (fun a b => a < b) := List.pairwise_map.mpr hs
    rw [← h3] at e1
    exact List.pairwise_map.mp e1
  case rsorted => exact h.rsorted
  case fresh => intro e he; obtain ⟨x, hx, k, _⟩ := h1 e he; rw [← k]; exact h.fresh x hx
  case enqfresh => exact h.enqfresh
  case enqsorted => exact h.enqsorted
  case started => intro t c ht e he; obtain ⟨x, hx, k, _⟩ := h1 e he; rw [← k]; exact h.started t c ht x hx
  case place =>
    intro t c ht
    rcases h.place t c ht with k | ⟨e, he, k1, k2⟩
    · exact Or.inl k
    · obtain ⟨x, hx, j1, j2⟩ := h2 e he
      exact Or.inr ⟨x, hx, j1.trans k1, j2.trans k2⟩
  case waits => intro e he; obtain ⟨x, hx, k1, k2⟩ := h1 e he; rw [← k1, ← k2]; exact h.waits x hx
  case runs => exact h.runs
  case fins => exact h.fins
  case starts => exact h.starts
  case alone => exact h.alone
  case few => exact h.few
  case count => exact h.count
  case limited => exact h.limited
  case inorder => exact h.inorder
  case synced => exact h.synced

theorem add_good (s : State) (h : Good s) (c : Option Nat) : Good (add s c) := by
  unfold add
  cases c with
  | none => exact enqueue_good s h none
  | some c =>
    simp only []
    cases hm : mark c s.waitq with
    | none => exact enqueue_good s h (some c)
    | some w => exact remark_good s h w (mark_same c _ _ hm)

/-- The first loop of `go`: which entries remain, what is added at the end. -/
theorem reap_spec (d : Nat → Bool) (l : List Ent) : ∀ (s : State), Good s → l.Pairwise (fun a b => a.ticket < b.ticket) → (∀ e ∈ l, e ∈ s.runq) →
    Good (l.foldl (reap d) s) ∧ (l.foldl (reap d) s).max = s.max ∧ s.next ≤ (l.foldl (reap d) s).next ∧
    (l.foldl (reap d) s).runq = s.runq.filter (fun x => !(d x.ticket && l.any (fun e => e.ticket == x.ticket))) ∧
    (∃ ext, (l.foldl (reap d) s).waitq = s.waitq ++ ext ∧ ∀ e ∈ ext, s.next ≤ e.ticket) ∧
    (∃ ext, (l.foldl (reap d) s).trace = s.trace ++ ext) ∧
    ∀ e ∈ l, d e.ticket = true → e.redo = true → ∃ t', s.next ≤ t' ∧ Event.enq t' e.cookie ∈ (l.foldl (reap d) s).trace := by
  induction l with
  | nil =>
    intro s h _ _
    refine ⟨h, rfl, Nat.le_refl _, ?_, ⟨[], by simp, by simp⟩, ⟨[], by simp⟩, by simp⟩
    exact (List.filter_eq_self.mpr (by simp)).symm
  | cons e l ih =>
    intro s h hs hm
    rw [List.pairwise_cons] at hs
    have he := hm e (by simp)
    obtain ⟨g, gm, gn, gr, gt, gw, ga⟩ : Good (reap d s e) ∧ (reap d s e).max = s.max ∧ s.next ≤ (reap d s e).next ∧
        (reap d s e).runq = s.runq.filter (fun x => !(d x.ticket && (e.ticket == x.ticket))) ∧
        (∃ ext, (reap d s e).trace = s.trace ++ ext) ∧ (∃ ext, (reap d s e).waitq = s.waitq ++ ext ∧ ∀ e ∈ ext, s.next ≤ e.ticket) ∧
        (d e.ticket = true → e.redo = true → Event.enq s.next e.cookie ∈ (reap d s e).trace) := by
      unfold reap
      by_cases hd : d e.ticket = true
      · rw [if_pos hd]
        have hf : s.runq.filter (fun x => decide (x.ticket ≠ e.ticket)) = s.runq.filter (fun x => !(d x.ticket && (e.ticket == x.ticket))) := by
          apply List.filter_congr
          intro x _
          by_cases hx : x.ticket = e.ticket
          · simp [hx, hd]
          · have : ¬ e.ticket = x.ticket := fun e => hx e.symm
            simp [hx, this]
        by_cases hr : e.redo = true
        · rw [if_pos hr]
          refine ⟨enqueue_good _ (finish_good s h e he) _, rfl, Nat.le_succ _, hf, ⟨[.fin e.ticket, .enq s.next e.cookie], ?_⟩,
            ⟨[⟨s.next, e.cookie, false⟩], rfl, by simp⟩, ?_⟩
          · simp [enqueue, finish]
          · intro _ _; simp [enqueue, finish]
        · rw [if_neg hr]
          refine ⟨finish_good s h e he, rfl, Nat.le_refl _, hf, ⟨_, rfl⟩, ⟨[], by simp [finish], by simp⟩, ?_⟩
          intro _ h2; exact absurd h2 hr
      · rw [if_neg hd]
        refine ⟨h, rfl, Nat.le_refl _, ?_, ⟨[], by simp⟩, ⟨[], by simp, by simp⟩, fun h2 => absurd h2 hd⟩
        rw [List.filter_eq_self.mpr]
        intro x _
        by_cases hx : e.ticket = x.ticket
        · rw [← hx]; simp [hd]
        · simp [hx]
    rw [List.foldl_cons]
    have hm' : ∀ x ∈ l, x ∈ (reap d s e).runq := by
      intro x hx
      rw [gr, List.mem_filter]
      refine ⟨hm x (by simp [hx]), ?_⟩
      have := hs.1 x hx
      have h2 : ¬ e.ticket = x.ticket := by omega
      simp [h2]
    obtain ⟨k1, k2, k3, k4, ⟨ext, k5, k6⟩, ⟨ext', k7⟩, k8⟩ := ih _ g hs.2 hm'
    obtain ⟨ext1, g1, g2⟩ := gw
    obtain ⟨ext2, g3⟩ := gt
    refine ⟨k1, k2.trans gm, Nat.le_trans gn k3, ?_, ⟨ext1 ++ ext, ?_, ?_⟩, ⟨ext2 ++ ext', ?_⟩, ?_⟩
    · rw [k4, gr, List.filter_filter]
      apply List.filter_congr
      intro x _
      rw [List.any_cons]
      cases d x.ticket <;> cases (e.ticket == x.ticket) <;> simp
    · rw [k5, g1, List.append_assoc]
    · intro x hx
      rcases List.mem_append.mp hx with hx | hx
      · exact g2 x hx
      · exact Nat.le_trans gn (k6 x hx)
    · rw [k7, g3, List.append_assoc]
    · intro x hx hd hr
      rcases List.mem_cons.mp hx with rfl | hx
      · exact ⟨s.next, Nat.le_refl _, by rw [k7]; simp [ga hd hr]⟩
      · obtain ⟨t', h1, h2⟩ := k8 x hx hd hr
        exact ⟨t', Nat.le_trans gn h1, h2⟩

/-- How much there is to do before a ticket. -/
def ahead (s : State) (t : Nat) : Nat := 2 * (s.waitq.filter fun e => e.ticket < t).length + s.runq.length

/-- A ticket is waiting. -/
def Waits (s : State) (t : Nat) : Prop := ∃ e ∈ s.waitq, e.ticket = t

theorem startLoop_spec (f : Nat) : ∀ (s : State), Good s → Good (startLoop f s) ∧ (startLoop f s).max = s.max ∧ (startLoop f s).next = s.next ∧
    (∃ ext, (startLoop f s).trace = s.trace ++ ext) ∧ (∀ e, e ∈ s.waitq ++ s.runq ↔ e ∈ (startLoop f s).waitq ++ (startLoop f s).runq) ∧
    ((startLoop f s).waitq.length ≤ s.waitq.length) ∧
    ∀ t, Waits (startLoop f s) t → Waits s t ∧ (startLoop f s = s ∨ ahead (startLoop f s) t < ahead s t) := by
  induction f with
  | zero => intro s h; exact ⟨h, rfl, rfl, ⟨[], by simp [startLoop]⟩, fun _ => Iff.rfl, Nat.le_refl _, fun t ht => ⟨ht, Or.inl rfl⟩⟩
  | succ f ih =>
    intro s h
    have triv : Good s ∧ s.max = s.max ∧ s.next = s.next ∧ (∃ ext, s.trace = s.trace ++ ext) ∧ (∀ e, e ∈ s.waitq ++ s.runq ↔ e ∈ s.waitq ++ s.runq) ∧
        (s.waitq.length ≤ s.waitq.length) ∧ ∀ t, Waits s t → Waits s t ∧ (s = s ∨ ahead s t < ahead s t) :=
      ⟨h, rfl, rfl, ⟨[], by simp⟩, fun _ => Iff.rfl, Nat.le_refl _, fun t ht => ⟨ht, Or.inl rfl⟩⟩
    cases hw : s.waitq with
    | nil =>
      have e1 : startLoop (f + 1) s = s := by unfold startLoop; rw [hw]
      rw [e1, ← hw]; exact triv
    | cons e r =>
      by_cases h1 : s.runq.length < s.max
      · by_cases h2 : ((e.cookie.isSome && !s.runq.isEmpty) || cookieRunning s) = true
        · have e1 : startLoop (f + 1) s = s := by
            unfold startLoop; rw [hw]; simp only []; rw [if_pos h1, if_pos h2]
          rw [e1, ← hw]; exact triv
        · have e1 : startLoop (f + 1) s = startLoop f (start s e r) := by
            conv => lhs; unfold startLoop
            rw [hw]; simp only []; rw [if_pos h1, if_neg h2]
          rw [e1]
          have g := start_good s h e r hw h1 h2
          obtain ⟨k1, k2, k3, ⟨ext, k4⟩, k5, k6, k7⟩ := ih (start s e r) g
          refine ⟨k1, k2, k3, ⟨[.start e.ticket e.cookie] ++ ext, ?_⟩, ?_, ?_, ?_⟩
          · rw [k4]; simp [start]
          · intro x
            rw [← k5 x]
            simp only [start, List.mem_append, List.mem_cons, List.not_mem_nil, or_false]
            constructor
            · rintro ((rfl | h) | h)
              · exact Or.inr (Or.inr rfl)
              · exact Or.inl h
              · exact Or.inr (Or.inl h)
            · rintro (h | h | h)
              · exact Or.inl (Or.inr h)
              · exact Or.inr h
              · exact Or.inl (Or.inl h)
          · have : (start s e r).waitq = r := rfl
            rw [this] at k6
            rw [List.length_cons]; omega
          · intro t ht
            obtain ⟨⟨x, hx, hxt⟩, k8⟩ := k7 t ht
            have hx' : x ∈ r := hx
            refine ⟨⟨x, by rw [hw]; simp [hx'], hxt⟩, Or.inr ?_⟩
            have hlt : ahead (start s e r) t < ahead s t := by
              have hs := h.wsorted
              rw [hw, List.pairwise_cons] at hs
              have := hs.1 x hx'
              unfold ahead
              rw [hw, List.filter_cons_of_pos (by simp only [decide_eq_true_eq]; omega)]
              simp only [start, List.length_cons, List.length_append, List.length_nil]
              omega
            rcases k8 with k8 | k8
            · rw [k8]; exact hlt
            · omega
      · have e1 : startLoop (f + 1) s = s := by
          unfold startLoop; rw [hw]; simp only []; rw [if_neg h1]
        rw [e1, ← hw]; exact triv

/-- The first loop of `go`. -/
def reaped (d : Nat → Bool) (s : State) : State := s.runq.foldl (reap d) s

theorem reaped_spec (d : Nat → Bool) (s : State) (h : Good s) : Good (reaped d s) ∧ (reaped d s).max = s.max ∧ s.next ≤ (reaped d s).next ∧
    (reaped d s).runq = s.runq.filter (fun x => !d x.ticket) ∧
    (∃ ext, (reaped d s).waitq = s.waitq ++ ext ∧ ∀ e ∈ ext, s.next ≤ e.ticket) ∧ (∃ ext, (reaped d s).trace = s.trace ++ ext) ∧
    ∀ e ∈ s.runq, d e.ticket = true → e.redo = true → ∃ t', s.next ≤ t' ∧ Event.enq t' e.cookie ∈ (reaped d s).trace := by
  obtain ⟨k1, k2, k3, k4, k5, k6, k7⟩ := reap_spec d s.runq s h h.rsorted (fun _ he => he)
  refine ⟨k1, k2, k3, ?_, k5, k6, k7⟩
  show (s.runq.foldl (reap d) s).runq = _
  rw [k4]
  apply List.filter_congr
  intro x hx
  have : s.runq.any (fun e => e.ticket == x.ticket) = true := List.any_eq_true.mpr ⟨x, hx, by simp⟩
  rw [this]; simp

theorem go_eq (d : Nat → Bool) (s : State) : go d s = startLoop (reaped d s).waitq.length (reaped d s) := rfl

theorem go_good (d : Nat → Bool) (s : State) (h : Good s) : Good (go d s) := by
  rw [go_eq]
  exact (startLoop_spec _ _ (reaped_spec d s h).1).1

theorem step_good (s : State) (h : Good s) (op : Op) : Good (step s op) := by
  cases op with
  | add c => exact add_good s h c
  | go d => exact go_good d s h

theorem run_good (ops : List Op) : ∀ (s : State), Good s → Good (run s ops) := by
  induction ops with
  | nil => intro s h; exact h
  | cons op ops ih => intro s h; exact ih _ (step_good s h op)

theorem step_max (s : State) (h : Good s) (op : Op) : (step s op).max = s.max := by
  cases op with
  | add c =>
    unfold step add
    cases c with
    | none => rfl
    | some c =>
      simp only []
      cases mark c s.waitq <;> rfl
  | go d =>
    show (go d s).max = _
    rw [go_eq, (startLoop_spec _ _ (reaped_spec d s h).1).2.1, (reaped_spec d s h).2.1]

theorem step_trace (s : State) (h : Good s) (op : Op) : ∃ ext, (step s op).trace = s.trace ++ ext := by
  cases op with
  | add c =>
    unfold step add
    cases c with
    | none => exact ⟨_, rfl⟩
    | some c =>
      simp only []
      cases mark c s.waitq with
      | none => exact ⟨_, rfl⟩
      | some w => exact ⟨[], by simp⟩
  | go d =>
    show ∃ ext, (go d s).trace = _
    obtain ⟨r1, r2, r3, r4, r5, ⟨e1, r6⟩, r7⟩ := reaped_spec d s h
    obtain ⟨k1, k2, k3, ⟨e2, k4⟩, k5⟩ := startLoop_spec (reaped d s).waitq.length _ r1
    rw [go_eq, k4, r6]
    exact ⟨e1 ++ e2, by simp⟩

theorem step_next (s : State) (h : Good s) (op : Op) : s.next ≤ (step s op).next := by
  cases op with
  | add c =>
    unfold step add
    cases c with
    | none => exact Nat.le_succ _
    | some c =>
      simp only []
      cases mark c s.waitq with
      | none => exact Nat.le_succ _
      | some w => exact Nat.le_refl _
  | go d =>
    show _ ≤ (go d s).next
    rw [go_eq, (startLoop_spec _ _ (reaped_spec d s h).1).2.2.1]
    exact (reaped_spec d s h).2.2.1

/-- Each step that leaves a ticket waiting leaves less to do before it, or starts and finishes nothing. -/
theorem step_ahead (s : State) (h : Good s) (op : Op) (t : Nat) (ht : Waits s t) (ht' : Waits (step s op) t) :
    ahead (step s op) t < ahead s t ∨ (ahead (step s op) t = ahead s t ∧ (step s op).runq = s.runq ∧
      ∀ d, op = .go d → (∀ e ∈ s.runq, d e.ticket = false) ∧ (s.runq = [] → s.max = 0)) := by
  have htn : t < s.next := by obtain ⟨e, he, rfl⟩ := ht; exact h.fresh e he
  have hext : ∀ ext : List Ent, (∀ e ∈ ext, s.next ≤ e.ticket) → ((s.waitq ++ ext).filter fun e => e.ticket < t) = s.waitq.filter fun e => e.ticket < t := by
    intro ext hx
    rw [List.filter_append, (List.filter_eq_nil_iff (l := ext)).mpr, List.append_nil]
    intro e he
    have := hx e he
    simp only [decide_eq_true_eq]; omega
  cases op with
  | add c =>
    right
    refine ⟨?_, ?_, by intro d hd; simp at hd⟩
    · unfold step add
      have henq : ∀ c, ahead (enqueue s c) t = ahead s t := by
        intro c
        unfold ahead enqueue
        simp only []
        rw [hext _ (by simp)]
      cases c with
      | none => exact henq none
      | some c =>
        simp only []
        cases hm : mark c s.waitq with
        | none => exact henq (some c)
        | some w =>
          have := mark_same c _ _ hm
          have h2 : (w.map (·.ticket)).filter (fun x => decide (x < t)) = (s.waitq.map (·.ticket)).filter (fun x => decide (x < t)) := by
            have := congrArg (List.map Prod.fst) this
            rw [List.map_map, List.map_map] at this
            have h3 : w.map (·.ticket) = s.waitq.map (·.ticket) := this
            rw [h3]
          have h3 := congrArg List.length h2
          rw [List.filter_map, List.filter_map, List.length_map, List.length_map] at h3
          unfold ahead
          simp only []
          have h4 : (w.filter fun e => decide (e.ticket < t)).length = (s.waitq.filter fun e => decide (e.ticket < t)).length := h3
          rw [h4]
    · unfold step add
      cases c with
      | none => rfl
      | some c =>
        simp only []
        cases mark c s.waitq <;> rfl
  | go d =>
    have ht2 : Waits (go d s) t := ht'
    show ahead (go d s) t < _ ∨ (ahead (go d s) t = _ ∧ (go d s).runq = _ ∧ _)
    rw [go_eq] at ht2 ⊢
    obtain ⟨r1, r2, r3, r4, ⟨ext, r5, r5'⟩, r6, r7⟩ := reaped_spec d s h
    obtain ⟨k1, k2, k3, k4, k5, k6, k7⟩ := startLoop_spec (reaped d s).waitq.length _ r1
    obtain ⟨w1, w2⟩ := k7 t ht2
    have hlen : ((s.runq.filter fun x => !d x.ticket).length) ≤ s.runq.length := List.length_filter_le _ _
    have ha : ahead (reaped d s) t = 2 * (s.waitq.filter fun e => e.ticket < t).length + (s.runq.filter fun x => !d x.ticket).length := by
      unfold ahead; rw [r4, r5, hext ext r5']
    rcases w2 with w2 | w2
    · by_cases heq : (s.runq.filter fun x => !d x.ticket).length = s.runq.length
      · right
        rw [w2]
        have hf : (s.runq.filter fun x => !d x.ticket) = s.runq := List.Sublist.eq_of_length List.filter_sublist heq
        refine ⟨by rw [ha, heq]; rfl, by rw [r4, hf], ?_⟩
        intro d' hd'
        simp only [Op.go.injEq] at hd'
        subst hd'
        refine ⟨?_, ?_⟩
        · intro e he
          rw [← hf] at he
          simpa using (List.mem_filter.mp he).2
        · intro hr
          refine Decidable.byContradiction fun hmax => ?_
          obtain ⟨e, he, _⟩ := w1
          cases hq : (reaped d s).waitq with
          | nil => rw [hq] at he; simp at he
          | cons x q =>
            have hrq : (reaped d s).runq = [] := by rw [r4, hr]; rfl
            have hstep : startLoop (reaped d s).waitq.length (reaped d s) = startLoop q.length (start (reaped d s) x q) := by
              have e1 : (reaped d s).waitq.length = q.length + 1 := by rw [hq]; rfl
              rw [e1, startLoop]
              rw [hq]
              simp only []
              rw [if_pos (by rw [hrq, r2]; simp; omega), if_neg (by simp [hrq, cookieRunning])]
            have hl := (startLoop_spec q.length (start (reaped d s) x q) (start_good _ r1 x q hq (by rw [hrq, r2]; simp; omega)
              (by simp [hrq, cookieRunning]))).2.2.2.2.2.1
            rw [← hstep, w2, hq] at hl
            simp [start] at hl
            omega
      · left
        rw [w2, ha]
        unfold ahead
        omega
    · left
      rw [ha] at w2
      unfold ahead at w2 ⊢
      omega

theorem at_good (s : State) (h : Good s) (σ : Nat → Op) (n : Nat) : Good (states s σ n) := by
  induction n with
  | zero => exact h
  | succ n ih => exact step_good _ ih _

theorem at_max (s : State) (h : Good s) (σ : Nat → Op) (n : Nat) : (states s σ n).max = s.max := by
  induction n with
  | zero => rfl
  | succ n ih => rw [states, step_max _ (at_good s h σ n), ih]

theorem at_trace (s : State) (h : Good s) (σ : Nat → Op) (n m : Nat) (hm : n ≤ m) : ∃ ext, (states s σ m).trace = (states s σ n).trace ++ ext := by
  induction m with
  | zero => exact ⟨[], by rw [Nat.le_zero.mp hm]; simp⟩
  | succ m ih =>
    by_cases he : n = m + 1
    · subst he; exact ⟨[], by simp⟩
    · obtain ⟨e1, h1⟩ := ih (by omega)
      obtain ⟨e2, h2⟩ := step_trace _ (at_good s h σ m) (σ m)
      exact ⟨e1 ++ e2, by rw [states, h2, h1, List.append_assoc]⟩

theorem at_next (s : State) (h : Good s) (σ : Nat → Op) (n m : Nat) (hm : n ≤ m) : (states s σ n).next ≤ (states s σ m).next := by
  induction m with
  | zero => rw [Nat.le_zero.mp hm]; exact Nat.le_refl _
  | succ m ih =>
    by_cases he : n = m + 1
    · subst he; exact Nat.le_refl _
    · exact Nat.le_trans (ih (by omega)) (step_next _ (at_good s h σ m) (σ m))

theorem waits_or (s : State) (h : Good s) (σ : Nat → Op) (t n : Nat) (ht : Waits (states s σ n) t) (k : Nat) :
    (∃ j, n ≤ j ∧ ¬ Waits (states s σ j) t) ∨ (∃ j, n ≤ j ∧ Waits (states s σ j) t ∧ ahead (states s σ j) t < ahead (states s σ n) t) ∨
      (Waits (states s σ (n + k)) t ∧ ahead (states s σ (n + k)) t = ahead (states s σ n) t ∧ (states s σ (n + k)).runq = (states s σ n).runq) := by
  induction k with
  | zero => exact Or.inr (Or.inr ⟨ht, rfl, rfl⟩)
  | succ k ih =>
    rcases ih with h1 | h1 | ⟨h1, h2, h3⟩
    · exact Or.inl h1
    · exact Or.inr (Or.inl h1)
    · by_cases hw : Waits (states s σ (n + (k + 1))) t
      · have := step_ahead _ (at_good s h σ (n + k)) (σ (n + k)) t h1 hw
        rcases this with g | ⟨g1, g2, _⟩
        · exact Or.inr (Or.inl ⟨n + (k + 1), by omega, hw, by rw [← h2]; exact g⟩)
        · exact Or.inr (Or.inr ⟨hw, g1.trans h2, g2.trans h3⟩)
      · exact Or.inl ⟨_, by omega, hw⟩

theorem starts_eventually (s : State) (h : Good s) (hmax : 0 < s.max) (σ : Nat → Op) (hf : Fair s σ) (t : Nat) (b : Nat) :
    ∀ n, ahead (states s σ n) t ≤ b → Waits (states s σ n) t → ∃ m, n ≤ m ∧ ¬ Waits (states s σ m) t := by
  induction b with
  | zero =>
    intro n hb ht
    have hr : (states s σ n).runq = [] := List.eq_nil_of_length_eq_zero (by unfold ahead at hb; omega)
    obtain ⟨m, d, hm, hd⟩ := hf.1 n
    obtain ⟨k, rfl⟩ : ∃ k, m = n + k := ⟨m - n, by omega⟩
    rcases waits_or s h σ t n ht k with g | ⟨j, _, _, g⟩ | ⟨g1, g2, g3⟩
    · exact g
    · omega
    · by_cases hw : Waits (states s σ (n + k + 1)) t
      · rcases step_ahead _ (at_good s h σ (n + k)) (σ (n + k)) t g1 hw with j | ⟨_, _, j⟩
        · omega
        · have := (j d hd).2 (by rw [g3, hr])
          rw [at_max s h] at this; omega
      · exact ⟨_, by omega, hw⟩
  | succ b ih =>
    intro n hb ht
    have fin : ∀ j, n ≤ j → Waits (states s σ j) t → ahead (states s σ j) t < ahead (states s σ n) t → ∃ m, n ≤ m ∧ ¬ Waits (states s σ m) t := by
      intro j hj hw hlt
      obtain ⟨m, h1, h2⟩ := ih j (by omega) hw
      exact ⟨m, by omega, h2⟩
    obtain ⟨m, d, hm, hd, hgo⟩ : ∃ m d, n ≤ m ∧ σ m = .go d ∧ ((states s σ n).runq = [] ∨ ∃ e ∈ (states s σ n).runq, d e.ticket = true) := by
      cases hr : (states s σ n).runq with
      | nil =>
        obtain ⟨m, d, h1, h2⟩ := hf.1 n
        exact ⟨m, d, h1, h2, Or.inl rfl⟩
      | cons e l =>
        obtain ⟨m, d, h1, h2, h3⟩ := hf.2 n e (by rw [hr]; simp)
        exact ⟨m, d, h1, h2, Or.inr ⟨e, by simp, h3⟩⟩
    obtain ⟨k, rfl⟩ : ∃ k, m = n + k := ⟨m - n, by omega⟩
    rcases waits_or s h σ t n ht k with g | ⟨j, hj, hw, g⟩ | ⟨g1, g2, g3⟩
    · exact g
    · exact fin j hj hw g
    · by_cases hw : Waits (states s σ (n + k + 1)) t
      · rcases step_ahead _ (at_good s h σ (n + k)) (σ (n + k)) t g1 hw with j | ⟨_, _, j⟩
        · exact fin (n + k + 1) (by omega) hw (by rw [← g2]; exact j)
        · obtain ⟨j1, j2⟩ := j d hd
          rcases hgo with hr | ⟨e, he, hde⟩
          · have := j2 (by rw [g3, hr])
            rw [at_max s h] at this; omega
          · have := j1 e (by rw [g3]; exact he)
            rw [hde] at this; simp at this
      · exact ⟨_, by omega, hw⟩

/-- A ticket that was given starts at some time. -/
theorem enq_starts (s : State) (h : Good s) (hmax : 0 < s.max) (σ : Nat → Op) (hf : Fair s σ) (n t : Nat) (c : Option Nat)
    (ht : Event.enq t c ∈ (states s σ n).trace) : ∃ m, n ≤ m ∧ Event.start t c ∈ (states s σ m).trace := by
  rcases (at_good s h σ n).place t c ht with h1 | ⟨e, he, h1, h2⟩
  · exact ⟨n, Nat.le_refl _, h1⟩
  · obtain ⟨m, hm, hw⟩ := starts_eventually s h hmax σ hf t _ n (Nat.le_refl _) ⟨e, he, h1⟩
    obtain ⟨ext, hx⟩ := at_trace s h σ n m hm
    rcases (at_good s h σ m).place t c (by rw [hx]; simp [ht]) with h3 | ⟨e', he', h3, _⟩
    · exact ⟨m, hm, h3⟩
    · exact absurd ⟨e', he', h3⟩ hw

/-- There is an entry with this ticket and cookie which is marked to run once more. -/
def Marked (s : State) (t c : Nat) : Prop := ∃ e ∈ s.waitq ++ s.runq, e.ticket = t ∧ e.cookie = some c ∧ e.redo = true

theorem mark_redo (c : Nat) : ∀ (l w : List Ent), mark c l = some w → ∀ e ∈ l, ∃ x ∈ w, x.ticket = e.ticket ∧ x.cookie = e.cookie ∧ (e.redo = true → x.redo = true) := by
  intro l
  induction l with
  | nil => intro w h; simp [mark] at h
  | cons e r ih =>
    intro w h x hx
    unfold mark at h
    by_cases hc : e.cookie = some c
    · rw [if_pos hc] at h
      simp only [Option.some.injEq] at h
      subst h
      rcases List.mem_cons.mp hx with rfl | hx
      · by_cases hr : r.isEmpty = true
        · rw [if_pos hr]; exact ⟨x, by simp, rfl, rfl, fun h => h⟩
        · rw [if_neg hr]; exact ⟨_, List.mem_cons_self .., rfl, rfl, fun _ => rfl⟩
      · by_cases hr : r.isEmpty = true
        · rw [if_pos hr]; exact ⟨x, by simp [hx], rfl, rfl, fun h => h⟩
        · rw [if_neg hr]; exact ⟨x, by simp [hx], rfl, rfl, fun h => h⟩
    · rw [if_neg hc] at h
      cases hm : mark c r with
      | none => rw [hm] at h; simp at h
      | some w' =>
        rw [hm] at h
        simp only [Option.map_some, Option.some.injEq] at h
        subst h
        rcases List.mem_cons.mp hx with rfl | hx
        · exact ⟨x, by simp, rfl, rfl, fun h => h⟩
        · obtain ⟨y, hy, k⟩ := ih w' hm x hx
          exact ⟨y, by simp [hy], k⟩

theorem step_marked (s : State) (h : Good s) (op : Op) (t c : Nat) (hk : Marked s t c) :
    (Marked (step s op) t c ∧ ∀ d, op = .go d → (∃ e ∈ s.runq, e.ticket = t) → d t = false) ∨
      ∃ t', s.next ≤ t' ∧ Event.enq t' (some c) ∈ (step s op).trace := by
  obtain ⟨e, he, h1, h2, h3⟩ := hk
  cases op with
  | add k =>
    left
    refine ⟨?_, by intro d hd; simp at hd⟩
    have henq : ∀ k, Marked (enqueue s k) t c := by
      intro k
      refine ⟨e, ?_, h1, h2, h3⟩
      rcases List.mem_append.mp he with he | he
      · simp [enqueue, he]
      · simp [enqueue, he]
    unfold step add
    cases k with
    | none => exact henq none
    | some k =>
      simp only []
      cases hm : mark k s.waitq with
      | none => exact henq (some k)
      | some w =>
        rcases List.mem_append.mp he with he | he
        · obtain ⟨x, hx, k1, k2, k3⟩ := mark_redo k _ _ hm e he
          exact ⟨x, List.mem_append_left _ hx, k1.trans h1, k2.trans h2, k3 h3⟩
        · exact ⟨e, List.mem_append_right _ he, h1, h2, h3⟩
  | go d =>
    show (Marked (go d s) t c ∧ _) ∨ ∃ t', _ ∧ _ ∈ (go d s).trace
    rw [go_eq]
    obtain ⟨r1, r2, r3, r4, ⟨ext, r5, r5'⟩, r6, r7⟩ := reaped_spec d s h
    obtain ⟨k1, k2, k3, ⟨ext2, k4⟩, k5, k6, k7⟩ := startLoop_spec (reaped d s).waitq.length _ r1
    rcases List.mem_append.mp he with he | he
    · left
      refine ⟨⟨e, (k5 e).mp (by rw [r5]; simp [he]), h1, h2, h3⟩, ?_⟩
      rintro d' _ ⟨x, hx, hxt⟩
      exfalso
      have := h.started x.ticket x.cookie (((h.runs x.ticket x.cookie).mp ⟨x, hx, rfl, rfl⟩).1) e he
      omega
    · cases hd : d t with
      | true =>
        right
        obtain ⟨t', g1, g2⟩ := r7 e he (by rw [h1]; exact hd) h3
        exact ⟨t', g1, by rw [k4]; rw [h2] at g2; simp [g2]⟩
      | false =>
        left
        refine ⟨⟨e, (k5 e).mp (by rw [r4]; simp [he, h1, hd]), h1, h2, h3⟩, ?_⟩
        intro d' hd' _
        simp only [Op.go.injEq] at hd'
        rw [← hd']; exact hd

theorem marked_or (s : State) (h : Good s) (σ : Nat → Op) (t c n : Nat) (hk : Marked (states s σ n) t c) (k : Nat) :
    Marked (states s σ (n + k)) t c ∨ ∃ m t', n ≤ m ∧ (states s σ n).next ≤ t' ∧ Event.enq t' (some c) ∈ (states s σ m).trace := by
  induction k with
  | zero => exact Or.inl hk
  | succ k ih =>
    rcases ih with g | g
    · rcases step_marked _ (at_good s h σ (n + k)) (σ (n + k)) t c g with j | ⟨t', j1, j2⟩
      · exact Or.inl j.1
      · exact Or.inr ⟨n + k + 1, t', by omega, Nat.le_trans (at_next s h σ n (n + k) (by omega)) j1, j2⟩
    · exact Or.inr g

theorem redone (s : State) (h : Good s) (hmax : 0 < s.max) (σ : Nat → Op) (hf : Fair s σ) (t c n : Nat) (hk : Marked (states s σ n) t c) :
    ∃ m t', n ≤ m ∧ (states s σ n).next ≤ t' ∧ Event.enq t' (some c) ∈ (states s σ m).trace := by
  have hrun : ∀ n, Marked (states s σ n) t c → ¬ Waits (states s σ n) t →
      ∃ m t', n ≤ m ∧ (states s σ n).next ≤ t' ∧ Event.enq t' (some c) ∈ (states s σ m).trace := by
    intro n hk hw
    have hin : ∀ m, Marked (states s σ m) t c → ¬ Waits (states s σ m) t → ∃ e ∈ (states s σ m).runq, e.ticket = t ∧ e.cookie = some c := by
      rintro m ⟨e, he, h1, h2, _⟩ hw
      rcases List.mem_append.mp he with he | he
      · exact absurd ⟨e, he, h1⟩ hw
      · exact ⟨e, he, h1, h2⟩
    obtain ⟨e, he, h1, h2⟩ := hin n hk hw
    obtain ⟨m, d, hm, hd, hdt⟩ := hf.2 n e he
    rw [h1] at hdt
    obtain ⟨k, rfl⟩ : ∃ k, m = n + k := ⟨m - n, by omega⟩
    rcases marked_or s h σ t c n hk k with g | g
    · have hst := (((at_good s h σ n).runs t (some c)).mp ⟨e, he, h1, h2⟩).1
      obtain ⟨ext, hx⟩ := at_trace s h σ n (n + k) (by omega)
      have hw' : ¬ Waits (states s σ (n + k)) t := by
        rintro ⟨x, hx1, hx2⟩
        have := (at_good s h σ (n + k)).started t (some c) (by rw [hx]; simp [hst]) x hx1
        omega
      obtain ⟨e', he', h1', _⟩ := hin (n + k) g hw'
      rcases step_marked _ (at_good s h σ (n + k)) (σ (n + k)) t c g with j | ⟨t', j1, j2⟩
      · have := j.2 d hd ⟨e', he', h1'⟩
        rw [hdt] at this; simp at this
      · exact ⟨n + k + 1, t', by omega, Nat.le_trans (at_next s h σ n (n + k) (by omega)) j1, j2⟩
    · exact g
  by_cases hw : Waits (states s σ n) t
  · obtain ⟨m, hm, hw'⟩ := starts_eventually s h hmax σ hf t _ n (Nat.le_refl _) hw
    obtain ⟨k, rfl⟩ : ∃ k, m = n + k := ⟨m - n, by omega⟩
    rcases marked_or s h σ t c n hk k with g | g
    · obtain ⟨m', t', h1, h2, h3⟩ := hrun _ g hw'
      exact ⟨m', t', by omega, Nat.le_trans (at_next s h σ n (n + k) (by omega)) h2, h3⟩
    · exact g
  · exact hrun n hk hw

theorem two_split {α : Type} [DecidableEq α] (l : List α) (a b : α) (ha : a ∈ l) (hb : b ∈ l) (hne : a ≠ b) :
    (∃ p q r, l = p ++ a :: q ++ b :: r) ∨ (∃ p q r, l = p ++ b :: q ++ a :: r) := by
  obtain ⟨p, r, rfl⟩ := List.append_of_mem ha
  rcases List.mem_append.mp hb with hb | hb
  · obtain ⟨p1, p2, rfl⟩ := List.append_of_mem hb
    exact Or.inr ⟨p1, p2, r, rfl⟩
  · rcases List.mem_cons.mp hb with hb | hb
    · exact absurd hb.symm hne
    · obtain ⟨r1, r2, rfl⟩ := List.append_of_mem hb
      exact Or.inl ⟨p, r1, r2, by simp⟩

theorem enq_before (s : State) (h : Good s) (t u : Nat) (c c' : Option Nat) (ht : Event.enq t c ∈ s.trace) (hu : Event.enq u c' ∈ s.trace) (hlt : u < t) :
    ∃ p q r, s.trace = p ++ Event.enq u c' :: q ++ Event.enq t c :: r := by
  rcases two_split s.trace _ _ hu ht (by intro e; simp only [Event.enq.injEq] at e; omega) with g | ⟨p, q, r, g⟩
  · exact g
  · have := h.enqsorted _ _ _ _ _ _ _ g
    omega

/-- What a ticket with a cookie waits for. -/
theorem start_after (s : State) (h : Good s) (t c : Nat) (tr0 ext : List Event) (htr : s.trace = tr0 ++ ext) (hns : ∀ c', Event.start t c' ∉ tr0)
    (hst : Event.start t (some c) ∈ s.trace) (hall : ∀ u c', Event.enq u c' ∈ tr0 → u ≠ t → u < t ∨ Event.start u c' ∈ tr0) :
    ∃ pre post, s.trace = pre ++ Event.start t (some c) :: post ∧ (∃ x, pre = tr0 ++ x) ∧ ∀ u c', Event.enq u c' ∈ tr0 → u ≠ t → Event.fin u ∈ pre := by
  have hin : Event.start t (some c) ∈ ext := by
    rw [htr] at hst
    rcases List.mem_append.mp hst with g | g
    · exact absurd g (hns _)
    · exact g
  obtain ⟨x, post, hx⟩ := List.append_of_mem hin
  have e1 : s.trace = (tr0 ++ x) ++ Event.start t (some c) :: post := by rw [htr, hx]; simp
  refine ⟨tr0 ++ x, post, e1, ⟨x, rfl⟩, ?_⟩
  intro u c' hu hne
  have hst' : Event.start u c' ∈ tr0 ++ x := by
    rcases hall u c' hu hne with hlt | g
    · exact (h.inorder _ _ _ _ e1).2.2 u c' (enq_before s h t u _ _ (h.starts _ _ hst) (by rw [htr]; simp [hu]) hlt)
    · simp [g]
  exact h.synced _ _ _ _ e1 u c' hst' (Or.inl (by simp))

end Pq

open Spec.ProcQueue

/-- **C44.** Whatever is added, and whenever `go` is called and finds which processes finished, never more than `max` of them run at one time. -/
theorem C44_limit (max : Nat) (h : List Op) : Limited max (run (new max) h).trace := by
  have g := Pq.run_good h _ (Pq.new_good max)
  have hm : (run (new max) h).max = max := by
    have : ∀ (ops : List Op) (s : State), Pq.Good s → (run s ops).max = s.max := by
      intro ops
      induction ops with
      | nil => intro s _; rfl
      | cons op ops ih => intro s hs; exact (ih _ (Pq.step_good s hs op)).trans (Pq.step_max s hs op)
    exact this h _ (Pq.new_good max)
  have := g.limited
  rw [hm] at this
  exact this

/-- **C44.** Processes are started in the order in which they were put in the queue, each only once. -/
theorem C44_order (max : Nat) (h : List Op) : InOrder (run (new max) h).trace := (Pq.run_good h _ (Pq.new_good max)).inorder

/-- **C44.** A process with a cookie is only started when everything started before has finished, and nothing is started while it runs. -/
theorem C44_sync (max : Nat) (h : List Op) : Synced (run (new max) h).trace := (Pq.run_good h _ (Pq.new_good max)).synced

/-- **C44.** The processes which run are those which started and did not finish; one with a cookie runs alone. -/
theorem C44_running (max : Nat) (h : List Op) (t : Nat) (c : Option Nat) :
    ((∃ e ∈ (run (new max) h).runq, e.ticket = t ∧ e.cookie = c) ↔
      (Event.start t c ∈ (run (new max) h).trace ∧ Event.fin t ∉ (run (new max) h).trace)) ∧
    (∀ e ∈ (run (new max) h).runq, e.cookie ≠ none → (run (new max) h).runq = [e]) :=
  ⟨(Pq.run_good h _ (Pq.new_good max)).runs t c, (Pq.run_good h _ (Pq.new_good max)).alone⟩

/-- Two at a time; the one with cookie 7 waits for both before it, and holds up the one after it. -/
example : (run (new 2) [.add none, .add none, .add (some 7), .add none, .go fun _ => false, .go (· == 0), .go (· == 1), .go fun _ => false, .go (· == 2)]).trace =
    [.enq 0 none, .enq 1 none, .enq 2 (some 7), .enq 3 none, .start 0 none, .start 1 none, .fin 0, .fin 1, .start 2 (some 7), .fin 2, .start 3 none] := by
  decide

/-- **C44.** If at least one may run, `go` is called again and again and each process ends, then every process put in the queue is started. -/
theorem C44_starts (max : Nat) (hmax : 0 < max) (σ : Nat → Op) (hf : Fair (new max) σ) (n t : Nat) (c : Option Nat)
    (ht : Event.enq t c ∈ (states (new max) σ n).trace) : ∃ m, n ≤ m ∧ Event.start t c ∈ (states (new max) σ m).trace :=
  Pq.enq_starts _ (Pq.new_good max) hmax σ hf n t c ht

/-- **C44.** Under the same conditions, after every `add` with cookie `c` a process with cookie `c` is started, when all that was in the queue at that
time, other than itself, has finished. -/
theorem C44_request (max : Nat) (hmax : 0 < max) (σ : Nat → Op) (hf : Fair (new max) σ) (n c : Nat) (hop : σ n = .add (some c)) :
    ∃ m t pre post, (states (new max) σ m).trace = pre ++ Event.start t (some c) :: post ∧ (∃ x, pre = (states (new max) σ n).trace ++ x) ∧
      ∀ u c', Event.enq u c' ∈ (states (new max) σ n).trace → u ≠ t → Event.fin u ∈ pre := by
  have g0 := Pq.new_good max
  have g := Pq.at_good _ g0 σ n
  have hstep : states (new max) σ (n + 1) = add (states (new max) σ n) (some c) := by
    show step _ (σ n) = _
    rw [hop]; rfl
  -- a ticket above all there are
  have fresh : ∀ m t, n ≤ m → (states (new max) σ n).next ≤ t → Event.enq t (some c) ∈ (states (new max) σ m).trace →
      ∃ m t pre post, (states (new max) σ m).trace = pre ++ Event.start t (some c) :: post ∧ (∃ x, pre = (states (new max) σ n).trace ++ x) ∧
      ∀ u c', Event.enq u c' ∈ (states (new max) σ n).trace → u ≠ t → Event.fin u ∈ pre := by
    intro m t hm ht he
    obtain ⟨m', hm', hs⟩ := Pq.enq_starts _ g0 hmax σ hf m t _ he
    obtain ⟨ext, hx⟩ := Pq.at_trace _ g0 σ n m' (by omega)
    obtain ⟨pre, post, k1, k2, k3⟩ := Pq.start_after _ (Pq.at_good _ g0 σ m') t c _ ext hx
      (by intro c' hc; have := g.enqfresh _ _ (g.starts _ _ hc); omega) hs
      (by intro u c' hu _; left; have := g.enqfresh _ _ hu; omega)
    exact ⟨m', t, pre, post, k1, k2, k3⟩
  unfold add at hstep
  simp only [] at hstep
  cases hm : mark c (states (new max) σ n).waitq with
  | none =>
    rw [hm] at hstep
    exact fresh (n + 1) (states (new max) σ n).next (by omega) (Nat.le_refl _) (by rw [hstep]; simp [enqueue])
  | some w =>
    rw [hm] at hstep
    simp only [] at hstep
    have hcases : ∀ (l w : List Ent), mark c l = some w → (∃ l' e, l = l' ++ [e] ∧ e.cookie = some c) ∨ (∃ e ∈ w, e.cookie = some c ∧ e.redo = true) := by
      intro l
      induction l with
      | nil => intro w h; simp [mark] at h
      | cons e r ih =>
        intro w h
        unfold mark at h
        by_cases hc : e.cookie = some c
        · rw [if_pos hc] at h
          simp only [Option.some.injEq] at h
          cases r with
          | nil => exact Or.inl ⟨[], e, rfl, hc⟩
          | cons x r =>
            right
            subst h
            exact ⟨{ e with redo := true }, by simp, hc, rfl⟩
        · rw [if_neg hc] at h
          cases hm : mark c r with
          | none => rw [hm] at h; simp at h
          | some w' =>
            rw [hm] at h
            simp only [Option.map_some, Option.some.injEq] at h
            rcases ih w' hm with ⟨l', x, hl, hx⟩ | ⟨x, hx, hx1⟩
            · exact Or.inl ⟨e :: l', x, by rw [hl]; rfl, hx⟩
            · exact Or.inr ⟨x, by rw [← h]; simp [hx], hx1⟩
    rcases hcases _ _ hm with ⟨l', e, hl, he⟩ | ⟨e, he, he1, he2⟩
    · have hmem : e ∈ (states (new max) σ n).waitq := by rw [hl]; simp
      have henq := g.waits e hmem
      rw [he] at henq
      obtain ⟨m', hm', hs⟩ := Pq.enq_starts _ g0 hmax σ hf n e.ticket _ henq
      obtain ⟨ext, hx⟩ := Pq.at_trace _ g0 σ n m' (by omega)
      obtain ⟨pre, post, k1, k2, k3⟩ := Pq.start_after _ (Pq.at_good _ g0 σ m') e.ticket c _ ext hx
        (by intro c' hc; have := g.started _ _ hc e hmem; omega) hs
        (by
          intro u c' hu hne
          rcases g.place u c' hu with k | ⟨x, hx1, hx2, _⟩
          · exact Or.inr k
          · left
            have hs := g.wsorted
            rw [hl] at hx1 hs
            rcases List.mem_append.mp hx1 with k | k
            · rw [← hx2]
              exact (List.pairwise_append.mp hs).2.2 x k e (by simp)
            · simp only [List.mem_singleton] at k
              rw [k] at hx2
              exact absurd hx2.symm hne)
      exact ⟨m', _, pre, post, k1, k2, k3⟩
    · have hk : Pq.Marked (states (new max) σ (n + 1)) e.ticket c := by
        rw [hstep]
        exact ⟨e, List.mem_append_left _ he, rfl, he1, he2⟩
      obtain ⟨m, t', h1, h2, h3⟩ := Pq.redone _ g0 hmax σ hf _ _ _ hk
      exact fresh m t' (by omega) (Nat.le_trans (Pq.at_next _ g0 σ n (n + 1) (by omega)) h2) h3

/-- Such a schedule: cookie 7, a plain process, cookie 7 once more, and then `go` for ever, finding everything finished. -/
example : ∃ σ : Nat → Op, Fair (new 1) σ ∧ σ 0 = .add (some 7) ∧ σ 1 = .add none ∧ σ 2 = .add (some 7) ∧
    (states (new 1) σ 7).trace = [.enq 0 (some 7), .enq 1 none, .start 0 (some 7), .fin 0, .enq 2 (some 7), .start 1 none, .fin 1, .start 2 (some 7), .fin 2] := by
  refine ⟨fun n => if n = 0 ∨ n = 2 then .add (some 7) else if n = 1 then .add none else .go fun _ => true, ⟨?_, ?_⟩, rfl, rfl, rfl, ?_⟩
  · intro n; exact ⟨n + 3, fun _ => true, by omega, by simp⟩
  · intro n e _; exact ⟨n + 3, fun _ => true, by omega, by simp, rfl⟩
  · simp only [states]
    decide

/-- **C44** does not hold of the processes put in again because of `add` with a cookie that waits already: the second `add` of cookie 7 comes before
that of cookie 8, but cookie 8 runs before the second run of 7 (include/wvsubprocqueue.h:27-28 promises that it runs as soon as those before it have finished, unless an earlier one with a cookie still waits). -/
theorem C44_redo_order_fails : (run (new 1) [.add (some 7), .add none, .add (some 7), .add (some 8), .go fun _ => true, .go fun _ => true, .go fun _ => true,
      .go fun _ => true]).trace =
    [.enq 0 (some 7), .enq 1 none, .enq 2 (some 8), .start 0 (some 7), .fin 0, .enq 3 (some 7), .start 1 none, .fin 1, .start 2 (some 8), .fin 2,
      .start 3 (some 7)] := by
  decide

/-- **C44** does not include the last promise of include/wvsubprocqueue.h:29, "no more than twice after the final time it is enqueued": here cookie 7 is
started three times after the last `add`. -/
theorem C44_twice_fails : (run (new 1) [.add (some 7), .add none, .add (some 7), .go fun _ => false, .add (some 7), .add none, .add (some 7),
      .go fun _ => true, .go fun _ => true, .go fun _ => true, .go fun _ => true, .go fun _ => true]).trace =
    [.enq 0 (some 7), .enq 1 none, .start 0 (some 7), .enq 2 (some 7), .enq 3 none] ++
    [.fin 0, .enq 4 (some 7), .start 1 none, .fin 1, .start 2 (some 7), .fin 2, .enq 5 (some 7), .start 3 none, .fin 3, .start 4 (some 7), .fin 4,
      .start 5 (some 7)] := by
  decide

end Props
