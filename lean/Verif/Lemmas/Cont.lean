import Verif.Model.Cont
/-
The control flow of WvCont: the stacks that wait, and how control comes back to a caller by way of the top level.
-/
namespace Lemmas.Cont
open Wv.Cont
open Spec.Coroutine (Code Act Co Caller Status)

variable {σ : Type} {p : Code σ}

theorem run_trans {a b c : St σ} {l m : List (Option Nat × σ)} (h1 : Run p a l b) (h2 : Run p b m c) : Run p a (l ++ m) c := by
  induction h2 with
  | none => simpa using h1
  | more _ hs ih => rw [← List.append_assoc]; exact .more ih hs

theorem run_one {a b : St σ} (h : a.step p = some b) : Run p a b.seen b := by
  have := Run.more (Run.none (p := p) a) h
  simpa using this

theorem quiet {a b : St σ} (h : a.step p = some b) (hb : ∀ x, b.pc ≠ .go x) : Run p a [] b := by
  have := run_one h
  have e : b.seen = [] := by
    unfold St.seen
    cases hp : b.pc with
    | go x => exact absurd hp (hb x)
    | _ => rfl
  rwa [e] at this

theorem quiet_trans {a b c : St σ} {l : List (Option Nat × σ)} (h1 : Run p a [] b) (h2 : Run p b l c) : Run p a l c := by
  have := run_trans h1 h2; simpa using this

/-- The task of a WvCont; none for the main program. -/
def taskOf (b : St σ) (o : Option Nat) : Option Nat := o.bind fun c => (b.conts c).task

/-- The bottom of a stack. -/
def base (b : St σ) (o : Option Nat) : List (Frame σ) :=
  match o with
  | none => []
  | some c =>
    match (b.conts c).task with
    | none => []
    | some t => [.bouncer c, .loop t]

/-- Where a stack is saved. -/
def buf (b : St σ) (o : Option Nat) : Option (List (Frame σ)) :=
  match o with
  | none => b.top
  | some c => (b.conts c).task.bind fun t => (b.tasks t).state

/-- The frames of the operation a caller is in. -/
def opFrames (k : Caller σ) (c : Nat) : List (Frame σ) := if k.destroys then [.destroying c, .user k.code] else [.user k.code]

/-- A WvCont with a task of its own. -/
structure Linked (b : St σ) (c t : Nat) : Prop where
  alive : (b.conts c).alive = true
  task : (b.conts c).task = some t
  lt : t < b.ntasks
  recycled : (b.tasks t).recycled = false
  data : (b.tasks t).data = c

theorem Linked.inj {b : St σ} {c d t : Nat} (h : Linked b c t) (h2 : Linked b d t) : c = d := h.data.symm.trans h2.data

/-- What a caller of `c` has on its stack, when it waits. -/
def waits (b : St σ) (k : Caller σ) (c : Nat) : List (Frame σ) :=
  .inRun (taskOf b k.who) :: .inCall c k.who :: (opFrames k c ++ base b k.who)

/-- The stacks that wait. -/
def Chain (b : St σ) : List (Caller σ) → Option Nat → Prop
  | [], o => o = none
  | k :: ks, o => ∃ c t, o = some c ∧ Linked b c t ∧ (b.conts c).mydepth = ks.length + 1 ∧ buf b k.who = some (waits b k c) ∧
      (∀ u, taskOf b k.who = some u → (b.tasks u).running = true) ∧ Chain b ks k.who

/-- Those that are active. -/
def ids : List (Caller σ) → Option Nat → List Nat
  | [], o => o.toList
  | k :: ks, o => o.toList ++ ids ks k.who

theorem chain_depth {b : St σ} {ks : List (Caller σ)} {o : Option Nat} (h : Chain b ks o) (c : Nat) (hc : c ∈ ids ks o) :
    1 ≤ (b.conts c).mydepth ∧ (b.conts c).mydepth ≤ ks.length := by
  induction ks generalizing o with
  | nil => simp only [Chain] at h; subst h; simp [ids] at hc
  | cons k ks ih =>
    obtain ⟨d, t, rfl, -, hd, -, -, h⟩ := h
    simp only [ids, Option.toList_some, List.cons_append, List.nil_append, List.mem_cons] at hc
    rcases hc with rfl | hc
    · rw [hd]; simp
    · have := ih h hc; simp only [List.length_cons]; omega

theorem chain_linked {b : St σ} {ks : List (Caller σ)} {o : Option Nat} (h : Chain b ks o) (c : Nat) (hc : c ∈ ids ks o) :
    ∃ t, Linked b c t := by
  induction ks generalizing o with
  | nil => simp only [Chain] at h; subst h; simp [ids] at hc
  | cons k ks ih =>
    obtain ⟨d, t, rfl, hl, -, -, -, h⟩ := h
    simp only [ids, Option.toList_some, List.cons_append, List.nil_append, List.mem_cons] at hc
    rcases hc with rfl | hc
    · exact ⟨t, hl⟩
    · exact ih h hc

/-- The one that is called is not one of those that wait. -/
theorem chain_fresh {b : St σ} {ks : List (Caller σ)} {o : Option Nat} (h : Chain b ks o) {c : Nat}
    (hd : (b.conts c).mydepth = ks.length + 1 ∨ (b.conts c).mydepth = 0) : c ∉ ids ks o := by
  intro hc
  have := chain_depth h c hc
  omega

/-- Control passes: only saved stacks change, and who is told to finish. -/
structure Pass (is : List Nat) (b b' : St σ) : Prop where
  next : b'.next = b.next
  ntasks : b'.ntasks = b.ntasks
  free : b'.free = b.free
  man : b'.man = b.man
  curdata : b'.curdata = b.curdata
  depth : b'.depth = b.depth
  conts : ∀ c, ∃ q, b'.conts c =
    { b.conts c with finishing := (b.conts c).finishing || (decide (c ∈ is) && (b.conts c).links == 1), p1 := q }
  tasks : ∀ t, ∃ s, b'.tasks t = { b.tasks t with state := s }
  others : ∀ t, (∀ c ∈ is, (b.conts c).task ≠ some t) → (b'.tasks t).state = (b.tasks t).state

theorem Pass.task {is : List Nat} {b b' : St σ} (h : Pass is b b') (c : Nat) : (b'.conts c).task = (b.conts c).task := by
  obtain ⟨q, e⟩ := h.conts c; rw [e]
theorem Pass.alive {is : List Nat} {b b' : St σ} (h : Pass is b b') (c : Nat) : (b'.conts c).alive = (b.conts c).alive := by
  obtain ⟨q, e⟩ := h.conts c; rw [e]
theorem Pass.mydepth {is : List Nat} {b b' : St σ} (h : Pass is b b') (c : Nat) : (b'.conts c).mydepth = (b.conts c).mydepth := by
  obtain ⟨q, e⟩ := h.conts c; rw [e]
theorem Pass.links {is : List Nat} {b b' : St σ} (h : Pass is b b') (c : Nat) : (b'.conts c).links = (b.conts c).links := by
  obtain ⟨q, e⟩ := h.conts c; rw [e]
theorem Pass.ret {is : List Nat} {b b' : St σ} (h : Pass is b b') (c : Nat) : (b'.conts c).ret = (b.conts c).ret := by
  obtain ⟨q, e⟩ := h.conts c; rw [e]
theorem Pass.finishing {is : List Nat} {b b' : St σ} (h : Pass is b b') (c : Nat) :
    (b'.conts c).finishing = ((b.conts c).finishing || (decide (c ∈ is) && (b.conts c).links == 1)) := by
  obtain ⟨q, e⟩ := h.conts c; rw [e]
theorem Pass.running {is : List Nat} {b b' : St σ} (h : Pass is b b') (t : Nat) : (b'.tasks t).running = (b.tasks t).running := by
  obtain ⟨q, e⟩ := h.tasks t; rw [e]
theorem Pass.recycled {is : List Nat} {b b' : St σ} (h : Pass is b b') (t : Nat) : (b'.tasks t).recycled = (b.tasks t).recycled := by
  obtain ⟨q, e⟩ := h.tasks t; rw [e]
theorem Pass.data {is : List Nat} {b b' : St σ} (h : Pass is b b') (t : Nat) : (b'.tasks t).data = (b.tasks t).data := by
  obtain ⟨q, e⟩ := h.tasks t; rw [e]

theorem Pass.linked {is : List Nat} {b b' : St σ} (h : Pass is b b') {c t : Nat} (hl : Linked b c t) : Linked b' c t :=
  ⟨by rw [h.alive]; exact hl.alive, by rw [h.task]; exact hl.task, by rw [h.ntasks]; exact hl.lt,
    by rw [h.recycled]; exact hl.recycled, by rw [h.data]; exact hl.data⟩

theorem Pass.taskOf {is : List Nat} {b b' : St σ} (h : Pass is b b') (o : Option Nat) : taskOf b' o = taskOf b o := by
  cases o with
  | none => rfl
  | some c => exact h.task c

theorem Pass.base {is : List Nat} {b b' : St σ} (h : Pass is b b') (o : Option Nat) : base b' o = base b o := by
  cases o with
  | none => rfl
  | some c => simp only [Cont.base, h.task]

theorem Pass.waits {is : List Nat} {b b' : St σ} (h : Pass is b b') (k : Caller σ) (c : Nat) : waits b' k c = waits b k c := by
  simp only [Cont.waits, h.taskOf, h.base]

/-- A saved stack that nobody touches. -/
theorem Pass.buf {is : List Nat} {b b' : St σ} (h : Pass is b b') {c t : Nat} (hl : Linked b c t) (hc : c ∉ is)
    (hm : ∀ d ∈ is, ∃ u, Linked b d u) : buf b' (some c) = buf b (some c) := by
  simp only [Cont.buf, h.task, hl.task, Option.bind_some]
  refine h.others t fun d hd e => ?_
  obtain ⟨u, hu⟩ := hm d hd
  rw [hu.task] at e
  obtain rfl := Option.some.inj e
  exact hc (hu.inj hl ▸ hd)

theorem chain_top {b : St σ} {ks : List (Caller σ)} {k : Caller σ} {o : Option Nat} (h : Chain b (k :: ks) o) : ∃ s, b.top = some s := by
  induction ks generalizing k o with
  | nil =>
    obtain ⟨c, t, -, -, -, hb, -, h⟩ := h
    simp only [Chain] at h
    rw [h] at hb
    exact ⟨_, hb⟩
  | cons k' ks ih =>
    obtain ⟨c, t, -, -, -, hb, -, h⟩ := h
    exact ih h

/-- `run` saves one stack and jumps to another. -/
theorem run_eq {b : St σ} {t : Nat} {s : List (Frame σ)} (hr : (b.tasks t).recycled = false) (hc : b.cur ≠ some t)
    (hs : (b.tasks t).state = some s) :
    b.run t = some { (b.save b.cur (.inRun b.cur :: b.stk)).setT t fun x => { x with state := none } with
      pc := .landed, stk := s, cur := some t } := by
  have e : ((b.save b.cur (.inRun b.cur :: b.stk)).tasks t).state = some s := by
    cases hcur : b.cur with
    | none => simpa [St.save] using hs
    | some o =>
      have : t ≠ o := by rintro rfl; exact hc hcur
      simpa [St.save, St.setT, this] using hs
  simp only [St.run, hr, Bool.false_eq_true, if_false, hc, e, Option.map_some]

theorem save_conts (b : St σ) (o : Option Nat) (s : List (Frame σ)) : (b.save o s).conts = b.conts := by cases o <;> rfl
theorem save_next (b : St σ) (o : Option Nat) (s : List (Frame σ)) : (b.save o s).next = b.next := by cases o <;> rfl
theorem save_ntasks (b : St σ) (o : Option Nat) (s : List (Frame σ)) : (b.save o s).ntasks = b.ntasks := by cases o <;> rfl
theorem save_free (b : St σ) (o : Option Nat) (s : List (Frame σ)) : (b.save o s).free = b.free := by cases o <;> rfl
theorem save_man (b : St σ) (o : Option Nat) (s : List (Frame σ)) : (b.save o s).man = b.man := by cases o <;> rfl
theorem save_curdata (b : St σ) (o : Option Nat) (s : List (Frame σ)) : (b.save o s).curdata = b.curdata := by cases o <;> rfl
theorem save_depth (b : St σ) (o : Option Nat) (s : List (Frame σ)) : (b.save o s).depth = b.depth := by cases o <;> rfl
theorem save_top (b : St σ) (o : Option Nat) (s : List (Frame σ)) :
    (b.save o s).top = if o = none then some s else b.top := by cases o <;> simp [St.save, St.setT]
theorem save_tasks (b : St σ) (o : Option Nat) (s : List (Frame σ)) (t : Nat) :
    (b.save o s).tasks t = if o = some t then { b.tasks t with state := some s } else b.tasks t := by
  cases o with
  | none => simp [St.save]
  | some o => simp only [St.save, St.setT, Option.some.injEq, eq_comm (a := o)]

/-- The chain of those that wait depends only on what it mentions. -/
theorem chain_congr {b b' : St σ} {ks : List (Caller σ)} {o : Option Nat} (h : Chain b ks o)
    (hl : ∀ c ∈ ids ks o, ∀ t, Linked b c t → Linked b' c t) (hm : ∀ c ∈ ids ks o, (b'.conts c).mydepth = (b.conts c).mydepth)
    (ht : ks ≠ [] → b'.top = b.top)
    (hb : ∀ k ∈ ks, ∀ c, k.who = some c → ∀ t, Linked b c t → (b'.tasks t).state = (b.tasks t).state)
    (hr : ∀ k ∈ ks, ∀ c, k.who = some c → ∀ t, Linked b c t → (b'.tasks t).running = (b.tasks t).running) : Chain b' ks o := by
  induction ks generalizing o with
  | nil => exact h
  | cons k ks ih =>
    obtain ⟨c, t, rfl, hlk, hd, hbuf, hrun, hw⟩ := h
    have hsub : ∀ x ∈ ids ks k.who, x ∈ ids (k :: ks) (some c) := by intro x hx; simp [ids, hx]
    have hc : c ∈ ids (k :: ks) (some c) := by simp [ids]
    refine ⟨c, t, rfl, hl c hc t hlk, by rw [hm c hc]; exact hd, ?_, ?_,
      ih hw (fun x hx => hl x (hsub x hx)) (fun x hx => hm x (hsub x hx)) (fun _ => ht (by simp))
        (fun k' hk' => hb k' (by simp [hk'])) (fun k' hk' => hr k' (by simp [hk']))⟩
    · cases hwho : k.who with
      | none =>
        rw [hwho] at hbuf
        simp only [buf, waits, hwho, taskOf, base] at hbuf ⊢
        rw [ht (by simp)]; exact hbuf
      | some d =>
        have hdi : d ∈ ids ks k.who := by cases ks <;> simp [ids, hwho]
        obtain ⟨u, hu⟩ := chain_linked hw d hdi
        have hu' := hl d (hsub d hdi) u hu
        rw [hwho] at hbuf
        simp only [buf, waits, hwho, taskOf, base, hu.task, hu'.task, Option.bind_some] at hbuf ⊢
        rw [hb k (by simp) d hwho u hu]; exact hbuf
    · cases hwho : k.who with
      | none => intro u hu; simp [taskOf] at hu
      | some d =>
        have hdi : d ∈ ids ks k.who := by cases ks <;> simp [ids, hwho]
        obtain ⟨u, hu⟩ := chain_linked hw d hdi
        have hu' := hl d (hsub d hdi) u hu
        intro u' he
        simp only [taskOf, Option.bind_some, hu'.task] at he
        obtain rfl := Option.some.inj he
        rw [hr k (by simp) d hwho u hu]
        exact hrun u (by simp [taskOf, hwho, hu.task])

/-- Control that has come to the top level goes down to the caller of `c`. -/
theorem descend {ks : List (Caller σ)} {k : Caller σ} {c : Nat} {b : St σ} (h : Chain b (k :: ks) (some c)) (hd : ks.length + 1 ≤ b.depth)
    {s : List (Frame σ)} (hs : b.top = some s) :
    ∃ b', Run p { b with pc := .landed, stk := s, top := none } [] b' ∧ b'.pc = .runRet ∧
      b'.stk = .inCall c k.who :: (opFrames k c ++ base b k.who) ∧ b'.cur = taskOf b k.who ∧ Chain b' ks k.who ∧
      Pass (ids ks k.who) b b' := by
  induction ks generalizing k c with
  | nil =>
    obtain ⟨c', t, e, hl, hm, hb, hr, hw⟩ := h
    obtain rfl := Option.some.inj e
    simp only [Chain] at hw
    rw [hw] at hb ⊢
    have e2 : s = waits b k c := Option.some.inj (hs.symm.trans hb)
    refine ⟨{ b with cur := none, pc := .runRet, stk := .inCall c none :: (opFrames k c ++ base b none), top := none }, ?_, rfl, rfl, rfl,
      rfl, ?_⟩
    · refine quiet ?_ (fun x hx => by cases hx)
      subst e2
      simp only [St.step, St.landed, waits, hw, taskOf, Option.bind_none]
    · exact ⟨rfl, rfl, rfl, rfl, rfl, rfl, fun c => ⟨(b.conts c).p1, by simp [ids]⟩, fun t => ⟨_, rfl⟩, fun _ _ => rfl⟩
  | cons k' ks ih =>
    obtain ⟨c0, t0, e, hl0, hm0, hb0, hr0, hw⟩ := h
    obtain rfl := Option.some.inj e
    obtain ⟨c1, hc1⟩ : ∃ c1, k.who = some c1 := by obtain ⟨c1, t1, e1, -⟩ := hw; exact ⟨c1, e1⟩
    rw [hc1] at hw
    obtain ⟨b2, hrun, hpc, hstk, hcur, hch, hp⟩ := ih hw (by simp only [List.length_cons] at hd; omega)
    obtain ⟨c2, t1, e1, hl1, hm1, hb1, hr1, hw1⟩ := hw
    obtain rfl := Option.some.inj e1
    have hnot : c1 ∉ ids ks k'.who := chain_fresh hw1 (Or.inl hm1)
    have hl1' := hp.linked hl1
    have hstate : (b2.tasks t1).state = some (waits b k c) := by
      have := hp.buf hl1 hnot (fun d hd => chain_linked hw1 d hd)
      rw [hc1] at hb0
      rw [hb0] at this
      simpa [buf, hl1'.task] using this
    have hcne : b2.cur ≠ some t1 := by
      rw [hcur]
      cases hwho : k'.who with
      | none => simp [taskOf]
      | some d =>
        have hdi : d ∈ ids ks k'.who := by cases ks <;> simp [ids, hwho]
        obtain ⟨u, hu⟩ := chain_linked hw1 d hdi
        simp only [taskOf, Option.bind_some, hu.task]
        intro he
        obtain rfl := Option.some.inj he
        exact hnot (hu.inj hl1 ▸ hdi)
    -- the state in which WvCont calls run again
    let f : Data → Data := fun x => if x.links = 1 then { x with finishing := true, p1 := 0 } else x
    let b3 : St σ := b2.setC c1 f
    have hs1 : (if (b2.conts c1).links = 1 then b2.setC c1 fun x => { x with finishing := true, p1 := 0 } else b2) = b3 := by
      show _ = b2.setC c1 f
      by_cases hlk : (b2.conts c1).links = 1
      · rw [if_pos hlk]
        simp only [St.setC, f]
        congr 1
        funext i
        by_cases hi : i = c1
        · subst hi; simp [hlk]
        · simp [hi]
      · rw [if_neg hlk]
        simp only [St.setC, f]
        have : (fun i => if i = c1 then if (b2.conts i).links = 1 then { b2.conts i with finishing := true, p1 := 0 } else b2.conts i
            else b2.conts i) = b2.conts := by
          funext i
          by_cases hi : i = c1
          · subst hi; simp [hlk]
          · simp [hi]
        rw [this]
    have h3 : b3.run t1 = some { (b3.save b2.cur (.inRun b2.cur :: b2.stk)).setT t1 fun x => { x with state := none } with
        pc := .landed, stk := waits b k c, cur := some t1 } := run_eq (b := b3) hl1'.recycled hcne hstate
    have hf : ∀ x : Data, (f x).task = x.task ∧ (f x).mydepth = x.mydepth ∧ (f x).alive = x.alive := by
      intro x; simp only [f]; split <;> exact ⟨rfl, rfl, rfl⟩
    have hstep1 : b2.step p = b3.run t1 := by
      simp only [St.step, hpc, hstk, St.runRet, hl1'.alive, Bool.true_eq_false, if_false]
      rw [hs1]
      have e1 : (b3.conts c1).task = some t1 := by simp only [b3, St.setC, if_true]; rw [(hf _).1]; exact hl1'.task
      have e2 : (b3.conts c1).mydepth < b3.depth := by
        simp only [b3, St.setC, if_true]; rw [(hf _).2.1, hp.mydepth, hm1, hp.depth]; simp only [List.length_cons] at hd; omega
      simp only [e1, Option.bind_some, e2, or_true, if_true]
    let b4 : St σ := { (b3.save b2.cur (.inRun b2.cur :: b2.stk)).setT t1 fun x => { x with state := none } with
        pc := .runRet, stk := .inCall c (some c1) :: (opFrames k c ++ base b (some c1)), cur := some t1 }
    have hstep2 : St.step p { (b3.save b2.cur (.inRun b2.cur :: b2.stk)).setT t1 fun x => { x with state := none } with
        pc := .landed, stk := waits b k c, cur := some t1 } = some b4 := by
      simp only [St.step, St.landed, waits, hc1, taskOf, Option.bind_some, hl1.task, b4]
    have hlink4 : ∀ d t, Linked b2 d t → Linked b4 d t := by
      intro d t h
      have hcc : (b4.conts d) = if d = c1 then f (b2.conts d) else b2.conts d := by
        simp only [b4, St.setT, save_conts, b3, St.setC]
      have htt : (b4.tasks t).recycled = (b2.tasks t).recycled ∧ (b4.tasks t).data = (b2.tasks t).data := by
        simp only [b4, St.setT, save_tasks, b3, St.setC]
        (repeat' split) <;> exact ⟨rfl, rfl⟩
      refine ⟨?_, ?_, ?_, by rw [htt.1]; exact h.recycled, by rw [htt.2]; exact h.data⟩
      · rw [hcc]; split
        · rw [(hf _).2.2]; exact h.alive
        · exact h.alive
      · rw [hcc]; split
        · rw [(hf _).1]; exact h.task
        · exact h.task
      · simp only [b4, St.setT, save_ntasks]; exact h.lt
    have hm4 : ∀ d, (b4.conts d).mydepth = (b2.conts d).mydepth := by
      intro d
      simp only [b4, St.setT, save_conts, b3, St.setC]
      split
      · exact (hf _).2.1
      · rfl
    have hch4 : Chain b4 ks k'.who := by
      refine chain_congr hch (fun d _ t h => hlink4 d t h) (fun d _ => hm4 d) ?_ ?_ ?_
      · intro hne
        simp only [b4, St.setT, save_top]
        rw [if_neg]
        · rfl
        · rw [hcur]
          cases ks with
          | nil => exact absurd rfl hne
          | cons k2 ks =>
            obtain ⟨d, u, e, hu, -⟩ := hw1
            rw [e]; simp [taskOf, hu.task]
      · intro k2 hk2 d hd t h
        have hin : ∀ (l : List (Caller σ)) (o : Option Nat), Chain b2 l o → k2 ∈ l → d ∈ ids l o ∧ o ≠ some d := by
          intro l
          induction l with
          | nil => intro o _ h; cases h
          | cons a l ih =>
            intro o hc hk
            obtain ⟨d', t', rfl, -, hdp, -, -, hc⟩ := hc
            have hd' : d ∈ ids l a.who := by
              rcases List.mem_cons.mp hk with rfl | hk
              · cases l <;> simp [ids, hd]
              · exact (ih _ hc hk).1
            refine ⟨by simp [ids, hd'], ?_⟩
            intro e
            obtain rfl := Option.some.inj e
            have := chain_depth hc d' hd'
            omega
        obtain ⟨hin1, hin2⟩ := hin ks k'.who hch hk2
        have n1 : t ≠ t1 := by
          rintro rfl
          exact hnot (h.inj hl1' ▸ hin1)
        have n2 : b2.cur ≠ some t := by
          rw [hcur]
          cases hwho : k'.who with
          | none => simp [taskOf]
          | some w =>
            have hwi : w ∈ ids ks k'.who := by cases ks <;> simp [ids, hwho]
            obtain ⟨u, hu⟩ := chain_linked hw1 w hwi
            simp only [taskOf, Option.bind_some, hu.task]
            intro he
            obtain rfl := Option.some.inj he
            exact hin2 (by rw [hwho, (hp.linked hu).inj h])
        simp only [b4, St.setT, save_tasks, n1, if_false, n2, b3, St.setC]
      · intro k2 hk2 d hd t h
        simp only [b4, St.setT, save_tasks, b3, St.setC]
        (repeat' split) <;> rfl
    have hbuf4 : buf b4 k'.who = some (waits b4 k' c1) := by
      have hw4 : ∀ o, taskOf b4 o = taskOf b o := by
        intro o
        cases o with
        | none => rfl
        | some d =>
          simp only [taskOf, Option.bind_some, b4, St.setT, save_conts, b3, St.setC]
          split
          · rw [(hf _).1, hp.task]
          · rw [hp.task]
      have hbs4 : ∀ o, base b4 o = base b o := by
        intro o
        cases o with
        | none => rfl
        | some d =>
          have := hw4 (some d)
          simp only [taskOf, Option.bind_some] at this
          simp only [base, this]
      have hwt : waits b4 k' c1 = .inRun b2.cur :: b2.stk := by
        simp only [waits, hw4, hbs4, hcur, hstk]
      rw [hwt]
      cases hwho : k'.who with
      | none =>
        have : b2.cur = none := by rw [hcur, hwho]; rfl
        simp only [buf, b4, St.setT, save_top, this, if_true]
      | some d =>
        have hdi : d ∈ ids ks k'.who := by cases ks <;> simp [ids, hwho]
        obtain ⟨u, hu⟩ := chain_linked hw1 d hdi
        have h4 := hlink4 d u (hp.linked hu)
        have hc4 : b2.cur = some u := by rw [hcur, hwho]; simp [taskOf, hu.task]
        have hne : u ≠ t1 := by rintro rfl; exact hcne hc4
        simp only [buf, h4.task, Option.bind_some]
        simp only [b4, St.setT, save_tasks, hne, if_false, hc4, if_true]
    refine ⟨b4, quiet_trans hrun (quiet_trans (quiet (hstep1.trans h3) (fun x hx => by cases hx)) (quiet hstep2 (fun x hx => by cases hx))),
      rfl, ?_, ?_, ?_, ?_⟩
    · rw [hc1]
    · rw [hc1]; simp [b4, taskOf, hl1.task]
    · rw [hc1]
      refine ⟨c1, t1, rfl, hlink4 _ _ hl1', by rw [hm4, hp.mydepth, hm1], hbuf4, ?_, hch4⟩
      intro u hu
      have hw4 : taskOf b4 k'.who = taskOf b k'.who := by
        cases k'.who with
        | none => rfl
        | some d =>
          simp only [taskOf, Option.bind_some, b4, St.setT, save_conts, b3, St.setC]
          split
          · rw [(hf _).1, hp.task]
          · rw [hp.task]
      rw [hw4] at hu
      have := hr1 u hu
      rw [← hp.running] at this
      simp only [b4, St.setT, save_tasks, b3, St.setC]
      (repeat' split) <;> exact this
    · rw [hc1]
      refine ⟨?_, ?_, ?_, ?_, ?_, ?_, ?_, ?_, ?_⟩
      · simp only [b4, St.setT, save_next]; exact hp.next
      · simp only [b4, St.setT, save_ntasks]; exact hp.ntasks
      · simp only [b4, St.setT, save_free]; exact hp.free
      · simp only [b4, St.setT, save_man]; exact hp.man
      · simp only [b4, St.setT, save_curdata]; exact hp.curdata
      · simp only [b4, St.setT, save_depth]; exact hp.depth
      · intro d
        obtain ⟨q, hq⟩ := hp.conts d
        simp only [b4, St.setT, save_conts, b3, St.setC]
        by_cases hd1 : d = c1
        · subst hd1
          simp only [if_true, f, hq, hnot, decide_false, Bool.false_and, Bool.or_false]
          by_cases hlk : (b.conts d).links = 1
          · refine ⟨0, ?_⟩
            simp [hlk, ids]
          · refine ⟨q, ?_⟩
            simp [hlk]
        · refine ⟨q, ?_⟩
          simp only [hd1, if_false, hq, ids, Option.toList_some, List.cons_append, List.nil_append, List.mem_cons, false_or]
      · intro t
        obtain ⟨s', hs'⟩ := hp.tasks t
        simp only [b4, St.setT, save_tasks, b3, St.setC, hs']
        (repeat' split) <;> exact ⟨_, rfl⟩
      · intro t ht
        have hta : ∀ d ∈ ids ks k'.who, (b.conts d).task ≠ some t := fun d hd => ht d (by simp [ids, hd])
        have n1 : t ≠ t1 := by
          rintro rfl
          exact ht c1 (by simp [ids]) hl1.task
        have n2 : b2.cur ≠ some t := by
          rw [hcur]
          cases hwho : k'.who with
          | none => simp [taskOf]
          | some w => simpa [taskOf] using hta w (by cases ks <;> simp [ids, hwho])
        rw [← hp.others t hta]
        simp only [b4, St.setT, save_tasks, n1, if_false, n2, b3, St.setC]

/-! ## The relation -/

/-- Runs, or waits for something that runs. -/
def act? : Status σ → Bool
  | .active => true
  | _ => false

/-- How a WvCont stands for a coroutine. -/
structure CoOk (b : St σ) (d : Co σ) (c : Nat) : Prop where
  objs : (b.conts c).objs = d.handles
  fin : 0 < d.handles → d.finishing = false
  /-- it is not active -/
  off : act? d.status = false → (b.conts c).alive = true → (b.conts c).links = d.handles ∧ (b.conts c).mydepth = 0
  /-- it exists while it has handles, or runs -/
  alive : (b.conts c).alive = true ↔ 0 < d.handles ∨ act? d.status = true
  body : (b.conts c).alive = true → (b.conts c).body = d.body
  finishing : (b.conts c).alive = true → (b.conts c).finishing = d.finishing
  task : ∀ t, (b.conts c).alive = true → (b.conts c).task = some t → Linked b c t
  status : (b.conts c).alive = true →
    match d.status with
    | .idle => ∀ t, (b.conts c).task = some t → (b.tasks t).running = false ∧ (b.tasks t).state = some [.loop t]
    | .waiting x => ∃ t, (b.conts c).task = some t ∧ (b.tasks t).running = true ∧
        (b.tasks t).state = some [.yielding, .user x, .bouncer c, .loop t]
    | .active => ∃ t, (b.conts c).task = some t
  waiting : ∀ x, d.status = .waiting x → 0 < d.handles

/-- The task manager's free tasks. -/
structure FreeOk (b : St σ) : Prop where
  nodup : b.free.Nodup
  ok : ∀ t ∈ b.free, t < b.ntasks ∧ (b.tasks t).recycled = true ∧ (b.tasks t).running = false ∧ (b.tasks t).state = some [.loop t]

/-- The links of those that are active. -/
def Links (cos : Nat → Co σ) (b : St σ) : List (Caller σ) → Option Nat → Prop
  | [], _ => True
  | k :: ks, o => (∀ c, o = some c → (b.conts c).links = (cos c).handles + 1 + (if k.destroys then 1 else 0) ∧
      (k.destroys = true → (cos c).handles = 0 ∧ (cos c).finishing = true)) ∧ Links cos b ks k.who

/-- All but the place where the implementation is; `e` is one that is being changed. -/
structure Ctx (a : Spec.Coroutine.St σ) (b : St σ) (e : Option Nat) : Prop where
  cur : b.cur = taskOf b a.cur
  curdata : b.curdata = a.cur
  depth : b.depth = a.callers.length
  next : b.next = a.next
  new : ∀ c, a.next ≤ c → (a.cos c).handles = 0 ∧ (a.cos c).status = .idle
  cos : ∀ c, e ≠ some c → CoOk b (a.cos c) c
  free : FreeOk b
  chain : Chain b a.callers a.cur
  links : Links a.cos b a.callers a.cur
  running : ∀ t, taskOf b a.cur = some t → (b.tasks t).running = true
  active : ∀ c, act? (a.cos c).status = true ↔ c ∈ ids a.callers a.cur

/-- The implementation is about to run the user's code that the specification is about to run. -/
structure Rel (a : Spec.Coroutine.St σ) (b : St σ) : Prop where
  pc : b.pc = .go a.code
  stk : b.stk = base b a.cur
  ctx : Ctx a b none

theorem init_rel (x : σ) : Rel (Spec.Coroutine.St.init x) (St.init x) := by
  refine ⟨rfl, rfl, rfl, rfl, rfl, rfl, fun c _ => ⟨rfl, rfl⟩, fun c _ => ?_, ⟨List.nodup_nil, fun t ht => by cases ht⟩, rfl, trivial,
    fun t h => (by cases h), fun c => by simp [Spec.Coroutine.St.init, ids, act?]⟩
  constructor <;> simp [St.init, Spec.Coroutine.St.init, act?]

/-! ## What the relation depends on -/

theorem linked_congr {b b' : St σ} {c t : Nat} (h : Linked b c t) (h1 : (b'.conts c).alive = (b.conts c).alive)
    (h2 : (b'.conts c).task = (b.conts c).task) (h3 : b.ntasks ≤ b'.ntasks) (h4 : (b'.tasks t).recycled = (b.tasks t).recycled)
    (h5 : (b'.tasks t).data = (b.tasks t).data) : Linked b' c t :=
  ⟨h1.trans h.alive, h2.trans h.task, Nat.lt_of_lt_of_le h.lt h3, h4.trans h.recycled, h5.trans h.data⟩

theorem coOk_congr {b b' : St σ} {d : Co σ} {c : Nat} (h : CoOk b d c) (hc : b'.conts c = b.conts c) (hn : b.ntasks ≤ b'.ntasks)
    (ht : ∀ t, Linked b c t → (b'.tasks t).recycled = (b.tasks t).recycled ∧ (b'.tasks t).data = (b.tasks t).data ∧
      (act? d.status = false → b'.tasks t = b.tasks t)) : CoOk b' d c := by
  refine ⟨by rw [hc]; exact h.objs, h.fin, by rw [hc]; exact h.off, by rw [hc]; exact h.alive, by rw [hc]; exact h.body,
    by rw [hc]; exact h.finishing, ?_, ?_, h.waiting⟩
  · intro t h1 h2
    rw [hc] at h1 h2
    have hl := h.task t h1 h2
    exact linked_congr hl (by rw [hc]) (by rw [hc]) hn (ht t hl).1 (ht t hl).2.1
  · intro h1
    rw [hc] at h1
    have hs := h.status h1
    have hta := h.task
    revert hs ht
    cases d.status with
    | idle =>
      intro ht hs t h2
      rw [hc] at h2
      rw [(ht t (hta t h1 h2)).2.2 rfl]
      exact hs t h2
    | waiting x =>
      intro ht hs
      obtain ⟨t, h2, h3⟩ := hs
      refine ⟨t, by rw [hc]; exact h2, ?_⟩
      rw [(ht t (hta t h1 h2)).2.2 rfl]
      exact h3
    | active =>
      intro ht hs
      obtain ⟨t, h2⟩ := hs
      exact ⟨t, by rw [hc]; exact h2⟩

theorem links_congr {cos cos' : Nat → Co σ} {b b' : St σ} {ks : List (Caller σ)} {o : Option Nat} (h : Links cos b ks o)
    (h1 : ∀ c ∈ ids ks o, (b'.conts c).links = (b.conts c).links) (h2 : ∀ c ∈ ids ks o, (cos' c).handles = (cos c).handles)
    (h3 : ∀ c ∈ ids ks o, (cos c).finishing = true → (cos' c).finishing = true) : Links cos' b' ks o := by
  induction ks generalizing o with
  | nil => trivial
  | cons k ks ih =>
    refine ⟨?_, ih h.2 (fun c hc => h1 c (by simp [ids, hc])) (fun c hc => h2 c (by simp [ids, hc])) (fun c hc => h3 c (by simp [ids, hc]))⟩
    rintro c rfl
    have hc : c ∈ ids (k :: ks) (some c) := by simp [ids]
    rw [h1 c hc, h2 c hc]
    refine ⟨(h.1 c rfl).1, fun hd => ⟨((h.1 c rfl).2 hd).1, h3 c hc ((h.1 c rfl).2 hd).2⟩⟩

theorem links_mem {cos : Nat → Co σ} {b : St σ} {ks : List (Caller σ)} {o : Option Nat} (h : Links cos b ks o) (hch : Chain b ks o) {c : Nat}
    (hc : c ∈ ids ks o) : ∃ d : Bool, (b.conts c).links = (cos c).handles + 1 + (if d then 1 else 0) ∧
      (d = true → (cos c).handles = 0 ∧ (cos c).finishing = true) := by
  induction ks generalizing o with
  | nil => simp only [Chain] at hch; subst hch; simp [ids] at hc
  | cons k ks ih =>
    obtain ⟨d, t, rfl, -, -, -, -, hch⟩ := hch
    simp only [ids, Option.toList_some, List.cons_append, List.nil_append, List.mem_cons] at hc
    rcases hc with rfl | hc
    · exact ⟨k.destroys, h.1 c rfl⟩
    · exact ih h.2 hch hc

theorem cur_mem {b : St σ} {ks : List (Caller σ)} {c : Nat} : c ∈ ids ks (some c) := by cases ks <;> simp [ids]

theorem who_mem {ks : List (Caller σ)} {o : Option Nat} {k : Caller σ} (hk : k ∈ ks) {c : Nat} (hc : k.who = some c) : c ∈ ids ks o := by
  induction ks generalizing o with
  | nil => cases hk
  | cons a ks ih =>
    simp only [ids, List.mem_append]
    right
    rcases List.mem_cons.mp hk with rfl | hk
    · rw [hc]; cases ks <;> simp [ids]
    · exact ih hk

theorem who_ne {b : St σ} {ks : List (Caller σ)} {o : Option Nat} (h : Chain b ks o) {k : Caller σ} (hk : k ∈ ks) {c : Nat}
    (hc : k.who = some c) : o ≠ some c := by
  cases ks with
  | nil => cases hk
  | cons a ks =>
    obtain ⟨d, t, rfl, -, hd, -, -, h⟩ := h
    intro e
    obtain rfl := Option.some.inj e
    have hm : d ∈ ids ks a.who := by
      rcases List.mem_cons.mp hk with rfl | hk
      · rw [hc]; cases ks <;> simp [ids]
      · exact who_mem hk hc
    have := chain_depth h d hm
    omega

theorem chain_none {b : St σ} {ks : List (Caller σ)} {o : Option Nat} (h : Chain b ks o) (hn : ks ≠ []) : ∃ c, o = some c := by
  cases ks with
  | nil => exact absurd rfl hn
  | cons k ks => obtain ⟨c, t, e, -⟩ := h; exact ⟨c, e⟩

/-! ## A call -/

theorem enter_rel {a : Spec.Coroutine.St σ} {b : St σ} {c t : Nat} {ds : Bool} {S : List (Frame σ)} (h : Ctx a b (some c))
    (hna : act? (a.cos c).status = false) (hcn : c < a.next) (hl : Linked b c t) (hm : (b.conts c).mydepth = 0) (hS : (b.tasks t).state = some S)
    (ho : (b.conts c).objs = (a.cos c).handles) (hf : 0 < (a.cos c).handles → (a.cos c).finishing = false)
    (hbd : (b.conts c).body = (a.cos c).body) (hfi : (b.conts c).finishing = (a.cos c).finishing)
    (hlk : (b.conts c).links = (a.cos c).handles + (if ds then 1 else 0))
    (hds : ds = true → (a.cos c).handles = 0 ∧ (a.cos c).finishing = true) (hr : (b.tasks t).running = true)
    (hstk : b.stk = opFrames ⟨a.cur, a.code, ds⟩ c ++ base b a.cur) :
    ∃ b3, b.call c = some b3 ∧ b3.pc = .landed ∧ b3.stk = S ∧ b3.curdata = some c ∧ (b3.conts c).alive = true ∧
      (b3.conts c).p1 = (b.conts c).p1 ∧ (b3.conts c).body = (b.conts c).body ∧
      (b3.tasks t).running = true ∧ (b3.tasks t).data = c ∧
      ∀ y, Rel (a.enter c y ds) { b3 with pc := .go y, stk := [.bouncer c, .loop t] } := by
  have hci : c ∉ ids a.callers a.cur := by rw [← h.active]; simp [hna]
  have hne : taskOf b a.cur ≠ some t := by
    cases hcur : a.cur with
    | none => simp [taskOf]
    | some d =>
      have hd : d ∈ ids a.callers a.cur := by rw [hcur]; exact cur_mem (b := b)
      obtain ⟨u, hu⟩ := chain_linked h.chain d hd
      simp only [taskOf, Option.bind_some, hu.task]
      intro e
      obtain rfl := Option.some.inj e
      exact hci (hu.inj hl ▸ hd)
  let b1 : St σ := { b.setC c fun x => { x with links := x.links + 1, mydepth := b.depth + 1 } with
        curdata := some c, depth := b.depth + 1, stk := .inCall c b.curdata :: b.stk }
  have hrun := run_eq (b := b1) (t := t) (s := S) hl.recycled (by show b.cur ≠ some t; rw [h.cur]; exact hne) hS
  let b3 : St σ := { (b1.save b1.cur (.inRun b1.cur :: b1.stk)).setT t fun x => { x with state := none } with
      pc := .landed, stk := S, cur := some t }
  have hcall : b.call c = some b3 := by
    simp only [St.call, hl.alive, Bool.true_eq_false, if_false, hm, ne_eq, not_true_eq_false, hl.task, Option.bind_some]
    exact hrun
  -- what changed
  have cc : (b3.conts c) = { b.conts c with links := (b.conts c).links + 1, mydepth := b.depth + 1 } := by
    simp only [b3, St.setT, save_conts, b1, St.setC, if_true]
  have cd : ∀ d, d ≠ c → b3.conts d = b.conts d := by
    intro d hd; simp only [b3, St.setT, save_conts, b1, St.setC, hd, if_false]
  have tt : ∀ u, (b3.tasks u).running = (b.tasks u).running ∧ (b3.tasks u).recycled = (b.tasks u).recycled ∧
      (b3.tasks u).data = (b.tasks u).data := by
    intro u
    simp only [b3, St.setT, save_tasks, b1, St.setC]
    (repeat' split) <;> exact ⟨rfl, rfl, rfl⟩
  have te : ∀ u, u ≠ t → taskOf b a.cur ≠ some u → b3.tasks u = b.tasks u := by
    intro u hu hu2
    have : b.cur ≠ some u := by rw [h.cur]; exact hu2
    simp only [b3, St.setT, save_tasks, b1, St.setC, hu, if_false, this]
  have hn3 : b3.next = b.next := by simp only [b3, St.setT, save_next, b1, St.setC]
  have hnt3 : b3.ntasks = b.ntasks := by simp only [b3, St.setT, save_ntasks, b1, St.setC]
  have hfr3 : b3.free = b.free := by simp only [b3, St.setT, save_free, b1, St.setC]
  have hdp3 : b3.depth = b.depth + 1 := by simp only [b3, St.setT, save_depth, b1]
  have hcd3 : b3.curdata = some c := by simp only [b3, St.setT, save_curdata, b1]
  have tk : ∀ d, (b3.conts d).task = (b.conts d).task := by
    intro d
    by_cases hd : d = c
    · subst hd; rw [cc]
    · rw [cd d hd]
  have al : ∀ d, (b3.conts d).alive = (b.conts d).alive := by
    intro d
    by_cases hd : d = c
    · subst hd; rw [cc]
    · rw [cd d hd]
  have to3 : ∀ o, taskOf b3 o = taskOf b o := by
    intro o; cases o with
    | none => rfl
    | some d => exact tk d
  have bs3 : ∀ o, base b3 o = base b o := by
    intro o; cases o with
    | none => rfl
    | some d => simp only [base, tk]
  have lk3 : ∀ d u, Linked b d u → Linked b3 d u := fun d u hd =>
    linked_congr hd (al d) (tk d) (Nat.le_of_eq hnt3.symm) (tt u).2.1 (tt u).2.2
  have hk3 : waits b3 ⟨a.cur, a.code, ds⟩ c = .inRun b1.cur :: b1.stk := by
    simp only [waits, to3, bs3, b1, h.curdata, hstk]
    show _ = Frame.inRun b.cur :: _
    rw [h.cur]
  have hbuf3 : buf b3 a.cur = some (waits b3 ⟨a.cur, a.code, ds⟩ c) := by
    rw [hk3]
    cases hcur : a.cur with
    | none =>
      have : b1.cur = none := by show b.cur = none; rw [h.cur, hcur]; rfl
      simp only [buf, b3, St.setT, save_top, this, if_true]
    | some d =>
      have hd : d ∈ ids a.callers a.cur := by rw [hcur]; exact cur_mem (b := b)
      obtain ⟨u, hu⟩ := chain_linked h.chain d hd
      have hc1 : b1.cur = some u := by show b.cur = some u; rw [h.cur, hcur]; simp [taskOf, hu.task]
      have hut : u ≠ t := by rintro rfl; exact hci (hu.inj hl ▸ hd)
      simp only [buf, tk, hu.task, Option.bind_some]
      simp only [b3, St.setT, save_tasks, hut, if_false, hc1, if_true]
  have hch3 : Chain b3 a.callers a.cur := by
    refine chain_congr h.chain (fun d _ u hd => lk3 d u hd) (fun d hd => by rw [cd d (by rintro rfl; exact hci hd)]) ?_ ?_ (fun _ _ _ _ _ _ => (tt _).1)
    · intro hne'
      obtain ⟨d, hd⟩ := chain_none h.chain hne'
      have hdm : d ∈ ids a.callers a.cur := by rw [hd]; exact cur_mem (b := b)
      obtain ⟨u, hu⟩ := chain_linked h.chain d hdm
      have hc1 : b1.cur = some u := by show b.cur = some u; rw [h.cur, hd]; simp [taskOf, hu.task]
      simp only [b3, St.setT, save_top, hc1]
      simp [b1, St.setC]
    · intro k hk d hd u hu
      rw [te u]
      · rintro rfl; exact hci (hu.inj hl ▸ who_mem hk hd)
      · have hne' := who_ne h.chain hk hd
        intro e
        cases hcur : a.cur with
        | none => rw [hcur] at e; cases e
        | some w =>
          have hw : w ∈ ids a.callers a.cur := by rw [hcur]; exact cur_mem (b := b)
          obtain ⟨u', hu'⟩ := chain_linked h.chain w hw
          rw [hcur] at e
          simp only [taskOf, Option.bind_some, hu'.task] at e
          obtain rfl := Option.some.inj e
          exact hne' (by rw [hcur, hu'.inj hu])
  refine ⟨b3, hcall, rfl, rfl, hcd3, by rw [al]; exact hl.alive, by rw [cc], by rw [cc], by rw [(tt t).1]; exact hr,
    by rw [(tt t).2.2]; exact hl.data, fun y => ?_⟩
  let b4 : St σ := { b3 with pc := .go y, stk := [.bouncer c, .loop t] }
  have lk4 : ∀ d u, Linked b3 d u → Linked b4 d u := fun d u hd => ⟨hd.alive, hd.task, hd.lt, hd.recycled, hd.data⟩
  refine ⟨rfl, ?_, ?_⟩
  · simp only [Spec.Coroutine.St.enter, base]
    rw [show (b3.conts c).task = some t from (tk c).trans hl.task]
  · refine ⟨?_, hcd3, ?_, hn3.trans h.next, ?_, ?_, ?_, ?_, ?_, ?_, ?_⟩
    · simp only [Spec.Coroutine.St.enter, taskOf, Option.bind_some]
      rw [show (b3.conts c).task = some t from (tk c).trans hl.task]
    · show b3.depth = _
      rw [hdp3, h.depth]; rfl
    · intro d hd
      simp only [Spec.Coroutine.St.enter] at hd ⊢
      have : d ≠ c := by omega
      simp only [Spec.Coroutine.upd, this, if_false]
      exact h.new d hd
    · intro d _
      by_cases hd : d = c
      · subst hd
        simp only [Spec.Coroutine.St.enter, Spec.Coroutine.upd, if_true]
        refine ⟨?_, hf, fun h => (by cases h), ?_, ?_, ?_, ?_, ?_, fun x hx => (by cases hx)⟩
        · show (b3.conts d).objs = _; rw [cc]; exact ho
        · show (b3.conts d).alive = true ↔ _; rw [al]; simp [hl.alive, act?]
        · intro _; show (b3.conts d).body = _; rw [cc]; exact hbd
        · intro _; show (b3.conts d).finishing = _; rw [cc]; exact hfi
        · intro u _ hu
          have hu' : (b3.conts d).task = some u := hu
          rw [tk, hl.task] at hu'
          obtain rfl := Option.some.inj hu'
          exact lk4 _ _ (lk3 _ _ hl)
        · intro _; exact ⟨t, (tk d).trans hl.task⟩
      · have hco := h.cos d (by intro e; exact hd (Option.some.inj e).symm)
        simp only [Spec.Coroutine.St.enter, Spec.Coroutine.upd, hd, if_false]
        refine coOk_congr hco (cd d hd) (Nat.le_of_eq hnt3.symm) fun u hu => ⟨(tt u).2.1, (tt u).2.2, fun hna' => ?_⟩
        refine te u (by rintro rfl; exact hd (hu.inj hl)) ?_
        cases hcur : a.cur with
        | none => simp [taskOf]
        | some w =>
          have hw : w ∈ ids a.callers a.cur := by rw [hcur]; exact cur_mem (b := b)
          obtain ⟨u', hu'⟩ := chain_linked h.chain w hw
          simp only [taskOf, Option.bind_some, hu'.task]
          intro e
          obtain rfl := Option.some.inj e
          obtain rfl := hu'.inj hu
          rw [← h.active, hna'] at hw
          cases hw
    · refine ⟨?_, ?_⟩
      · show b3.free.Nodup; rw [hfr3]; exact h.free.nodup
      · intro u hu
        have hu : u ∈ b3.free := hu
        rw [hfr3] at hu
        have hok := h.free.ok u hu
        have e : b3.tasks u = b.tasks u := by
          refine te u (by rintro rfl; rw [hl.recycled] at hok; cases hok.2.1) ?_
          cases hcur : a.cur with
          | none => simp [taskOf]
          | some w =>
            have hw : w ∈ ids a.callers a.cur := by rw [hcur]; exact cur_mem (b := b)
            obtain ⟨u', hu'⟩ := chain_linked h.chain w hw
            simp only [taskOf, Option.bind_some, hu'.task]
            intro e
            obtain rfl := Option.some.inj e
            rw [hu'.recycled] at hok; cases hok.2.1
        show u < b3.ntasks ∧ (b3.tasks u).recycled = true ∧ (b3.tasks u).running = false ∧ (b3.tasks u).state = _
        rw [hnt3, e]; exact hok
    · have hfull : Chain b3 (⟨a.cur, a.code, ds⟩ :: a.callers) (some c) := by
        refine ⟨c, t, rfl, lk3 _ _ hl, by rw [cc]; simp [h.depth], hbuf3, ?_, hch3⟩
        intro u hu
        rw [to3] at hu
        rw [(tt u).1]; exact h.running u hu
      exact chain_congr hfull (fun d _ u hd => lk4 d u hd) (fun _ _ => rfl) (fun _ => rfl) (fun _ _ _ _ _ _ => rfl) (fun _ _ _ _ _ _ => rfl)
    · simp only [Spec.Coroutine.St.enter]
      refine ⟨?_, ?_⟩
      · rintro d e
        obtain rfl := Option.some.inj e
        simp only [Spec.Coroutine.upd, if_true]
        refine ⟨?_, hds⟩
        show (b3.conts c).links = _
        rw [cc]
        show (b.conts c).links + 1 = _
        rw [hlk]; omega
      · refine links_congr h.links ?_ ?_ ?_
        · intro d hd
          show (b3.conts d).links = _
          rw [cd d (by rintro rfl; exact hci hd)]
        · intro d hd
          have : d ≠ c := by rintro rfl; exact hci hd
          simp [Spec.Coroutine.upd, this]
        · intro d hd hf
          have : d ≠ c := by rintro rfl; exact hci hd
          simpa [Spec.Coroutine.upd, this] using hf
    · intro u hu
      have hu : taskOf b3 (some c) = some u := hu
      rw [to3] at hu
      simp only [taskOf, Option.bind_some, hl.task] at hu
      obtain rfl := Option.some.inj hu
      show (b3.tasks t).running = true
      rw [(tt t).1]; exact hr
    · intro d
      simp only [Spec.Coroutine.St.enter, ids, Option.toList_some, List.cons_append, List.nil_append, List.mem_cons, Spec.Coroutine.upd]
      by_cases hd : d = c
      · simp [hd, act?]
      · simp only [hd, if_false, false_or]; exact h.active d

/-! ## Changes that leave control where it is -/

theorem linked_same {b b' : St σ} (hc : b'.conts = b.conts) (ht : b'.tasks = b.tasks) (hn : b'.ntasks = b.ntasks) {d u : Nat}
    (h : Linked b d u) : Linked b' d u := linked_congr h (by rw [hc]) (by rw [hc]) (Nat.le_of_eq hn.symm) (by rw [ht]) (by rw [ht])

/-- The place where the code is does not matter. -/
theorem ctx_same {a a' : Spec.Coroutine.St σ} {b b' : St σ} {e : Option Nat} (h : Ctx a b e) (ha1 : a'.cos = a.cos) (ha2 : a'.next = a.next)
    (ha3 : a'.cur = a.cur) (ha4 : a'.callers = a.callers) (hc : b'.conts = b.conts) (ht : b'.tasks = b.tasks) (hnt : b'.ntasks = b.ntasks)
    (hn : b'.next = b.next) (hf : b'.free = b.free) (htop : b'.top = b.top) (hcur : b'.cur = b.cur) (hcd : b'.curdata = b.curdata)
    (hd : b'.depth = b.depth) : Ctx a' b' e := by
  have hto : ∀ o, taskOf b' o = taskOf b o := by intro o; simp only [taskOf, hc]
  refine ⟨by rw [hcur, ha3, hto]; exact h.cur, by rw [hcd, ha3]; exact h.curdata, by rw [hd, ha4]; exact h.depth, by rw [hn, ha2]; exact h.next,
    by rw [ha1, ha2]; exact h.new, ?_, ⟨by rw [hf]; exact h.free.nodup, by rw [hf, hnt, ht]; exact h.free.ok⟩, ?_, ?_, ?_, ?_⟩
  · intro c hce
    rw [ha1]
    exact coOk_congr (h.cos c hce) (by rw [hc]) (Nat.le_of_eq hnt.symm) (fun t _ => by rw [ht]; exact ⟨rfl, rfl, fun _ => rfl⟩)
  · rw [ha4, ha3]
    exact chain_congr h.chain (fun d _ u => linked_same hc ht hnt) (fun d _ => by rw [hc]) (fun _ => htop) (fun _ _ _ _ _ _ => by rw [ht])
      (fun _ _ _ _ _ _ => by rw [ht])
  · rw [ha4, ha3, ha1]
    exact links_congr h.links (fun d _ => by rw [hc]) (fun d _ => rfl) (fun d _ => id)
  · rw [ha3, ht]; intro t; rw [hto]; exact h.running t
  · rw [ha1, ha3, ha4]; exact h.active

/-- It was changed, and is right. -/
theorem ctx_done {a : Spec.Coroutine.St σ} {b : St σ} {c : Nat} (h : Ctx a b (some c)) (hc : CoOk b (a.cos c) c) : Ctx a b none := by
  refine { h with cos := fun d _ => ?_ }
  by_cases hd : d = c
  · subst hd; exact hc
  · exact h.cos d (by intro e; exact hd (Option.some.inj e).symm)

theorem ctx_weak {a : Spec.Coroutine.St σ} {b : St σ} (c : Nat) (h : Ctx a b none) : Ctx a b (some c) :=
  { h with cos := fun d _ => h.cos d (by simp) }

/-- A change to one that is not active. -/
theorem ctx_set {a : Spec.Coroutine.St σ} {b : St σ} {c : Nat} (h : Ctx a b (some c)) (hc : act? (a.cos c).status = false) (f : Data → Data)
    (g : Co σ → Co σ) (hg : act? (g (a.cos c)).status = false) (hn : c < a.next) :
    Ctx { a with cos := Spec.Coroutine.upd a.cos c g } (b.setC c f) (some c) := by
  have hci : c ∉ ids a.callers a.cur := by rw [← h.active]; simp [hc]
  have hcc : ∀ d, d ≠ c → (b.setC c f).conts d = b.conts d := by intro d hd; simp [St.setC, hd]
  have hto : taskOf (b.setC c f) a.cur = taskOf b a.cur := by
    cases hcur : a.cur with
    | none => rfl
    | some d =>
      have : d ≠ c := by rintro rfl; rw [hcur] at hci; exact hci (cur_mem (b := b))
      simp only [taskOf, Option.bind_some, hcc d this]
  have hco : ∀ d, d ≠ c → Spec.Coroutine.upd a.cos c g d = a.cos d := by intro d hd; simp [Spec.Coroutine.upd, hd]
  refine ⟨by rw [hto]; exact h.cur, h.curdata, h.depth, h.next, ?_, ?_, ⟨h.free.nodup, h.free.ok⟩, ?_, ?_, by rw [hto]; exact h.running, ?_⟩
  · intro d hd
    have hd : a.next ≤ d := hd
    show (Spec.Coroutine.upd a.cos c g d).handles = 0 ∧ (Spec.Coroutine.upd a.cos c g d).status = _
    rw [hco d (by omega)]; exact h.new d hd
  · intro d hd
    have hd' : d ≠ c := by rintro rfl; exact hd rfl
    show CoOk _ (Spec.Coroutine.upd a.cos c g d) d
    rw [hco d hd']
    exact coOk_congr (h.cos d hd) (hcc d hd') (Nat.le_refl _) (fun t _ => ⟨rfl, rfl, fun _ => rfl⟩)
  · refine chain_congr h.chain (fun d hd u hl => ?_) (fun d hd => ?_) (fun _ => rfl) (fun _ _ _ _ _ _ => rfl) (fun _ _ _ _ _ _ => rfl)
    · have := hcc d (by rintro rfl; exact hci hd)
      exact linked_congr hl (by rw [this]) (by rw [this]) (Nat.le_refl _) rfl rfl
    · rw [hcc d (by rintro rfl; exact hci hd)]
  · refine links_congr h.links (fun d hd => ?_) (fun d hd => ?_) (fun d hd hf => ?_)
    · rw [hcc d (by rintro rfl; exact hci hd)]
    · show (Spec.Coroutine.upd a.cos c g d).handles = _
      rw [hco d (by rintro rfl; exact hci hd)]
    · show (Spec.Coroutine.upd a.cos c g d).finishing = _
      rw [hco d (by rintro rfl; exact hci hd)]; exact hf
  · intro d
    show act? (Spec.Coroutine.upd a.cos c g d).status = true ↔ _
    by_cases hd : d = c
    · subst hd
      simp only [Spec.Coroutine.upd, if_true, hg, Bool.false_eq_true, false_iff]
      exact hci
    · rw [hco d hd]; exact h.active d

/-- The links are at least the handles. -/
theorem links_le {a : Spec.Coroutine.St σ} {b : St σ} (h : Ctx a b none) {c : Nat} (hal : (b.conts c).alive = true) :
    (a.cos c).handles ≤ (b.conts c).links := by
  by_cases hac : act? (a.cos c).status = true
  · obtain ⟨d, h1, -⟩ := links_mem h.links h.chain ((h.active c).mp hac)
    omega
  · exact Nat.le_of_eq ((h.cos c (by simp)).off (by simpa using hac) hal).1.symm

/-- More or fewer handles. -/
theorem ctx_handles {a : Spec.Coroutine.St σ} {b : St σ} (h : Ctx a b none) {c n l : Nat} (hfin : (a.cos c).finishing = false)
    (hal : (b.conts c).alive = true) (hn : act? (a.cos c).status = true ∨ 0 < n) (hl : l + (a.cos c).handles = (b.conts c).links + n) (hcn : c < a.next) :
    Ctx { a with cos := Spec.Coroutine.upd a.cos c fun d => { d with handles := n } }
      (b.setC c fun x => { x with objs := n, links := l }) none := by
  have hco : ∀ d, d ≠ c → Spec.Coroutine.upd a.cos c (fun d => { d with handles := n }) d = a.cos d := by
    intro d hd; simp [Spec.Coroutine.upd, hd]
  have hcs : Spec.Coroutine.upd a.cos c (fun d => { d with handles := n }) c = { a.cos c with handles := n } := by
    simp [Spec.Coroutine.upd]
  have hcc : ∀ d, d ≠ c → (b.setC c fun x => { x with objs := n, links := l }).conts d = b.conts d := by intro d hd; simp [St.setC, hd]
  have hcC : (b.setC c fun x => { x with objs := n, links := l }).conts c = { b.conts c with objs := n, links := l } := by simp [St.setC]
  have htk : ∀ d, ((b.setC c fun x => { x with objs := n, links := l }).conts d).task = (b.conts d).task := by
    intro d; by_cases hd : d = c
    · subst hd; rw [hcC]
    · rw [hcc d hd]
  have hav : ∀ d, ((b.setC c fun x => { x with objs := n, links := l }).conts d).alive = (b.conts d).alive := by
    intro d; by_cases hd : d = c
    · subst hd; rw [hcC]
    · rw [hcc d hd]
  have hto : ∀ o, taskOf (b.setC c fun x => { x with objs := n, links := l }) o = taskOf b o := by
    intro o; cases o with
    | none => rfl
    | some d => exact htk d
  have hlk : ∀ d u, Linked b d u → Linked (b.setC c fun x => { x with objs := n, links := l }) d u := fun d u hd =>
    linked_congr hd (hav d) (htk d) (Nat.le_refl _) rfl rfl
  refine ⟨by rw [hto]; exact h.cur, h.curdata, h.depth, h.next, ?_, ?_, ⟨h.free.nodup, h.free.ok⟩, ?_, ?_, by intro t; rw [hto]; exact h.running t, ?_⟩
  · intro d hd
    have hd : a.next ≤ d := hd
    show (Spec.Coroutine.upd a.cos c _ d).handles = 0 ∧ (Spec.Coroutine.upd a.cos c _ d).status = _
    rw [hco d (by omega)]; exact h.new d hd
  · intro d hd
    show CoOk _ (Spec.Coroutine.upd a.cos c (fun d => { d with handles := n }) d) d
    by_cases hd' : d = c
    · subst hd'
      rw [hcs]
      have h0 := h.cos d (by simp)
      refine ⟨by rw [hcC], fun _ => hfin, ?_, ?_, ?_, ?_, ?_, ?_, ?_⟩
      · intro h1 h2
        rw [hcC]
        have := h0.off h1 hal
        refine ⟨?_, this.2⟩
        show l = n
        omega
      · rw [hav]
        simp only [hal, true_iff]
        exact hn.symm
      · intro _; rw [hcC]; exact h0.body hal
      · intro _; rw [hcC]; exact h0.finishing hal
      · intro t _ ht
        rw [htk] at ht
        exact hlk _ _ (h0.task t hal ht)
      · intro _
        have := h0.status hal
        rw [hcC]
        exact this
      · intro x hx
        rcases hn with hn | hn
        · have hx : (a.cos d).status = .waiting x := hx
          rw [hx] at hn; cases hn
        · exact hn
    · rw [hco d hd']
      exact coOk_congr (h.cos d hd) (hcc d hd') (Nat.le_refl _) (fun t _ => ⟨rfl, rfl, fun _ => rfl⟩)
  · refine chain_congr h.chain (fun d hd u hl => hlk d u hl) (fun d hd => ?_) (fun _ => rfl) (fun _ _ _ _ _ _ => rfl) (fun _ _ _ _ _ _ => rfl)
    by_cases hd' : d = c
    · subst hd'; rw [hcC]
    · rw [hcc d hd']
  · have key : ∀ (ks : List (Caller σ)) (o : Option Nat), Links a.cos b ks o →
        Links (Spec.Coroutine.upd a.cos c fun d => { d with handles := n }) (b.setC c fun x => { x with objs := n, links := l }) ks o := by
      intro ks
      induction ks with
      | nil => intro o _; trivial
      | cons k ks ih =>
        intro o h
        refine ⟨?_, ih _ h.2⟩
        rintro d rfl
        have h1 := h.1 d rfl
        by_cases hd' : d = c
        · subst hd'
          rw [hcs, hcC]
          have hnd : k.destroys = false := by
            cases hk : k.destroys with
            | false => rfl
            | true => rw [hfin] at h1; cases (h1.2 hk).2
          rw [hnd] at h1 ⊢
          refine ⟨?_, fun h => by cases h⟩
          show l = n + 1 + _
          simp only [Bool.false_eq_true, if_false] at h1 ⊢
          omega
        · rw [hco d hd', hcc d hd']; exact h1
    exact key _ _ h.links
  · intro d
    show act? (Spec.Coroutine.upd a.cos c _ d).status = true ↔ _
    by_cases hd : d = c
    · subst hd
      rw [hcs]; exact h.active d
    · rw [hco d hd]; exact h.active d

/-- A new one. -/
theorem ctx_new {a : Spec.Coroutine.St σ} {b : St σ} (h : Ctx a b none) (body size m : Nat) :
    Ctx { a with cos := Spec.Coroutine.upd a.cos a.next fun _ => ⟨body, 1, false, .idle⟩, next := a.next + 1 }
      { b.setC b.next fun _ => ⟨true, 1, 1, 0, false, size, none, body, 0, 0⟩ with next := b.next + 1, man := m } none := by
  have h0 := h.new a.next (Nat.le_refl _)
  have hna : act? (a.cos a.next).status = false := by rw [h0.2]; rfl
  have hex : Ctx { a with next := a.next + 1 } { b with next := b.next + 1 } (some a.next) := by
    have := ctx_weak a.next h
    have lk : ∀ d u, Linked b d u → Linked { b with next := b.next + 1 } d u := fun d u h => ⟨h.alive, h.task, h.lt, h.recycled, h.data⟩
    exact ⟨this.cur, this.curdata, this.depth, by show b.next + 1 = a.next + 1; rw [this.next],
      fun d hd => this.new d (by have : a.next + 1 ≤ d := hd; omega),
      fun d hd => coOk_congr (this.cos d hd) rfl (Nat.le_refl _) (fun _ _ => ⟨rfl, rfl, fun _ => rfl⟩), ⟨this.free.nodup, this.free.ok⟩,
      chain_congr this.chain (fun d _ u => lk d u) (fun _ _ => rfl) (fun _ => rfl) (fun _ _ _ _ _ _ => rfl) (fun _ _ _ _ _ _ => rfl),
      links_congr this.links (fun _ _ => rfl) (fun _ _ => rfl) (fun _ _ => id), this.running, this.active⟩
  have hs := ctx_set hex hna (fun _ => ⟨true, 1, 1, 0, false, size, none, body, 0, 0⟩) (fun _ => ⟨body, 1, false, .idle⟩) rfl
    (by show a.next < a.next + 1; omega)
  have hd := ctx_done hs (by
    simp only [Spec.Coroutine.upd, if_true]
    constructor <;> simp [St.setC, act?])
  have hsame := ctx_same (a' := { a with cos := Spec.Coroutine.upd a.cos a.next fun _ => ⟨body, 1, false, .idle⟩, next := a.next + 1 })
    (b' := { b.setC b.next fun _ => ⟨true, 1, 1, 0, false, size, none, body, 0, 0⟩ with next := b.next + 1, man := m }) hd rfl rfl rfl rfl
    (by simp only [St.setC, h.next]) rfl rfl rfl rfl rfl rfl rfl rfl
  exact hsame

/-- The last link goes. -/
theorem ctx_del {a : Spec.Coroutine.St σ} {b : St σ} {c : Nat} (h : Ctx a b (some c)) (hst : (a.cos c).status = .idle) (hh : (a.cos c).handles = 0)
    (ho : (b.conts c).objs = 0) (hal : (b.conts c).alive = true) (hlk : (b.conts c).links = 1) (hcn : c < a.next)
    (ht : ∀ t, (b.conts c).task = some t → Linked b c t ∧ (b.tasks t).running = false ∧ (b.tasks t).state = some [.loop t]) :
    ∃ b2, b.unlink c = some b2 ∧ b2.pc = b.pc ∧ b2.stk = b.stk ∧ (∀ o, o ≠ some c → taskOf b2 o = taskOf b o) ∧ Ctx a b2 none := by
  have hna : act? (a.cos c).status = false := by rw [hst]; rfl
  have hset := ctx_set h hna (fun x => { x with links := 0, alive := false }) id (by simpa using hna) hcn
  have hupd : Spec.Coroutine.upd a.cos c id = a.cos := by funext i; simp [Spec.Coroutine.upd]
  rw [hupd] at hset
  have hset : Ctx a (b.setC c fun x => { x with links := 0, alive := false }) (some c) := hset
  have htsk : ∀ o, taskOf (b.setC c fun x => { x with links := 0, alive := false }) o = taskOf b o := by
    intro o; cases o with
    | none => rfl
    | some d => simp only [taskOf, Option.bind_some, St.setC]; split <;> rfl
  have dead : ∀ b2 : St σ, b2.conts = (b.setC c fun x => { x with links := 0, alive := false }).conts → CoOk b2 (a.cos c) c := by
    intro b2 e
    have e1 : (b2.conts c).alive = false := by rw [e]; simp [St.setC]
    have e2 : (b2.conts c).objs = 0 := by rw [e]; simpa [St.setC] using ho
    refine ⟨by rw [e2, hh], fun h => by omega, fun _ h => ?_, ?_, fun h => ?_, fun h => ?_, fun t h => ?_, fun h => ?_, fun x hx => ?_⟩
    · rw [e1] at h; cases h
    · rw [e1, hh, hna]; simp
    · rw [e1] at h; cases h
    · rw [e1] at h; cases h
    · rw [e1] at h; cases h
    · rw [e1] at h; cases h
    · rw [hst] at hx; cases hx
  have hun : b.unlink c = (match (b.conts c).task with
      | none => some { b.setC c fun x => { x with links := 0, alive := false } with man := b.man - 1, free := if b.man - 1 = 0 then [] else b.free }
      | some t =>
        if (b.tasks t).running then none
        else if (b.tasks t).recycled then
          some { b.setC c fun x => { x with links := 0, alive := false } with man := b.man - 1, free := if b.man - 1 = 0 then [] else b.free }
        else some { (b.setC c fun x => { x with links := 0, alive := false }).setT t fun x => { x with recycled := true } with
          man := b.man - 1, free := if b.man - 1 = 0 then [] else b.free ++ [t] }) := by
    simp only [St.unlink, hal, Bool.true_eq_false, hlk, false_or, Nat.lt_irrefl, if_false, Nat.one_ne_zero]
    rfl
  cases htk : (b.conts c).task with
  | none =>
    rw [htk] at hun
    refine ⟨_, hun, rfl, rfl, fun o _ => htsk o, ctx_done (c := c) ?_ (dead _ rfl)⟩
    by_cases hm : b.man - 1 = 0
    · simp only [hm, if_true]
      have := ctx_same (a' := a) (b' := { b.setC c fun x => { x with links := 0, alive := false } with man := 0 }) hset rfl rfl rfl rfl rfl rfl
        rfl rfl rfl rfl rfl rfl rfl
      refine ⟨this.cur, this.curdata, this.depth, this.next, this.new, fun d hd => ?_, ⟨List.nodup_nil, fun t ht => by cases ht⟩, ?_, ?_,
        this.running, this.active⟩
      · exact coOk_congr (this.cos d hd) rfl (Nat.le_refl _) (fun _ _ => ⟨rfl, rfl, fun _ => rfl⟩)
      · exact chain_congr this.chain (fun d _ u hl => ⟨hl.alive, hl.task, hl.lt, hl.recycled, hl.data⟩) (fun _ _ => rfl) (fun _ => rfl) (fun _ _ _ _ _ _ => rfl)
          (fun _ _ _ _ _ _ => rfl)
      · exact links_congr this.links (fun _ _ => rfl) (fun _ _ => rfl) (fun _ _ => id)
    · simp only [hm, if_false]
      exact ctx_same hset rfl rfl rfl rfl rfl rfl rfl rfl rfl rfl rfl rfl rfl
  | some t =>
    obtain ⟨hl, hrn, hss⟩ := ht t htk
    rw [htk] at hun
    simp only [hrn, Bool.false_eq_true, if_false, hl.recycled] at hun
    have hci : c ∉ ids a.callers a.cur := by rw [← h.active]; simp [hna]
    let b2 : St σ := { (b.setC c fun x => { x with links := 0, alive := false }).setT t fun x => { x with recycled := true } with
          man := b.man - 1, free := if b.man - 1 = 0 then [] else b.free ++ [t] }
    have te : ∀ u, u ≠ t → b2.tasks u = b.tasks u := by intro u hu; simp only [b2, St.setT, hu, if_false, St.setC]
    have tt : (b2.tasks t) = { b.tasks t with recycled := true } := by simp only [b2, St.setT, if_true, St.setC]
    have lk : ∀ d u, d ≠ c → Linked (b.setC c fun x => { x with links := 0, alive := false }) d u → Linked b2 d u := by
      intro d u hd hu
      have hut : u ≠ t := by rintro rfl; exact hd (hu.data.symm.trans hl.data)
      exact ⟨hu.alive, hu.task, hu.lt, by rw [te u hut]; exact hu.recycled, by rw [te u hut]; exact hu.data⟩
    have run2 : ∀ u, (b2.tasks u).running = (b.tasks u).running := by
      intro u; by_cases h : u = t
      · subst h; rw [tt]
      · rw [te u h]
    refine ⟨b2, hun, rfl, rfl, fun o _ => htsk o, ctx_done (c := c) ?_ (dead _ rfl)⟩
    refine ⟨hset.cur, hset.curdata, hset.depth, hset.next, hset.new, fun d hd => ?_, ?_, ?_, ?_, ?_, hset.active⟩
    · have hdc : d ≠ c := by rintro rfl; exact hd rfl
      refine coOk_congr (hset.cos d hd) rfl (Nat.le_refl _) (fun u hu => ?_)
      have hut : u ≠ t := by rintro rfl; exact hdc (hu.data.symm.trans hl.data)
      rw [te u hut]; exact ⟨rfl, rfl, fun _ => rfl⟩
    · show FreeOk b2
      have hnf : t ∉ b.free := by intro hm; have := (h.free.ok t hm).2.1; rw [hl.recycled] at this; cases this
      by_cases hm : b.man - 1 = 0
      · exact ⟨by simp [b2, hm], fun u hu => by simp [b2, hm] at hu⟩
      · refine ⟨?_, ?_⟩
        · simp only [b2, hm, if_false]
          rw [List.nodup_append]
          refine ⟨h.free.nodup, by simp, ?_⟩
          rintro x hx y hy rfl
          rw [List.mem_singleton.mp hy] at hx
          exact hnf hx
        · intro u hu
          simp only [b2, hm, if_false, List.mem_append, List.mem_singleton] at hu
          show u < b.ntasks ∧ _
          rcases hu with hu | rfl
          · rw [te u (by rintro rfl; exact hnf hu)]; exact h.free.ok u hu
          · rw [tt]; exact ⟨hl.lt, rfl, hrn, hss⟩
    · refine chain_congr hset.chain (fun d hd u hl => lk d u (by rintro rfl; exact hci hd) hl) (fun _ _ => rfl) (fun _ => rfl) (fun k hk d hd u hu => ?_)
        (fun k hk d hd u hu => ?_)
      · have hdc : d ≠ c := by rintro rfl; exact hci (who_mem hk hd)
        have hut : u ≠ t := by rintro rfl; exact hdc (hu.data.symm.trans hl.data)
        rw [te u hut]; rfl
      · exact run2 u
    · exact links_congr hset.links (fun _ _ => rfl) (fun _ _ => rfl) (fun _ _ => id)
    · intro u hu
      rw [run2]; exact hset.running u hu

end Lemmas.Cont
