import Verif.Lemmas.Cont
/-
The implementation of WvCont does what the specification of coroutines does, action by action.
-/
namespace Lemmas.Cont
open Wv.Cont
open Spec.Coroutine (Code Act Co Caller Status)

variable {σ : Type} {p : Code σ}

/-- A change to a task that none of the others has. -/
theorem ctx_task {a : Spec.Coroutine.St σ} {b : St σ} {c t N : Nat} {F : List Nat} (h : Ctx a b (some c)) (hc : act? (a.cos c).status = false)
    (ht : ∀ d u, d ≠ c → Linked b d u → u ≠ t) (f : Wv.Cont.Task σ → Wv.Cont.Task σ) (hF : F.Nodup) (hF2 : ∀ u ∈ F, u ∈ b.free ∧ u ≠ t) (hN : b.ntasks ≤ N) :
    Ctx a { b.setT t f with free := F, ntasks := N } (some c) := by
  have hci : c ∉ ids a.callers a.cur := by rw [← h.active]; simp [hc]
  have te : ∀ u, u ≠ t → ({ b.setT t f with free := F, ntasks := N } : St σ).tasks u = b.tasks u := by
    intro u hu; simp only [St.setT, hu, if_false]
  have hct : ∀ u, taskOf b a.cur = some u → u ≠ t := by
    intro u hu
    cases hcur : a.cur with
    | none => rw [hcur] at hu; cases hu
    | some d =>
      have hd : d ∈ ids a.callers a.cur := by rw [hcur]; exact cur_mem (b := b)
      obtain ⟨w, hw⟩ := chain_linked h.chain d hd
      rw [hcur] at hu
      simp only [taskOf, Option.bind_some, hw.task] at hu
      obtain rfl := Option.some.inj hu
      exact ht d w (by rintro rfl; exact hci hd) hw
  refine ⟨h.cur, h.curdata, h.depth, h.next, h.new, fun d hd => ?_, ⟨hF, fun u hu => ?_⟩, ?_, ?_, ?_, h.active⟩
  · have hdc : d ≠ c := by rintro rfl; exact hd rfl
    refine coOk_congr (h.cos d hd) rfl hN (fun u hu => ?_)
    rw [te u (ht d u hdc hu)]; exact ⟨rfl, rfl, fun _ => rfl⟩
  · obtain ⟨h1, h2⟩ := hF2 u hu
    rw [te u h2]
    obtain ⟨h3, h4⟩ := h.free.ok u h1
    exact ⟨Nat.lt_of_lt_of_le h3 hN, h4⟩
  · refine chain_congr h.chain (fun d hd u hl => ?_) (fun _ _ => rfl) (fun _ => rfl) (fun k hk d hd u hu => ?_) (fun k hk d hd u hu => ?_)
    · have hdc : d ≠ c := by rintro rfl; exact hci hd
      have e := te u (ht d u hdc hl)
      exact linked_congr hl rfl rfl hN (by rw [e]) (by rw [e])
    · have hdc : d ≠ c := by rintro rfl; exact hci (who_mem hk hd)
      rw [te u (ht d u hdc hu)]
    · have hdc : d ≠ c := by rintro rfl; exact hci (who_mem hk hd)
      rw [te u (ht d u hdc hu)]
  · exact links_congr h.links (fun _ _ => rfl) (fun _ _ => rfl) (fun _ _ => id)
  · intro u hu
    rw [te u (hct u hu)]; exact h.running u hu

theorem ctx_setC {a : Spec.Coroutine.St σ} {b : St σ} {c : Nat} (h : Ctx a b (some c)) (hc : act? (a.cos c).status = false) (f : Data → Data)
    (hn : c < a.next) : Ctx a (b.setC c f) (some c) := by
  have := ctx_set h hc f id (by simpa using hc) hn
  have e : Spec.Coroutine.upd a.cos c id = a.cos := by funext i; simp [Spec.Coroutine.upd]
  rw [e] at this
  exact this

theorem lt_next {a : Spec.Coroutine.St σ} {b : St σ} {e : Option Nat} (h : Ctx a b e) {c : Nat} (hh : (a.cos c).handles ≠ 0) : c < a.next := by
  rcases Nat.lt_or_ge c a.next with h1 | h1
  · exact h1
  · exact absurd (h.new c h1).1 hh

theorem lt_next' {a : Spec.Coroutine.St σ} {b : St σ} {e : Option Nat} (h : Ctx a b e) {c : Nat} (hh : act? (a.cos c).status = true) : c < a.next := by
  rcases Nat.lt_or_ge c a.next with h1 | h1
  · exact h1
  · rw [(h.new c h1).2] at hh; cases hh

theorem base_set {a : Spec.Coroutine.St σ} {b b' : St σ} {c : Nat} (h : c ∉ ids a.callers a.cur) (hc : ∀ d, d ≠ c → b'.conts d = b.conts d) :
    base b' a.cur = base b a.cur := by
  cases hcur : a.cur with
  | none => rfl
  | some d =>
    have : d ≠ c := by rintro rfl; rw [hcur] at h; exact h (cur_mem (b := b))
    simp only [base, hc d this]

/-- What operator() does before it calls. -/
theorem call_prep {a : Spec.Coroutine.St σ} {b : St σ} {c v : Nat} {x : σ} (h : Ctx a b none) (hna : act? (a.cos c).status = false)
    (hh : (a.cos c).handles ≠ 0) (hact : p.act x = .call c v) :
    ∃ b2 t, b.act p x = b2.call c ∧ Ctx a b2 (some c) ∧ Linked b2 c t ∧ (b2.conts c).mydepth = 0 ∧ (b2.conts c).objs = (a.cos c).handles ∧
      (b2.conts c).body = (a.cos c).body ∧ (b2.conts c).finishing = (a.cos c).finishing ∧ (b2.conts c).links = (a.cos c).handles ∧
      (b2.tasks t).running = true ∧ (b2.conts c).p1 = v ∧ b2.stk = .user x :: b.stk ∧ base b2 a.cur = base b a.cur ∧
      (match (a.cos c).status with
        | .idle => (b2.tasks t).state = some [.loop t]
        | .waiting y => (b2.tasks t).state = some [.yielding, .user y, .bouncer c, .loop t]
        | .active => False) := by
  have h0 := h.cos c (by simp)
  have hcn := lt_next h hh
  have hal : (b.conts c).alive = true := h0.alive.mpr (Or.inl (by omega))
  have hob : (b.conts c).objs ≠ 0 := by rw [h0.objs]; exact hh
  obtain ⟨hlk, hmd⟩ := h0.off hna hal
  have hci : c ∉ ids a.callers a.cur := by rw [← h.active]; simp [hna]
  have hw := ctx_weak c h
  have hs1 := ctx_setC hw hna (fun d => { d with ret := 18446744073709551574 }) hcn
  have hfin : ∀ (s : St σ), Ctx a s (some c) → Ctx a { s.setC c fun d => { d with p1 := v } with stk := .user x :: b.stk } (some c) := by
    intro s hs
    exact ctx_same (ctx_setC hs hna (fun d => { d with p1 := v }) hcn) rfl rfl rfl rfl rfl rfl rfl rfl rfl rfl rfl rfl rfl
  cases htk : (b.conts c).task with
  | some t =>
    have hl := h0.task t hal htk
    by_cases hr : (b.tasks t).running = true
    · let b2 : St σ := { ((b.setC c fun d => { d with ret := 18446744073709551574 }).setC c fun d => { d with p1 := v }) with stk := .user x :: b.stk }
      have hc2 : b2.conts c = { b.conts c with ret := 18446744073709551574, p1 := v } := by simp [b2, St.setC]
      have hd2 : ∀ d, d ≠ c → b2.conts d = b.conts d := by intro d hd; simp [b2, St.setC, hd]
      refine ⟨b2, t, ?_, hfin _ hs1, linked_congr hl (by rw [hc2]) (by rw [hc2]) (Nat.le_refl _) rfl rfl, by rw [hc2]; exact hmd,
        by rw [hc2]; exact h0.objs, by rw [hc2]; exact h0.body hal, by rw [hc2]; exact h0.finishing hal, by rw [hc2]; exact hlk, hr, by rw [hc2], rfl,
        base_set hci hd2, ?_⟩
      · simp only [St.act, hact, hob, hal, Bool.true_eq_false, or_self, if_false, htk, hr, if_true, b2]
      · have hst := h0.status hal
        revert hna hst
        cases (a.cos c).status with
        | idle => intro _ hst; rw [(hst t htk).1] at hr; cases hr
        | waiting y =>
          intro _ hst
          obtain ⟨t', e, -, e2⟩ := hst
          rw [htk] at e
          obtain rfl := Option.some.inj e
          exact e2
        | active => intro hna; cases hna
    · have hr : (b.tasks t).running = false := by simpa using hr
      let s1 := b.setC c fun d => { d with ret := 18446744073709551574 }
      have hl1 : Linked s1 c t := linked_congr hl (by simp [s1, St.setC]) (by simp [s1, St.setC]) (Nat.le_refl _) rfl rfl
      have hs2 := ctx_task (t := t) (N := s1.ntasks) (F := s1.free) hs1 hna (fun d u hd hu e => by subst e; exact hd (hu.inj hl1))
        (fun y => { y with running := true, data := c }) h.free.nodup
        (fun u hu => ⟨hu, by rintro rfl; have := (h.free.ok u hu).2.1; rw [hl.recycled] at this; cases this⟩) (Nat.le_refl _)
      let b2 : St σ := { ((s1.setT t fun y => { y with running := true, data := c }).setC c fun d => { d with p1 := v }) with stk := .user x :: b.stk }
      have hc2 : b2.conts c = { b.conts c with ret := 18446744073709551574, p1 := v } := by simp [b2, s1, St.setC, St.setT]
      have hd2 : ∀ d, d ≠ c → b2.conts d = b.conts d := by intro d hd; simp [b2, s1, St.setC, St.setT, hd]
      have ht2 : b2.tasks t = { b.tasks t with running := true, data := c } := by simp [b2, s1, St.setC, St.setT]
      refine ⟨b2, t, ?_, hfin _ hs2, ⟨by rw [hc2]; exact hl.alive, by rw [hc2]; exact hl.task, hl.lt, by rw [ht2]; exact hl.recycled, by rw [ht2]⟩,
        by rw [hc2]; exact hmd, by rw [hc2]; exact h0.objs, by rw [hc2]; exact h0.body hal, by rw [hc2]; exact h0.finishing hal,
        by rw [hc2]; exact hlk, by rw [ht2], by rw [hc2], rfl, base_set hci hd2, ?_⟩
      · simp only [St.act, hact, hob, hal, Bool.true_eq_false, or_self, if_false, htk, hr, Bool.false_eq_true, b2, s1]
      · have hst := h0.status hal
        revert hna hst
        cases (a.cos c).status with
        | idle => intro _ hst; rw [ht2]; exact (hst t htk).2
        | waiting y =>
          intro _ hst
          obtain ⟨t', e, e1, e2⟩ := hst
          rw [htk] at e
          obtain rfl := Option.some.inj e
          rw [hr] at e1; cases e1
        | active => intro hna; cases hna
  | none =>
    have hidle : (a.cos c).status = .idle := by
      have hst := h0.status hal
      revert hna hst
      cases (a.cos c).status with
      | idle => intros; rfl
      | waiting y => intro _ hst; obtain ⟨t', e, -⟩ := hst; rw [htk] at e; cases e
      | active => intro hna; cases hna
    let s1 := b.setC c fun d => { d with ret := 18446744073709551574 }
    have main : ∀ (s : St σ) (t : Nat), s.tasks t = ⟨(s.tasks t).size, true, false, c, some [.loop t]⟩ → t < s.ntasks → Ctx a s (some c) →
        s.conts = s1.conts → s.stk = b.stk → (s1.start (b.conts c).size c) = (s, t) →
        ∃ b2 t, b.act p x = b2.call c ∧ Ctx a b2 (some c) ∧ Linked b2 c t ∧ (b2.conts c).mydepth = 0 ∧ (b2.conts c).objs = (a.cos c).handles ∧
          (b2.conts c).body = (a.cos c).body ∧ (b2.conts c).finishing = (a.cos c).finishing ∧ (b2.conts c).links = (a.cos c).handles ∧
          (b2.tasks t).running = true ∧ (b2.conts c).p1 = v ∧ b2.stk = .user x :: b.stk ∧ base b2 a.cur = base b a.cur ∧
          (match (a.cos c).status with
            | .idle => (b2.tasks t).state = some [.loop t]
            | .waiting y => (b2.tasks t).state = some [.yielding, .user y, .bouncer c, .loop t]
            | .active => False) := by
      intro s t hst hlt hsx hsc hss heq
      let b2 : St σ := { ((s.setC c fun d => { d with task := some t }).setC c fun d => { d with p1 := v }) with stk := .user x :: b.stk }
      have hc2 : b2.conts c = { b.conts c with ret := 18446744073709551574, task := some t, p1 := v } := by simp [b2, St.setC, hsc, s1]
      have hd2 : ∀ d, d ≠ c → b2.conts d = b.conts d := by intro d hd; simp [b2, St.setC, hsc, s1, hd]
      have ht2 : b2.tasks t = ⟨(s.tasks t).size, true, false, c, some [.loop t]⟩ := hst
      refine ⟨b2, t, ?_, hfin _ (ctx_setC hsx hna _ hcn), ⟨by rw [hc2]; exact hal, by rw [hc2], hlt, by rw [ht2], by rw [ht2]⟩,
        by rw [hc2]; exact hmd, by rw [hc2]; exact h0.objs, by rw [hc2]; exact h0.body hal, by rw [hc2]; exact h0.finishing hal,
        by rw [hc2]; exact hlk, by rw [ht2], by rw [hc2], rfl, base_set hci hd2, ?_⟩
      · simp only [St.act, hact, hob, hal, Bool.true_eq_false, or_self, if_false, htk]
        simp only [show (b.setC c fun d => { d with ret := 18446744073709551574 }) = s1 from rfl, heq, b2]
      · rw [hidle]; show (b2.tasks t).state = _; rw [ht2]
    cases hfind : s1.free.find? fun t => decide ((b.conts c).size ≤ (s1.tasks t).size) with
    | some t =>
      have hmem : t ∈ b.free := List.mem_of_find?_eq_some hfind
      have hok := h.free.ok t hmem
      have hnl : ∀ d u, d ≠ c → Linked s1 d u → u ≠ t := by
        rintro d u - hu rfl
        have : (b.tasks u).recycled = false := hu.recycled
        rw [hok.2.1] at this; cases this
      have hcx := ctx_task (t := t) (N := s1.ntasks) (F := s1.free.erase t) hs1 hna hnl
        (fun x => { x with recycled := false, running := true, data := c }) (h.free.nodup.erase t)
        (fun u hu => ⟨List.mem_of_mem_erase hu, by rintro rfl; exact (h.free.nodup.mem_erase_iff.mp hu).1 rfl⟩) (Nat.le_refl _)
      refine main { s1.setT t fun x => { x with recycled := false, running := true, data := c } with free := s1.free.erase t } t ?_ hok.1 ?_ rfl rfl ?_
      · have : (s1.tasks t).state = some [.loop t] := hok.2.2.2
        simp only [St.setT, if_true, this]
      · exact ctx_same hcx rfl rfl rfl rfl rfl rfl rfl rfl rfl rfl rfl rfl rfl
      · simp only [St.start, hfind]
    | none =>
      have hcx := ctx_task (t := s1.ntasks) (N := s1.ntasks + 1) (F := s1.free) hs1 hna
        (fun d u _ hu e => by have h1 : u < s1.ntasks := hu.lt; omega)
        (fun _ => ⟨(b.conts c).size, true, false, c, some [.loop s1.ntasks]⟩) h.free.nodup
        (fun u hu => ⟨hu, by have := (h.free.ok u hu).1; exact Nat.ne_of_lt this⟩) (Nat.le_succ _)
      refine main { s1.setT s1.ntasks fun _ => ⟨(b.conts c).size, true, false, c, some [.loop s1.ntasks]⟩ with ntasks := s1.ntasks + 1 } s1.ntasks ?_
        (Nat.lt_succ_self _) ?_ rfl rfl ?_
      · simp only [St.setT, if_true]
      · exact ctx_same hcx rfl rfl rfl rfl rfl rfl rfl rfl rfl rfl rfl rfl rfl
      · simp only [St.start, hfind]

theorem seen_go {b : St σ} {x : σ} (h : b.pc = .go x) : b.seen = [(b.curdata, x)] := by simp only [St.seen, h]

theorem Rel.seen {a : Spec.Coroutine.St σ} {b : St σ} (h : Rel a b) : b.seen = [a.seen] := by
  rw [seen_go h.pc, h.ctx.curdata]; rfl

/-- A call. -/
theorem sim_call {a a' : Spec.Coroutine.St σ} {b : St σ} {c v : Nat} (h : Rel a b) (hact : p.act a.code = .call c v) (hs : a.step p = some a') :
    ∃ b', Run p b [a'.seen] b' ∧ Rel a' b' := by
  simp only [Spec.Coroutine.St.step, hact] at hs
  by_cases hh : (a.cos c).handles = 0
  · simp only [hh, if_true] at hs; cases hs
  simp only [hh, if_false] at hs
  have hna : act? (a.cos c).status = false := by
    revert hs; cases (a.cos c).status <;> simp [act?]
  obtain ⟨b2, t, he, hcx, hl, hm, ho, hbd, hfi, hlk, hr, hp1, hstk, hbs, hst⟩ := call_prep h.ctx hna hh hact
  have hcn := lt_next h.ctx hh
  have h0 := h.ctx.cos c (by simp)
  obtain ⟨S, hS⟩ : ∃ S, (b2.tasks t).state = some S := by
    revert hst; cases (a.cos c).status with
    | idle => exact fun h => ⟨_, h⟩
    | waiting y => exact fun h => ⟨_, h⟩
    | active => exact fun h => h.elim
  obtain ⟨b3, hcall, hpc3, hstk3, hcd3, hal3, hp13, hbd3, hr3, hd3, hrel⟩ := enter_rel (ds := false) hcx hna hcn hl hm hS ho h0.fin hbd hfi
    (by simpa using hlk) (fun h => by cases h) hr (by rw [hstk, hbs, h.stk]; rfl)
  have hstep : b.step p = some b3 := by simp only [St.step, h.pc]; rw [he, hcall]
  have q1 : Run p b [] b3 := quiet hstep (fun x hx => by rw [hpc3] at hx; cases hx)
  revert hs hst
  cases hsta : (a.cos c).status with
  | idle =>
    intro hs hst
    obtain rfl := Option.some.inj hs
    have hS' : S = [.loop t] := Option.some.inj (hS.symm.trans hst)
    have hrl := hrel (p.start (a.cos c).body v)
    refine ⟨_, quiet_trans q1 ?_, hrl⟩
    rw [← hrl.seen]
    refine run_one ?_
    simp only [St.step, hpc3, St.landed, hstk3, hS', hr3, if_true, hd3, hal3, hbd3, hbd, hp13, hp1]
  | waiting y =>
    intro hs hst
    obtain rfl := Option.some.inj hs
    have hS' : S = [.yielding, .user y, .bouncer c, .loop t] := Option.some.inj (hS.symm.trans hst)
    have hrl := hrel (p.resume y v)
    refine ⟨_, quiet_trans q1 (quiet_trans (b := { b3 with stk := [.user y, .bouncer c, .loop t], pc := .back v })
      (quiet ?_ (fun x hx => by cases hx)) ?_), hrl⟩
    · simp only [St.step, hpc3, St.landed, hstk3, hS', hcd3, Option.bind_some, hal3, if_true, hp13, hp1]
    · rw [← hrl.seen]
      refine run_one ?_
      simp only [St.step, St.back]
  | active => intro hs; cases hs

/-! ## Control goes back to the caller -/

open Spec.Coroutine (tell upd)

theorem tell_handles (f : Nat → Co σ) (i : Nat) : (tell f i).handles = (f i).handles := by unfold tell; (repeat' split) <;> rfl
theorem tell_status (f : Nat → Co σ) (i : Nat) : (tell f i).status = (f i).status := by unfold tell; (repeat' split) <;> rfl
theorem tell_body (f : Nat → Co σ) (i : Nat) : (tell f i).body = (f i).body := by unfold tell; (repeat' split) <;> rfl
theorem tell_off (f : Nat → Co σ) (i : Nat) (h : act? (f i).status = false) : tell f i = f i := by
  unfold tell; split
  · rename_i e; rw [e] at h; cases h
  · rfl
theorem tell_act (f : Nat → Co σ) (i : Nat) (h : act? (f i).status = true) :
    tell f i = { f i with finishing := (f i).finishing || (f i).handles == 0 } := by
  unfold tell
  cases hs : (f i).status with
  | active =>
    dsimp only
    split
    · rename_i e; simp [e]
    · rename_i e
      have : ((f i).handles == 0) = false := by simpa using e
      rw [this, Bool.or_false]
  | idle => rw [hs] at h; cases h
  | waiting x => rw [hs] at h; cases h
theorem tell_fin (f : Nat → Co σ) (i : Nat) (h : (f i).finishing = true) : (tell f i).finishing = true := by
  unfold tell; (repeat' split) <;> simp [h]

theorem coOk_pass {b b' : St σ} {d : Co σ} {c q : Nat} {fi fi' : Bool} (h : CoOk b d c) (hc : b'.conts c = { b.conts c with finishing := fi, p1 := q })
    (hn : b.ntasks ≤ b'.ntasks) (ht : ∀ t, Linked b c t → (b'.tasks t).recycled = (b.tasks t).recycled ∧ (b'.tasks t).data = (b.tasks t).data ∧
      (act? d.status = false → b'.tasks t = b.tasks t)) (hf : 0 < d.handles → fi' = false) (hf2 : (b.conts c).alive = true → fi = fi') :
    CoOk b' { d with finishing := fi' } c := by
  refine ⟨by rw [hc]; exact h.objs, hf, by rw [hc]; exact h.off, by rw [hc]; exact h.alive, by rw [hc]; exact h.body, by rw [hc]; exact hf2, ?_, ?_,
    h.waiting⟩
  · intro t h1 h2
    rw [hc] at h1 h2
    have hl := h.task t h1 h2
    exact linked_congr hl (by rw [hc]) (by rw [hc]) hn (ht t hl).1 (ht t hl).2.1
  · intro h1
    rw [hc] at h1
    have hs := h.status h1
    have hta := h.task
    revert hs ht
    cases d.status with
    | idle =>
      intro ht hs t h2
      rw [hc] at h2
      rw [(ht t (hta t h1 h2)).2.2 rfl]
      exact hs t h2
    | waiting x =>
      intro ht hs
      obtain ⟨t, h2, h3⟩ := hs
      refine ⟨t, by rw [hc]; exact h2, ?_⟩
      rw [(ht t (hta t h1 h2)).2.2 rfl]
      exact h3
    | active =>
      intro ht hs
      obtain ⟨t, h2⟩ := hs
      exact ⟨t, by rw [hc]; exact h2⟩

/-- The state that yields. -/
def left (b : St σ) (c t v : Nat) (f : Wv.Cont.Task σ → Wv.Cont.Task σ) : St σ := (b.setC c fun x => { x with ret := v }).setT t f

/-- Control has come to the caller's `run`. -/
structure Mid (a : Spec.Coroutine.St σ) (b b' : St σ) (c t v : Nat) (r : Bool) (S : List (Frame σ)) (k : Caller σ) (ks : List (Caller σ)) : Prop where
  pc : b'.pc = .runRet
  stk : b'.stk = .inCall c k.who :: (opFrames k c ++ base b' k.who)
  cur : b'.cur = taskOf b' k.who
  curdata : b'.curdata = some c
  depth : b'.depth = ks.length + 1
  next : b'.next = a.next
  free : FreeOk b'
  chain : Chain b' ks k.who
  links : Links (tell a.cos) b' ks k.who
  running : ∀ u, taskOf b' k.who = some u → (b'.tasks u).running = true
  cos : ∀ d, d ≠ c → CoOk b' (tell a.cos d) d
  self : ∃ q, b'.conts c = { b.conts c with ret := v, p1 := q }
  task : b'.tasks t = { b.tasks t with running := r, state := some S }
  linked : Linked b' c t
  fresh : c ∉ ids ks k.who

theorem leave_mid {a : Spec.Coroutine.St σ} {b : St σ} {c t v : Nat} {r : Bool} {S s : List (Frame σ)} {k : Caller σ} {ks : List (Caller σ)}
    {f : Wv.Cont.Task σ → Wv.Cont.Task σ} (h : Ctx a b none) (hcur : a.cur = some c) (hk : a.callers = k :: ks) (hl : Linked b c t)
    (hs : b.top = some s) (hf : f (b.tasks t) = { b.tasks t with running := r, state := some S }) :
    ∃ b', Run p { left b c t v f with pc := .landed, stk := s, top := none } [] b' ∧ Mid a b b' c t v r S k ks := by
  have hch := h.chain
  have hlks := h.links
  rw [hcur, hk] at hch hlks
  have hfr : c ∉ ids ks k.who := by
    obtain ⟨c', t', e, -, hd, -, -, hc⟩ := hch
    obtain rfl := Option.some.inj e
    exact chain_fresh hc (Or.inl hd)
  have cc : (left b c t v f).conts c = { b.conts c with ret := v } := by simp [left, St.setC, St.setT]
  have cd : ∀ d, d ≠ c → (left b c t v f).conts d = b.conts d := by intro d hd; simp [left, St.setC, St.setT, hd]
  have tt : (left b c t v f).tasks t = { b.tasks t with running := r, state := some S } := by simp [left, St.setC, St.setT, hf]
  have te : ∀ u, u ≠ t → (left b c t v f).tasks u = b.tasks u := by intro u hu; simp [left, St.setC, St.setT, hu]
  have tf : ∀ u, ((left b c t v f).tasks u).recycled = (b.tasks u).recycled ∧ ((left b c t v f).tasks u).data = (b.tasks u).data := by
    intro u; by_cases hu : u = t
    · subst hu; rw [tt]; exact ⟨rfl, rfl⟩
    · rw [te u hu]; exact ⟨rfl, rfl⟩
  have cf : ∀ d, ((left b c t v f).conts d).alive = (b.conts d).alive ∧ ((left b c t v f).conts d).task = (b.conts d).task ∧
      ((left b c t v f).conts d).mydepth = (b.conts d).mydepth ∧ ((left b c t v f).conts d).links = (b.conts d).links := by
    intro d; by_cases hd : d = c
    · subst hd; rw [cc]; exact ⟨rfl, rfl, rfl, rfl⟩
    · rw [cd d hd]; exact ⟨rfl, rfl, rfl, rfl⟩
  have lkB : ∀ d u, Linked b d u → Linked (left b c t v f) d u := fun d u hd =>
    linked_congr hd (cf d).1 (cf d).2.1 (Nat.le_refl _) (tf u).1 (tf u).2
  have hchB : Chain (left b c t v f) (k :: ks) (some c) := by
    refine chain_congr hch (fun d _ u => lkB d u) (fun d _ => (cf d).2.2.1) (fun _ => rfl) (fun k' hk' d hd u hu => ?_) (fun k' hk' d hd u hu => ?_)
    · rw [te u]
      rintro rfl
      exact who_ne hch hk' hd (by rw [hu.inj hl])
    · rw [te u]
      rintro rfl
      exact who_ne hch hk' hd (by rw [hu.inj hl])
  obtain ⟨b', hrun, hpc, hstk, hcur', hch', hp⟩ := descend (p := p) hchB
    (by show ks.length + 1 ≤ b.depth; rw [h.depth, hk]; exact Nat.le_refl _) (s := s) hs
  have hbase : base b' k.who = base (left b c t v f) k.who := hp.base _
  have htask : taskOf b' k.who = taskOf (left b c t v f) k.who := hp.taskOf _
  have hmem : ∀ d, d ∈ ids a.callers a.cur ↔ d = c ∨ d ∈ ids ks k.who := by
    intro d; rw [hcur, hk]; simp [ids]
  refine ⟨b', hrun, hpc, by rw [hbase]; exact hstk, by rw [htask]; exact hcur', hp.curdata.trans (h.curdata.trans hcur), ?_, hp.next.trans h.next, ?_,
    hch', ?_, ?_, ?_, ?_, ?_, hp.linked (lkB _ _ hl), hfr⟩
  · rw [hp.depth]; show b.depth = _; rw [h.depth, hk]; rfl
  · -- free tasks
    refine ⟨by rw [hp.free]; exact h.free.nodup, fun u hu => ?_⟩
    rw [hp.free] at hu
    have hok := h.free.ok u hu
    have hnt : u ≠ t := by rintro rfl; rw [hl.recycled] at hok; cases hok.2.1
    have hno : ∀ d ∈ ids ks k.who, ((left b c t v f).conts d).task ≠ some u := by
      intro d hd e
      rw [(cf d).2.1] at e
      have hd' : d ∈ ids a.callers a.cur := (hmem d).mpr (Or.inr hd)
      obtain ⟨w, hw⟩ := chain_linked h.chain d hd'
      rw [hw.task] at e
      obtain rfl := Option.some.inj e
      rw [hw.recycled] at hok; cases hok.2.1
    have e3 := hp.others u hno
    rw [te u hnt] at e3
    rw [hp.ntasks, hp.recycled, hp.running, e3, te u hnt]
    exact hok
  · -- links
    refine links_congr hlks.2 (fun d hd => ?_) (fun d _ => tell_handles _ _) (fun d _ hf => tell_fin _ _ hf)
    rw [hp.links]; exact (cf d).2.2.2
  · intro u hu
    obtain ⟨c', t', e, -, -, -, hr, hc⟩ := hchB
    obtain rfl := Option.some.inj e
    rw [hp.running]
    rw [htask] at hu
    exact hr u hu
  · intro d hd
    have h0 := h.cos d (by simp)
    obtain ⟨q, hq⟩ := hp.conts d
    have hT : ∀ u, Linked b d u → (b'.tasks u).recycled = (b.tasks u).recycled ∧ (b'.tasks u).data = (b.tasks u).data ∧
        (act? (a.cos d).status = false → b'.tasks u = b.tasks u) := by
      intro u hu
      have hut : u ≠ t := by rintro rfl; exact hd (hu.inj hl)
      refine ⟨by rw [hp.recycled]; exact (tf u).1, by rw [hp.data]; exact (tf u).2, fun hna => ?_⟩
      have hno : ∀ w ∈ ids ks k.who, ((left b c t v f).conts w).task ≠ some u := by
        intro w hw e
        rw [(cf w).2.1] at e
        have hw' : w ∈ ids a.callers a.cur := (hmem w).mpr (Or.inr hw)
        obtain ⟨u', hu'⟩ := chain_linked h.chain w hw'
        rw [hu'.task] at e
        obtain rfl := Option.some.inj e
        obtain rfl := hu'.inj hu
        rw [← h.active, hna] at hw'; cases hw'
      have e3 := hp.others u hno
      obtain ⟨s', hs'⟩ := hp.tasks u
      rw [hs', ← te u hut]
      rw [hs'] at e3
      have e3 : s' = ((left b c t v f).tasks u).state := e3
      rw [e3]
    rw [cd d hd] at hq
    by_cases hac : act? (a.cos d).status = true
    · have hdi : d ∈ ids ks k.who := by
        rcases (hmem d).mp ((h.active d).mp hac) with e | e
        · exact absurd e hd
        · exact e
      obtain ⟨ds, hl1, hl2⟩ := links_mem h.links h.chain ((h.active d).mp hac)
      rw [tell_act _ _ hac]
      refine coOk_pass (q := q) h0 hq (Nat.le_of_eq hp.ntasks.symm) hT ?_ ?_
      · intro hh
        have : ((a.cos d).handles == 0) = false := by simpa using Nat.ne_of_gt hh
        rw [h0.fin hh, this]; rfl
      · intro hal
        rw [h0.finishing hal]
        simp only [hdi, decide_true, Bool.true_and]
        cases ds with
        | true => simp [(hl2 rfl).2]
        | false =>
          simp only [Bool.false_eq_true, if_false, Nat.add_zero] at hl1
          congr 1
          rw [hl1]
          simp
    · have hac : act? (a.cos d).status = false := by simpa using hac
      have hdi : d ∉ ids ks k.who := by
        intro hdi
        have := (h.active d).mpr ((hmem d).mpr (Or.inr hdi))
        rw [hac] at this; cases this
      rw [tell_off _ _ hac]
      refine coOk_pass (q := q) (fi' := (a.cos d).finishing) h0 hq (Nat.le_of_eq hp.ntasks.symm) hT h0.fin (fun hal => ?_)
      rw [h0.finishing hal]; simp [hdi]
  · obtain ⟨q, hq⟩ := hp.conts c
    refine ⟨q, ?_⟩
    rw [hq, cc]
    simp [hfr]
  · have hno : ∀ d ∈ ids ks k.who, ((left b c t v f).conts d).task ≠ some t := by
      intro d hd e
      rw [(cf d).2.1] at e
      have hd' : d ∈ ids a.callers a.cur := (hmem d).mpr (Or.inr hd)
      obtain ⟨w, hw⟩ := chain_linked h.chain d hd'
      rw [hw.task] at e
      obtain rfl := Option.some.inj e
      exact hfr (hw.inj hl ▸ hd)
    have e3 := hp.others t hno
    obtain ⟨s', hs'⟩ := hp.tasks t
    rw [hs'] at e3
    have e3 : s' = ((left b c t v f).tasks t).state := e3
    rw [hs', e3, tt]

/-- `if` outside or inside of a change. -/
theorem told_eq (b : St σ) (c : Nat) (g : Data → Data) :
    (if (b.conts c).links = 1 then b.setC c g else b) = b.setC c fun x => if x.links = 1 then g x else x := by
  by_cases h : (b.conts c).links = 1
  · rw [if_pos h]
    simp only [St.setC]
    congr 1
    funext i
    by_cases hi : i = c
    · subst hi; simp [h]
    · simp [hi]
  · rw [if_neg h]
    simp only [St.setC]
    have : (fun i => if i = c then if (b.conts i).links = 1 then g (b.conts i) else b.conts i else b.conts i) = b.conts := by
      funext i
      by_cases hi : i = c
      · subst hi; simp [h]
      · simp [hi]
    rw [this]

theorem setC_setC (b : St σ) (c : Nat) (f g : Data → Data) : (b.setC c f).setC c g = b.setC c fun x => g (f x) := by
  simp only [St.setC]
  congr 1
  funext i
  by_cases hi : i = c <;> simp [hi]

theorem setT_setT (b : St σ) (t : Nat) (f g : Wv.Cont.Task σ → Wv.Cont.Task σ) : (b.setT t f).setT t g = b.setT t fun x => g (f x) := by
  simp only [St.setT]
  congr 1
  funext i
  by_cases hi : i = t <;> simp [hi]

theorem unlink_with (s : St σ) (c n : Nat) (o : Option Nat) (k : List (Frame σ)) (q : Pc σ) :
    ({ s with depth := n, curdata := o, stk := k, pc := q } : St σ).unlink c =
      (s.unlink c).map fun s2 => { s2 with depth := n, curdata := o, stk := k, pc := q } := by
  simp only [St.unlink]
  split
  · rfl
  split
  · rfl
  cases (s.conts c).task with
  | none => rfl
  | some t =>
    dsimp only
    split
    · rfl
    split <;> rfl

/-- The caller goes on, but what it called is still to be settled. -/
theorem mid_ctx {a : Spec.Coroutine.St σ} {b b' : St σ} {c t v : Nat} {r : Bool} {S : List (Frame σ)} {k : Caller σ} {ks : List (Caller σ)}
    (h : Ctx a b none) (hcur : a.cur = some c) (hk : a.callers = k :: ks) (hm : Mid a b b' c t v r S k ks) (g : Data → Data) (st : Status σ)
    (hst : act? st = false) (S' : List (Frame σ)) (q : Pc σ) (y : σ) :
    Ctx ⟨upd (tell a.cos) c fun d => { d with status := st }, a.next, k.who, y, ks⟩
      { b'.setC c g with depth := ks.length, curdata := k.who, stk := S', pc := q } (some c) := by
  have hci : act? (a.cos c).status = true := by rw [h.active, hcur]; exact cur_mem (b := b)
  have hcn := lt_next' h hci
  have hcc : ∀ d, d ≠ c → (b'.setC c g).conts d = b'.conts d := by intro d hd; simp [St.setC, hd]
  have hco : ∀ d, d ≠ c → upd (tell a.cos) c (fun d => { d with status := st }) d = tell a.cos d := by intro d hd; simp [upd, hd]
  have hmem : ∀ d, d ∈ ids a.callers a.cur ↔ d = c ∨ d ∈ ids ks k.who := by
    intro d; rw [hcur, hk]; simp [ids]
  have hto : taskOf ({ b'.setC c g with depth := ks.length, curdata := k.who, stk := S', pc := q } : St σ) k.who = taskOf b' k.who := by
    cases hw : k.who with
    | none => rfl
    | some d =>
      have : d ≠ c := by rintro rfl; have := hm.fresh; rw [hw] at this; exact this (cur_mem (b := b))
      simp only [taskOf, Option.bind_some, hcc d this]
  refine ⟨by rw [hto]; exact hm.cur, rfl, rfl, hm.next, ?_, ?_, ⟨hm.free.nodup, hm.free.ok⟩, ?_, ?_, by rw [hto]; exact hm.running, ?_⟩
  · intro d hd
    have hd : a.next ≤ d := hd
    show (upd (tell a.cos) c (fun d => { d with status := st }) d).handles = 0 ∧ (upd (tell a.cos) c (fun d => { d with status := st }) d).status = _
    rw [hco d (by omega), tell_handles, tell_status]; exact h.new d hd
  · intro d hd
    have hd' : d ≠ c := by rintro rfl; exact hd rfl
    show CoOk _ (upd (tell a.cos) c (fun d => { d with status := st }) d) d
    rw [hco d hd']
    exact coOk_congr (hm.cos d hd') (hcc d hd') (Nat.le_refl _) (fun _ _ => ⟨rfl, rfl, fun _ => rfl⟩)
  · refine chain_congr hm.chain (fun d hd u hl => ?_) (fun d hd => ?_) (fun _ => rfl) (fun _ _ _ _ _ _ => rfl) (fun _ _ _ _ _ _ => rfl)
    · have e := hcc d (by rintro rfl; exact hm.fresh hd)
      exact linked_congr hl (by rw [e]) (by rw [e]) (Nat.le_refl _) rfl rfl
    · show ((b'.setC c g).conts d).mydepth = _
      rw [hcc d (by rintro rfl; exact hm.fresh hd)]
  · refine links_congr hm.links (fun d hd => ?_) (fun d hd => ?_) (fun d hd hf => ?_)
    · show ((b'.setC c g).conts d).links = _
      rw [hcc d (by rintro rfl; exact hm.fresh hd)]
    · show (upd (tell a.cos) c (fun d => { d with status := st }) d).handles = _
      rw [hco d (by rintro rfl; exact hm.fresh hd)]
    · show (upd (tell a.cos) c (fun d => { d with status := st }) d).finishing = _
      rw [hco d (by rintro rfl; exact hm.fresh hd)]; exact hf
  · intro d
    show act? (upd (tell a.cos) c (fun d => { d with status := st }) d).status = true ↔ d ∈ ids ks k.who
    by_cases hd : d = c
    · subst hd
      simp only [upd, if_true, hst, Bool.false_eq_true, false_iff]
      exact hm.fresh
    · rw [hco d hd, tell_status, h.active, hmem]; simp [hd]

theorem base_with {b b' : St σ} {c : Nat} {o : Option Nat} (ho : o ≠ some c) (hc : ∀ d, d ≠ c → (b'.conts d).task = (b.conts d).task) :
    base b' o = base b o := by
  cases o with
  | none => rfl
  | some d =>
    have : d ≠ c := by rintro rfl; exact ho rfl
    simp only [base, hc d this]

/-- What `_call` does when the one called is suspended or has ended. -/
theorem mid_step {a : Spec.Coroutine.St σ} {b b' : St σ} {c t v : Nat} {r : Bool} {S : List (Frame σ)} {k : Caller σ} {ks : List (Caller σ)}
    (hm : Mid a b b' c t v r S k ks) (hd : (b.conts c).mydepth = ks.length + 1)
    (hr : r = false ∨ ((b.conts c).finishing = false ∧ (b.conts c).links ≠ 1)) :
    ∃ g : Data → Data, (∃ fi q, g (b'.conts c) = { b.conts c with ret := v, mydepth := 0, finishing := fi, p1 := q } ∧
        ((b.conts c).links ≠ 1 → fi = (b.conts c).finishing)) ∧
      b'.step p = ({ b'.setC c g with depth := ks.length, curdata := k.who, stk := opFrames k c ++ base b' k.who, pc := .back v } : St σ).unlink c := by
  obtain ⟨q, hq⟩ := hm.self
  refine ⟨fun x => { (if x.links = 1 then { x with finishing := true, p1 := 0 } else x) with mydepth := 0 }, ?_, ?_⟩
  · rw [hq]
    by_cases hl : (b.conts c).links = 1
    · exact ⟨true, 0, by simp [hl], fun h => absurd hl h⟩
    · exact ⟨(b.conts c).finishing, q, by simp [hl], fun _ => rfl⟩
  · let s1 := b'.setC c fun x => if x.links = 1 then { x with finishing := true, p1 := 0 } else x
    have hs1c : s1.conts c = if (b.conts c).links = 1 then { b.conts c with ret := v, finishing := true, p1 := 0 } else { b.conts c with ret := v, p1 := q } := by
      simp only [s1, St.setC, if_true, hq]
    have e1 : (s1.conts c).task = some t := by
      rw [hs1c]
      have := hm.linked.task
      rw [hq] at this
      split <;> exact this
    have e2 : (s1.conts c).mydepth = ks.length + 1 := by rw [hs1c]; split <;> exact hd
    have e3 : (s1.conts c).ret = v := by rw [hs1c]; split <;> rfl
    have e4 : ¬ ((s1.conts c).finishing = true ∧ (s1.tasks t).running = true) := by
      rintro ⟨h1, h2⟩
      have h2 : (b'.tasks t).running = true := h2
      rw [hm.task] at h2
      have h2 : r = true := h2
      rcases hr with hr | ⟨hr1, hr2⟩
      · rw [hr] at h2; cases h2
      · rw [hs1c, if_neg hr2] at h1
        have h1 : (b.conts c).finishing = true := h1
        rw [hr1] at h1; cases h1
    have e5 : s1.depth = ks.length + 1 := hm.depth
    rw [unlink_with]
    simp only [St.step, hm.pc, hm.stk, St.runRet, hm.linked.alive, Bool.true_eq_false, if_false]
    rw [told_eq]
    rw [show (b'.setC c fun x => if x.links = 1 then { x with finishing := true, p1 := 0 } else x) = s1 from rfl]
    simp only [e1, Option.bind_some, e4, false_or, e2, e5, Nat.lt_irrefl, if_false, ne_eq, not_true_eq_false, e3, Nat.add_sub_cancel]
    rw [setC_setC]

/-- The code that called a coroutine goes on. -/
theorem go_on {a : Spec.Coroutine.St σ} {b : St σ} {k : Caller σ} {v c : Nat} (h : Ctx a b none) (hk : a.cur = k.who) (hd : k.destroys = false)
    (hpc : b.pc = .back v) (hstk : b.stk = opFrames k c ++ base b k.who) (hcode : a.code = p.resume k.code v) :
    ∃ b', Run p b [a.seen] b' ∧ Rel a b' := by
  have hrel : Rel a { b with stk := base b k.who, pc := .go (p.resume k.code v) } := by
    refine ⟨by rw [hcode], by rw [hk]; rfl, ctx_same h rfl rfl rfl rfl rfl rfl rfl rfl rfl rfl rfl rfl rfl⟩
  refine ⟨_, ?_, hrel⟩
  rw [← hrel.seen]
  refine run_one ?_
  simp only [St.step, hpc, St.back, hstk, opFrames, hd, Bool.false_eq_true, if_false, List.cons_append, List.nil_append]

theorem chain_self {a : Spec.Coroutine.St σ} {b : St σ} {c : Nat} (h : Ctx a b none) (hcur : a.cur = some c) :
    ∃ k ks t, a.callers = k :: ks ∧ Linked b c t ∧ (b.conts c).mydepth = ks.length + 1 ∧ (b.tasks t).running = true ∧
      base b a.cur = [.bouncer c, .loop t] ∧ b.cur = some t ∧ (∃ s, b.top = some s) ∧
      (b.conts c).links = (a.cos c).handles + 1 + (if k.destroys then 1 else 0) ∧
      (k.destroys = true → (a.cos c).handles = 0 ∧ (a.cos c).finishing = true) := by
  have hch := h.chain
  have hlk := h.links
  cases hca : a.callers with
  | nil => rw [hca, hcur] at hch; cases hch
  | cons k ks =>
    rw [hca] at hch hlk
    obtain ⟨s, hs⟩ := chain_top hch
    obtain ⟨c', t, e, hl, hd, -, -, -⟩ := hch
    rw [hcur] at e
    obtain rfl := Option.some.inj e
    obtain ⟨h1, h2⟩ := hlk.1 c hcur
    refine ⟨k, ks, t, rfl, hl, hd, h.running t (by rw [hcur]; exact hl.task), ?_, ?_, ⟨s, hs⟩, h1, h2⟩
    · rw [hcur]; simp only [base, hl.task]
    · rw [h.cur, hcur]; exact hl.task

theorem sim_ret {a a' : Spec.Coroutine.St σ} {b : St σ} {v : Nat} (h : Rel a b) (hact : p.act a.code = .ret v) (hs : a.step p = some a') :
    ∃ b', Run p b [a'.seen] b' ∧ Rel a' b' := by
  simp only [Spec.Coroutine.St.step, hact] at hs
  cases hcur : a.cur with
  | none =>
    rw [hcur] at hs
    obtain rfl := Option.some.inj hs
    refine ⟨b, ?_, h⟩
    rw [← h.seen]
    refine run_one ?_
    have : b.stk = [] := by rw [h.stk, hcur]; rfl
    simp only [St.step, h.pc, St.act, hact, this]
  | some c =>
    rw [hcur] at hs
    obtain ⟨k, ks, t, hk, hl, hd, hrn, hbs, hbc, ⟨s, htop⟩, hlk, hds⟩ := chain_self h.ctx hcur
    have hstk : b.stk = [.bouncer c, .loop t] := h.stk.trans hbs
    simp only [Spec.Coroutine.St.leave, hk] at hs
    obtain rfl := Option.some.inj hs
    have h0 := h.ctx.cos c (by simp)
    have hac : act? (a.cos c).status = true := by rw [h.ctx.active, hcur]; exact cur_mem (b := b)
    have hcn := lt_next' h.ctx hac
    obtain ⟨b', hrun, hm⟩ := leave_mid (p := p) (v := v) (r := false) (S := [.loop t]) (f := fun x => { x with running := false, state := some [.loop t] })
      h.ctx hcur hk hl htop rfl
    have q1 : Run p b [] { b with pc := .back v } := by
      refine quiet ?_ (fun x hx => by cases hx)
      simp only [St.step, h.pc, St.act, hact, hstk]
    have q2 : Run p { b with pc := .back v } []
        { left b c t v (fun x => { x with running := false, state := some [.loop t] }) with pc := .landed, stk := s, top := none } := by
      refine quiet ?_ (fun x hx => by cases hx)
      simp only [St.step, St.back, hstk, hl.alive, if_true, St.yield]
      simp only [St.setT, St.setC, hbc, htop, Option.map_some, left]
      congr 2
      funext i
      by_cases hi : i = t <;> simp [hi]
    obtain ⟨g, ⟨fi, q, hg, hfi⟩, hstep⟩ := mid_step (p := p) hm hd (Or.inl rfl)
    have hq : Run p b [] b' := quiet_trans q1 (quiet_trans q2 hrun)
    have hcx := mid_ctx h.ctx hcur hk hm g .idle rfl (opFrames k c ++ base b' k.who) (.back v) (p.resume k.code (if k.destroys then 0 else v))
    generalize hbm : ({ b'.setC c g with depth := ks.length, curdata := k.who, stk := opFrames k c ++ base b' k.who, pc := .back v } : St σ) = bm at hstep hcx
    have hmc : bm.conts c = { b.conts c with ret := v, mydepth := 0, finishing := fi, p1 := q } := by rw [← hbm]; simp [St.setC, hg]
    have hmd : ∀ d, d ≠ c → bm.conts d = b'.conts d := by intro d hd; rw [← hbm]; simp [St.setC, hd]
    have hmt : bm.tasks t = { b.tasks t with running := false, state := some [.loop t] } := by rw [← hbm]; exact hm.task
    have hml : Linked bm c t := ⟨by rw [hmc]; exact hl.alive, by rw [hmc]; exact hl.task, by rw [← hbm]; exact hm.linked.lt, by rw [hmt]; exact hl.recycled,
      by rw [hmt]; exact hl.data⟩
    have hwho : k.who ≠ some c := by intro e; have := hm.fresh; rw [e] at this; exact this (cur_mem (b := b))
    have hmb : base bm k.who = base b' k.who := base_with hwho (fun d hd => by rw [hmd d hd])
    have hmp : bm.pc = .back v := by rw [← hbm]
    have hms : bm.stk = opFrames k c ++ base bm k.who := by rw [hmb, ← hbm]
    have hmu : upd (tell a.cos) c (fun d => { d with status := .idle }) c = { tell a.cos c with status := .idle } := by simp [upd]
    have htell := tell_act _ _ hac
    by_cases hl1 : (b.conts c).links = 1
    · -- nobody has it any more
      have hnd : k.destroys = false := by
        cases hkd : k.destroys with
        | false => rfl
        | true => rw [hkd] at hlk; simp at hlk; omega
      have hh : (a.cos c).handles = 0 := by rw [hnd] at hlk; simp at hlk; omega
      obtain ⟨b2, hu, hpc2, hstk2, hto2, hcx2⟩ := ctx_del hcx (by show (upd _ c _ c).status = _; rw [hmu])
        (by show (upd _ c _ c).handles = _; rw [hmu]; show (tell a.cos c).handles = 0; rw [tell_handles]; exact hh)
        (by rw [hmc]; show (b.conts c).objs = 0; rw [h0.objs]; exact hh) hml.alive (by rw [hmc]; exact hl1) hcn
        (by
          intro t' ht'
          rw [hmc] at ht'
          have ht' : (b.conts c).task = some t' := ht'
          rw [hl.task] at ht'
          obtain rfl := Option.some.inj ht'
          exact ⟨hml, by rw [hmt], by rw [hmt]⟩)
      have hb2 : base b2 k.who = base bm k.who := by
        have := hto2 k.who hwho
        revert this
        cases k.who with
        | none => intro _; rfl
        | some d => intro e; simp only [taskOf, Option.bind_some] at e; simp only [base, e]
      rw [hu] at hstep
      obtain ⟨b3, hr3, hrel⟩ := go_on (p := p) (k := k) (v := v) (c := c) hcx2 rfl hnd (hpc2.trans hmp) (by rw [hstk2, hms, hb2]) (by simp [hnd])
      exact ⟨b3, quiet_trans hq (quiet_trans (quiet hstep (fun x hx => by rw [hpc2, hmp] at hx; cases hx)) hr3), hrel⟩
    · -- a link goes
      have hu : bm.unlink c = some (bm.setC c fun x => { x with links := x.links - 1 }) := by
        have e1 : (bm.conts c).links = (b.conts c).links := by rw [hmc]
        have e2 : ¬ (b.conts c).links = 0 := by omega
        have e3 : 1 < (b.conts c).links := by omega
        simp only [St.unlink, hml.alive, Bool.true_eq_false, e1, e2, or_self, if_false, e3, if_true]
      rw [hu] at hstep
      have q3 : Run p b [] (bm.setC c fun x => { x with links := x.links - 1 }) :=
        quiet_trans hq (quiet hstep (fun x hx => by have hx : bm.pc = _ := hx; rw [hmp] at hx; cases hx))
      have hcx2 := ctx_setC hcx (by show act? (upd _ c _ c).status = false; rw [hmu]; rfl) (fun x => { x with links := x.links - 1 }) hcn
      have hfi := hfi hl1
      have hnb : base (bm.setC c fun x => { x with links := x.links - 1 }) k.who = base bm k.who :=
        base_with hwho (fun d hd => by simp [St.setC, hd])
      have hcC : (bm.setC c fun x => { x with links := x.links - 1 }).conts c =
          { b.conts c with ret := v, mydepth := 0, finishing := fi, p1 := q, links := (b.conts c).links - 1 } := by simp [St.setC, hmc]
      have hLk : Linked (bm.setC c fun x => { x with links := x.links - 1 }) c t :=
        linked_congr hml (by rw [hcC, hmc]) (by rw [hcC, hmc]) (Nat.le_refl _) rfl rfl
      cases hkd : k.destroys with
      | false =>
        rw [hkd] at hlk
        simp only [Bool.false_eq_true, if_false, Nat.add_zero] at hlk
        have hh : 0 < (a.cos c).handles := by omega
        have hok : CoOk (bm.setC c fun x => { x with links := x.links - 1 }) (upd (tell a.cos) c (fun d => { d with status := .idle }) c) c := by
          rw [hmu, htell]
          have hz : ((a.cos c).handles == 0) = false := by simpa using Nat.ne_of_gt hh
          have hf0 := h0.fin hh
          rw [hz, hf0]
          refine ⟨?_, fun _ => rfl, ?_, ?_, ?_, ?_, ?_, ?_, fun x hx => by cases hx⟩
          · rw [hcC]; exact h0.objs
          · intro _ _; rw [hcC]; exact ⟨by show (b.conts c).links - 1 = _; rw [hlk]; rfl, rfl⟩
          · rw [hcC]; simp [hl.alive, hh]
          · intro _; rw [hcC]; exact h0.body hl.alive
          · intro _; rw [hcC]; show fi = false; rw [hfi, h0.finishing hl.alive, hf0]
          · intro u _ hu
            rw [hcC] at hu
            have hu : (b.conts c).task = some u := hu
            rw [hl.task] at hu
            obtain rfl := Option.some.inj hu
            exact hLk
          · intro _ u hu
            rw [hcC] at hu
            have hu : (b.conts c).task = some u := hu
            rw [hl.task] at hu
            obtain rfl := Option.some.inj hu
            show (bm.tasks t).running = false ∧ (bm.tasks t).state = _
            rw [hmt]; exact ⟨rfl, rfl⟩
        obtain ⟨b3, hr3, hrel⟩ := go_on (p := p) (k := k) (v := v) (c := c) (ctx_done hcx2 hok) rfl hkd hmp (by rw [hnb]; exact hms) (by simp [hkd])
        rw [hkd] at hr3 hrel
        exact ⟨b3, quiet_trans q3 hr3, hrel⟩
      | true =>
        obtain ⟨hh, hf1⟩ := hds hkd
        rw [hkd] at hlk
        simp only [if_true, hh] at hlk
        -- the destructor sees that it has ended, and deletes it
        obtain ⟨b4, hu4, hpc4, hstk4, hto4, hcx4⟩ := ctx_del hcx2 (by show (upd _ c _ c).status = _; rw [hmu])
          (by show (upd _ c _ c).handles = _; rw [hmu]; show (tell a.cos c).handles = 0; rw [tell_handles]; exact hh)
          (by rw [hcC]; show (b.conts c).objs = 0; rw [h0.objs]; exact hh) hLk.alive (by rw [hcC]; show (b.conts c).links - 1 = 1; omega) hcn
          (by
            intro t' ht'
            rw [hcC] at ht'
            have ht' : (b.conts c).task = some t' := ht'
            rw [hl.task] at ht'
            obtain rfl := Option.some.inj ht'
            exact ⟨hLk, by show (bm.tasks t).running = _; rw [hmt], by show (bm.tasks t).state = _; rw [hmt]⟩)
        have hb4 : base b4 k.who = base bm k.who := by
          have := hto4 k.who hwho
          have h5 : taskOf (bm.setC c fun x => { x with links := x.links - 1 }) k.who = taskOf bm k.who := by
            revert hwho
            cases k.who with
            | none => intro _; rfl
            | some d =>
              intro hwho
              have : d ≠ c := by rintro rfl; exact hwho rfl
              simp [taskOf, St.setC, this]
          rw [h5] at this
          revert this
          cases k.who with
          | none => intro _; rfl
          | some d => intro e; simp only [taskOf, Option.bind_some] at e; simp only [base, e]
        have hcx5 : Ctx ⟨upd (tell a.cos) c fun d => { d with status := .idle }, a.next, k.who, p.resume k.code (if k.destroys then 0 else v), ks⟩
            { b4 with stk := .user k.code :: base bm k.who, pc := .back 0 } none :=
          ctx_same hcx4 rfl rfl rfl rfl rfl rfl rfl rfl rfl rfl rfl rfl rfl
        obtain ⟨b3, hr3, hrel⟩ := go_on (p := p) (k := ⟨k.who, k.code, false⟩) (v := 0) (c := c) hcx5 rfl rfl rfl
          (by show _ = _ ++ base b4 k.who; rw [hb4]; rfl) (by simp [hkd])
        rw [hkd] at hr3 hrel
        refine ⟨b3, quiet_trans q3 (quiet_trans (quiet ?_ (fun x hx => by cases hx)) hr3), hrel⟩
        have hstk5 : (bm.setC c fun x => { x with links := x.links - 1 }).stk = .destroying c :: .user k.code :: base bm k.who := by
          show bm.stk = _
          rw [hms]; simp [opFrames, hkd]
        have hpc5 : (bm.setC c fun x => { x with links := x.links - 1 }).pc = .back v := hmp
        have hrn5 : ((bm.setC c fun x => { x with links := x.links - 1 }).tasks t).running = false := by
          show (bm.tasks t).running = _; rw [hmt]
        simp only [St.step, hpc5, St.back, hstk5, hLk.alive, Bool.true_eq_false, if_false, hLk.task, Option.any_some, hrn5, Bool.false_eq_true, hu4,
          Option.map_some]

end Lemmas.Cont
