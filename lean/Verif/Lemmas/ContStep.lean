import Verif.Lemmas.ContSim
/-
The other actions, and all of them together.
-/
namespace Lemmas.Cont
open Wv.Cont
open Spec.Coroutine (Code Act Co Caller Status tell upd)

variable {σ : Type} {p : Code σ}

theorem isok_eq {a : Spec.Coroutine.St σ} {b : St σ} {c : Nat} (h : Ctx a b none) (hcur : a.cur = some c) :
    b.isok c = some !(a.cos c).finishing := by
  obtain ⟨k, ks, t, hk, hl, hd, hrn, hbs, hbc, -, -, -⟩ := chain_self h hcur
  have h0 := h.cos c (by simp)
  simp only [St.isok, hl.alive, hl.task, hbc, and_self, if_true, h0.finishing hl.alive]

theorem upd_upd (f : Nat → Co σ) (c : Nat) (g g' : Co σ → Co σ) : upd (upd f c g) c g' = upd f c fun d => g' (g d) := by
  funext i; simp only [upd]; by_cases h : i = c <;> simp [h]

theorem sim_yield {a a' : Spec.Coroutine.St σ} {b : St σ} {v : Nat} (h : Rel a b) (hact : p.act a.code = .yield v) (hs : a.step p = some a') :
    ∃ b', Run p b [a'.seen] b' ∧ Rel a' b' := by
  simp only [Spec.Coroutine.St.step, hact] at hs
  cases hcur : a.cur with
  | none => rw [hcur] at hs; cases hs
  | some c =>
    rw [hcur] at hs
    obtain ⟨k, ks, t, hk, hl, hd, hrn, hbs, hbc, ⟨s, htop⟩, hlk, hds⟩ := chain_self h.ctx hcur
    have hstk : b.stk = [.bouncer c, .loop t] := h.stk.trans hbs
    cases hfin : (a.cos c).finishing with
    | true => simp [hfin] at hs
    | false =>
    have hkd : k.destroys = false := by
      cases hkd : k.destroys with
      | false => rfl
      | true => rw [hfin] at hds; cases (hds hkd).2
    simp only [hkd, Bool.false_eq_true, if_false, Nat.add_zero] at hlk
    simp only [hfin, Bool.false_eq_true, if_false] at hs
    have h0 := h.ctx.cos c (by simp)
    have hac : act? (a.cos c).status = true := by rw [h.ctx.active, hcur]; exact cur_mem (b := b)
    have hcn := lt_next' h.ctx hac
    have hik : b.isok c = some true := by rw [isok_eq h.ctx hcur, hfin]; rfl
    obtain ⟨b', hrun, hm⟩ := leave_mid (p := p) (v := v) (r := true) (S := [.yielding, .user a.code, .bouncer c, .loop t])
      (f := fun x => { x with state := some [.yielding, .user a.code, .bouncer c, .loop t] }) h.ctx hcur hk hl htop (by rw [← hrn])
    have q1 : Run p b [] { left b c t v (fun x => { x with state := some [.yielding, .user a.code, .bouncer c, .loop t] }) with
        pc := .landed, stk := s, top := none } := by
      refine quiet ?_ (fun x hx => by cases hx)
      have hcd : b.curdata = some c := h.ctx.curdata.trans hcur
      simp only [St.step, h.pc, St.act, hact, hcd, Option.bind_some, hik, if_true, St.yield, hstk]
      simp only [St.setC, hbc, htop, Option.map_some, St.setT, left]
    have hq : Run p b [] b' := quiet_trans q1 hrun
    have hwho : k.who ≠ some c := by intro e; have := hm.fresh; rw [e] at this; exact this (cur_mem (b := b))
    have htell := tell_act _ _ hac
    by_cases hh : (a.cos c).handles = 0
    · -- it is told to finish, and goes on
      simp only [hh, if_true] at hs
      obtain rfl := Option.some.inj hs
      obtain ⟨q, hself⟩ := hm.self
      let g : Data → Data := fun x => { x with finishing := true, p1 := 0, links := 0, mydepth := 0 }
      let bp : St σ := { b'.setC c g with depth := ks.length, curdata := k.who, stk := opFrames k c ++ base b' k.who, pc := .runRet }
      have hcx := mid_ctx h.ctx hcur hk hm g .idle rfl (opFrames k c ++ base b' k.who) .runRet k.code
      have hcC : bp.conts c = { b.conts c with ret := v, finishing := true, p1 := 0, links := 0, mydepth := 0 } := by
        simp only [bp, St.setC, if_true, hself, g]
      have hl' : Linked bp c t := ⟨by rw [hcC]; exact hl.alive, by rw [hcC]; exact hl.task, hm.linked.lt, hm.linked.recycled, hm.linked.data⟩
      have hmu : upd (tell a.cos) c (fun d => { d with status := .idle }) c = { tell a.cos c with status := .idle } := by simp [upd]
      have hbb : base bp k.who = base b' k.who := base_with hwho (fun d hd => by simp [bp, St.setC, hd])
      obtain ⟨b3, hcall, hpc3, hstk3, hcd3, hal3, hp13, -, -, -, hrel⟩ := enter_rel (b := bp) (c := c) (t := t) (ds := false)
        (S := [.yielding, .user a.code, .bouncer c, .loop t]) hcx (by show act? (upd _ c _ c).status = false; rw [hmu]; rfl) hcn hl' (by rw [hcC])
        (by show (b'.tasks t).state = _; rw [hm.task])
        (by show _ = (upd _ c _ c).handles; rw [hmu, hcC]; show (b.conts c).objs = (tell a.cos c).handles; rw [tell_handles]; exact h0.objs)
        (by show 0 < (upd _ c _ c).handles → _; rw [hmu]; show 0 < (tell a.cos c).handles → _; rw [tell_handles, hh]; intro h; cases h)
        (by show _ = (upd _ c _ c).body; rw [hmu, hcC]; show (b.conts c).body = (tell a.cos c).body; rw [tell_body]; exact h0.body hl.alive)
        (by show _ = (upd _ c _ c).finishing; rw [hmu, hcC]; show true = (tell a.cos c).finishing; rw [htell, hh]; simp)
        (by show _ = (upd _ c _ c).handles + _; rw [hmu, hcC]; show 0 = (tell a.cos c).handles + _; rw [tell_handles, hh]; rfl)
        (fun h => by cases h) (by show (b'.tasks t).running = _; rw [hm.task])
        (by show opFrames k c ++ base b' k.who = _; rw [show base bp _ = base b' k.who from hbb]; simp [opFrames, hkd])
      have hstep : b'.step p = bp.call c := by
        have e1 : (b'.conts c).links = 1 := by rw [hself]; show (b.conts c).links = 1; omega
        have e2 : (bp.conts c).alive = true := hl'.alive
        have e3 : (bp.conts c).mydepth = 0 := by rw [hcC]
        have e4 : ((b'.setC c fun x => { x with finishing := true, p1 := 0 }).conts c).task = some t := by
          simp only [St.setC, if_true]; exact hm.linked.task
        have e5 : ((b'.setC c fun x => { x with finishing := true, p1 := 0 }).conts c).finishing = true := by simp [St.setC]
        have e6 : ((b'.setC c fun x => { x with finishing := true, p1 := 0 }).tasks t).running = true := by
          show (b'.tasks t).running = true; rw [hm.task]
        have hsame : (b'.setC c fun x => { x with finishing := true, p1 := 0 }) =
            { bp.setC c fun x => { x with links := x.links + 1, mydepth := bp.depth + 1 } with
              curdata := some c, depth := bp.depth + 1, stk := .inCall c bp.curdata :: bp.stk } := by
          have hx : ∀ x y : St σ, x.pc = y.pc → x.stk = y.stk → x.conts = y.conts → x.next = y.next → x.tasks = y.tasks → x.ntasks = y.ntasks →
              x.free = y.free → x.man = y.man → x.top = y.top → x.cur = y.cur → x.curdata = y.curdata → x.depth = y.depth → x = y := by
            intro x y; cases x; cases y; intros; simp_all
          refine hx _ _ hm.pc hm.stk ?_ rfl rfl rfl rfl rfl rfl rfl hm.curdata hm.depth
          funext i
          by_cases hi : i = c
          · subst hi
            simp only [St.setC, if_true, bp, g, hself]
            rw [show (b.conts i).links = 0 + 1 from by omega, hd]
          · simp [St.setC, hi, bp]
        simp only [St.step, hm.pc, hm.stk, St.runRet, hm.linked.alive, Bool.true_eq_false, if_false, e1, if_true, e4, Option.bind_some, e5, e6,
          and_self, true_or]
        simp only [St.call, e2, Bool.true_eq_false, if_false, e3, ne_eq, not_true_eq_false, hl'.task, Option.bind_some]
        rw [hsame]
      rw [hcall] at hstep
      have heq : (Spec.Coroutine.St.enter ⟨upd (tell a.cos) c (fun d => { d with status := .idle }), a.next, k.who, k.code, ks⟩ c (p.resume a.code 0) false) =
          ({ a with cos := tell a.cos } : Spec.Coroutine.St σ).go p 0 := by
        simp only [Spec.Coroutine.St.enter, Spec.Coroutine.St.go, upd_upd, hcur, hk]
        congr 1
        · funext i
          simp only [upd]
          by_cases hi : i = c
          · subst hi
            have : (tell a.cos i).status = .active := by
              rw [tell_status]; revert hac; cases (a.cos i).status <;> simp [act?]
            simp only [if_true, ← this]
          · simp [hi]
        · rw [← hkd]
      have hrl := hrel (p.resume a.code 0)
      rw [heq, hcur] at hrl
      refine ⟨_, quiet_trans hq (quiet_trans (quiet hstep (fun x hx => by rw [hpc3] at hx; cases hx))
        (quiet_trans (b := { b3 with stk := [.user a.code, .bouncer c, .loop t], pc := .back 0 }) (quiet ?_ (fun x hx => by cases hx)) ?_)), hrl⟩
      · have hp0 : (b3.conts c).p1 = 0 := by rw [hp13, hcC]
        simp only [St.step, hpc3, St.landed, hstk3, hcd3, Option.bind_some, hal3, if_true, hp0]
      · rw [← hrl.seen]
        refine run_one ?_
        simp only [St.step, St.back]
    · -- it waits for the next call
      simp only [hh, if_false, Spec.Coroutine.St.leave, hk] at hs
      obtain rfl := Option.some.inj hs
      have hl1 : (b.conts c).links ≠ 1 := by omega
      have hfb : (b.conts c).finishing = false := (h0.finishing hl.alive).trans hfin
      obtain ⟨g, ⟨fi, q, hg, hfi⟩, hstep⟩ := mid_step (p := p) hm hd (Or.inr ⟨hfb, hl1⟩)
      have hcx := mid_ctx h.ctx hcur hk hm g (.waiting a.code) rfl (opFrames k c ++ base b' k.who) (.back v) (p.resume k.code (if k.destroys then 0 else v))
      generalize hbm : ({ b'.setC c g with depth := ks.length, curdata := k.who, stk := opFrames k c ++ base b' k.who, pc := .back v } : St σ) = bm at hstep hcx
      have hmc : bm.conts c = { b.conts c with ret := v, mydepth := 0, finishing := fi, p1 := q } := by rw [← hbm]; simp [St.setC, hg]
      have hmd : ∀ d, d ≠ c → bm.conts d = b'.conts d := by intro d hd; rw [← hbm]; simp [St.setC, hd]
      have hmt : bm.tasks t = { b.tasks t with running := true, state := some [.yielding, .user a.code, .bouncer c, .loop t] } := by
        rw [← hbm]; exact hm.task
      have hml : Linked bm c t := ⟨by rw [hmc]; exact hl.alive, by rw [hmc]; exact hl.task, by rw [← hbm]; exact hm.linked.lt, by rw [hmt]; exact hl.recycled,
        by rw [hmt]; exact hl.data⟩
      have hmb : base bm k.who = base b' k.who := base_with hwho (fun d hd => by rw [hmd d hd])
      have hmp : bm.pc = .back v := by rw [← hbm]
      have hms : bm.stk = opFrames k c ++ base bm k.who := by rw [hmb, ← hbm]
      have hmu : upd (tell a.cos) c (fun d => { d with status := .waiting a.code }) c = { tell a.cos c with status := .waiting a.code } := by simp [upd]
      have hu : bm.unlink c = some (bm.setC c fun x => { x with links := x.links - 1 }) := by
        have e1 : (bm.conts c).links = (b.conts c).links := by rw [hmc]
        have e2 : ¬ (b.conts c).links = 0 := by omega
        have e3 : 1 < (b.conts c).links := by omega
        simp only [St.unlink, hml.alive, Bool.true_eq_false, e1, e2, or_self, if_false, e3, if_true]
      rw [hu] at hstep
      have q3 : Run p b [] (bm.setC c fun x => { x with links := x.links - 1 }) :=
        quiet_trans hq (quiet hstep (fun x hx => by have hx : bm.pc = _ := hx; rw [hmp] at hx; cases hx))
      have hcx2 := ctx_setC hcx (by show act? (upd _ c _ c).status = false; rw [hmu]; rfl) (fun x => { x with links := x.links - 1 }) hcn
      have hfi := hfi hl1
      have hnb : base (bm.setC c fun x => { x with links := x.links - 1 }) k.who = base bm k.who :=
        base_with hwho (fun d hd => by simp [St.setC, hd])
      have hcC : (bm.setC c fun x => { x with links := x.links - 1 }).conts c =
          { b.conts c with ret := v, mydepth := 0, finishing := fi, p1 := q, links := (b.conts c).links - 1 } := by simp [St.setC, hmc]
      have hLk : Linked (bm.setC c fun x => { x with links := x.links - 1 }) c t :=
        linked_congr hml (by rw [hcC, hmc]) (by rw [hcC, hmc]) (Nat.le_refl _) rfl rfl
      have hh : 0 < (a.cos c).handles := by omega
      have hok : CoOk (bm.setC c fun x => { x with links := x.links - 1 }) (upd (tell a.cos) c (fun d => { d with status := .waiting a.code }) c) c := by
        rw [hmu, htell]
        have hz : ((a.cos c).handles == 0) = false := by simpa using Nat.ne_of_gt hh
        rw [hz, hfin]
        refine ⟨?_, fun _ => rfl, ?_, ?_, ?_, ?_, ?_, ?_, fun x hx => hh⟩
        · rw [hcC]; exact h0.objs
        · intro _ _; rw [hcC]; exact ⟨by show (b.conts c).links - 1 = _; rw [hlk]; rfl, rfl⟩
        · rw [hcC]; simp [hl.alive, hh]
        · intro _; rw [hcC]; exact h0.body hl.alive
        · intro _; rw [hcC]; show fi = false; rw [hfi, hfb]
        · intro u _ hu
          rw [hcC] at hu
          have hu : (b.conts c).task = some u := hu
          rw [hl.task] at hu
          obtain rfl := Option.some.inj hu
          exact hLk
        · intro _
          refine ⟨t, hLk.task, ?_⟩
          show (bm.tasks t).running = true ∧ (bm.tasks t).state = _
          rw [hmt]; exact ⟨rfl, rfl⟩
      obtain ⟨b3, hr3, hrel⟩ := go_on (p := p) (k := k) (v := v) (c := c) (ctx_done hcx2 hok) rfl hkd hmp (by rw [hnb]; exact hms) (by simp [hkd])
      exact ⟨b3, quiet_trans q3 hr3, hrel⟩

/-- An action that returns at once. -/
theorem sim_now {a' : Spec.Coroutine.St σ} {b b' : St σ} (h : b.step p = some b') (hr : Rel a' b') : ∃ b', Run p b [a'.seen] b' ∧ Rel a' b' :=
  ⟨b', by rw [← hr.seen]; exact run_one h, hr⟩

theorem rel_go {a : Spec.Coroutine.St σ} {b b2 : St σ} {a2 : Spec.Coroutine.St σ} {w : Nat} (h : Rel a b) (hc : Ctx a2 b2 none) (h1 : a2.cur = a.cur)
    (h2 : a2.code = a.code) (hk : b2.stk = b.stk) (hb : ∀ d, a.cur = some d → (b2.conts d).task = (b.conts d).task) :
    Rel (a2.go p w) { b2 with pc := .go (p.resume a.code w) } := by
  refine ⟨by rw [← h2]; rfl, ?_, ctx_same hc rfl rfl rfl rfl rfl rfl rfl rfl rfl rfl rfl rfl rfl⟩
  show b2.stk = base b2 a2.cur
  rw [hk, h.stk, h1]
  cases hcur : a.cur with
  | none => rfl
  | some d => simp only [base, hb d hcur]

theorem sim_isok {a a' : Spec.Coroutine.St σ} {b : St σ} (h : Rel a b) (hact : p.act a.code = .isok) (hs : a.step p = some a') :
    ∃ b', Run p b [a'.seen] b' ∧ Rel a' b' := by
  simp only [Spec.Coroutine.St.step, hact] at hs
  have hcd := h.ctx.curdata
  cases hcur : a.cur with
  | none =>
    rw [hcur] at hs hcd
    obtain rfl := Option.some.inj hs
    refine sim_now ?_ (rel_go h h.ctx rfl rfl rfl (fun _ _ => rfl))
    simp only [St.step, h.pc, St.act, hact, hcd]
  | some c =>
    rw [hcur] at hs hcd
    obtain rfl := Option.some.inj hs
    refine sim_now ?_ (rel_go h h.ctx rfl rfl rfl (fun _ _ => rfl))
    simp only [St.step, h.pc, St.act, hact, hcd, isok_eq h.ctx hcur, Option.map_some]
    cases (a.cos c).finishing <;> rfl

theorem sim_new {a a' : Spec.Coroutine.St σ} {b : St σ} {n m : Nat} (h : Rel a b) (hact : p.act a.code = .new n m) (hs : a.step p = some a') :
    ∃ b', Run p b [a'.seen] b' ∧ Rel a' b' := by
  simp only [Spec.Coroutine.St.step, hact] at hs
  obtain rfl := Option.some.inj hs
  refine sim_now ?_ (rel_go h (ctx_new h.ctx n m (b.man + 1)) rfl rfl rfl (fun d hd => ?_))
  · simp only [St.step, h.pc, St.act, hact, h.ctx.next]
  · have hac : act? (a.cos d).status = true := by rw [h.ctx.active, hd]; exact cur_mem (b := b)
    have : d ≠ b.next := by have := lt_next' h.ctx hac; rw [h.ctx.next]; omega
    simp [St.setC, this]

theorem sim_copy {a a' : Spec.Coroutine.St σ} {b : St σ} {c : Nat} (h : Rel a b) (hact : p.act a.code = .copy c) (hs : a.step p = some a') :
    ∃ b', Run p b [a'.seen] b' ∧ Rel a' b' := by
  simp only [Spec.Coroutine.St.step, hact] at hs
  by_cases hh : (a.cos c).handles = 0
  · simp only [hh, if_true] at hs; cases hs
  simp only [hh, if_false] at hs
  obtain rfl := Option.some.inj hs
  have h0 := h.ctx.cos c (by simp)
  have hal : (b.conts c).alive = true := h0.alive.mpr (Or.inl (by omega))
  have hcx := ctx_handles h.ctx (n := (a.cos c).handles + 1) (l := (b.conts c).links + 1) (h0.fin (by omega)) hal (Or.inr (by omega)) (by omega)
    (lt_next h.ctx hh)
  have e1 : (upd a.cos c fun d => { d with handles := d.handles + 1 }) = upd a.cos c fun d => { d with handles := (a.cos c).handles + 1 } := by
    funext i; simp only [upd]; split
    · rename_i e; subst e; rfl
    · rfl
  rw [e1]
  refine sim_now ?_ (rel_go h hcx rfl rfl rfl (fun d _ => ?_))
  · have hob : (b.conts c).objs ≠ 0 := by rw [h0.objs]; exact hh
    have e2 : (b.setC c fun d => { d with objs := d.objs + 1, links := d.links + 1 }) =
        b.setC c fun x => { x with objs := (a.cos c).handles + 1, links := (b.conts c).links + 1 } := by
      simp only [St.setC]; congr 1; funext i; split
      · rename_i e; subst e; rw [h0.objs]
      · rfl
    simp only [St.step, h.pc, St.act, hact, hob, hal, Bool.true_eq_false, or_self, if_false, e2]
  · simp only [St.setC]; split <;> rfl

theorem sim_current {a a' : Spec.Coroutine.St σ} {b : St σ} (h : Rel a b) (hact : p.act a.code = .current) (hs : a.step p = some a') :
    ∃ b', Run p b [a'.seen] b' ∧ Rel a' b' := by
  simp only [Spec.Coroutine.St.step, hact] at hs
  have hcd := h.ctx.curdata
  cases hcur : a.cur with
  | none => rw [hcur] at hs; cases hs
  | some c =>
    rw [hcur] at hs hcd
    cases hfin : (a.cos c).finishing with
    | true => simp [hfin] at hs
    | false =>
    simp only [hfin, Bool.false_eq_true, if_false] at hs
    obtain rfl := Option.some.inj hs
    have h0 := h.ctx.cos c (by simp)
    have hac : act? (a.cos c).status = true := by rw [h.ctx.active, hcur]; exact cur_mem (b := b)
    have hal : (b.conts c).alive = true := h0.alive.mpr (Or.inr hac)
    have hcx := ctx_handles h.ctx (n := (a.cos c).handles + 1) (l := (b.conts c).links + 1) hfin hal (Or.inr (by omega)) (by omega)
      (lt_next' h.ctx hac)
    have e1 : (upd a.cos c fun d => { d with handles := d.handles + 1 }) = upd a.cos c fun d => { d with handles := (a.cos c).handles + 1 } := by
      funext i; simp only [upd]; split
      · rename_i e; subst e; rfl
      · rfl
    rw [e1, ← hcur]
    refine sim_now ?_ (rel_go h hcx rfl rfl rfl (fun d _ => ?_))
    · have e2 : (b.setC c fun d => { d with objs := d.objs + 1, links := d.links + 1 }) =
          b.setC c fun x => { x with objs := (a.cos c).handles + 1, links := (b.conts c).links + 1 } := by
        simp only [St.setC]; congr 1; funext i; split
        · rename_i e; subst e; rw [h0.objs]
        · rfl
      simp only [St.step, h.pc, St.act, hact, hcd, Option.bind_some, isok_eq h.ctx hcur, hfin, Bool.not_false, if_true, e2]
    · simp only [St.setC]; split <;> rfl

theorem sim_destroy {a a' : Spec.Coroutine.St σ} {b : St σ} {c : Nat} (h : Rel a b) (hact : p.act a.code = .destroy c) (hs : a.step p = some a') :
    ∃ b', Run p b [a'.seen] b' ∧ Rel a' b' := by
  simp only [Spec.Coroutine.St.step, hact] at hs
  by_cases hh : (a.cos c).handles = 0
  · simp only [hh, if_true] at hs; cases hs
  simp only [hh, if_false] at hs
  have h0 := h.ctx.cos c (by simp)
  have hal : (b.conts c).alive = true := h0.alive.mpr (Or.inl (by omega))
  have hob : (b.conts c).objs ≠ 0 := by rw [h0.objs]; exact hh
  have hcn := lt_next h.ctx hh
  have hle := links_le h.ctx hal
  have hfin : (a.cos c).finishing = false := h0.fin (by omega)
  have e1 : (upd a.cos c fun d => { d with handles := d.handles - 1 }) = upd a.cos c fun d => { d with handles := (a.cos c).handles - 1 } := by
    funext i; simp only [upd]; split
    · rename_i e; subst e; rfl
    · rfl
  by_cases hl1 : (b.conts c).links = 1
  · -- the last handle of one that is not active
    have hna : act? (a.cos c).status = false := by
      cases hac : act? (a.cos c).status with
      | false => rfl
      | true =>
        obtain ⟨d, h1, -⟩ := links_mem h.ctx.links h.ctx.chain ((h.ctx.active c).mp hac)
        omega
    have hh1 : (a.cos c).handles = 1 := by omega
    obtain ⟨-, hmd⟩ := h0.off hna hal
    have hci : c ∉ ids a.callers a.cur := by rw [← h.ctx.active]; simp [hna]
    let bD : St σ := { b.setC c fun d => { d with objs := d.objs - 1, finishing := true, p1 := 0 } with
             stk := .destroying c :: .user a.code :: b.stk, pc := .back 0 }
    have hstep : b.step p = some bD := by
      simp only [St.step, h.pc, St.act, hact, hob, hal, Bool.true_eq_false, or_self, if_false, hl1, if_true, bD]
    have q1 : Run p b [] bD := quiet hstep (fun x hx => by cases hx)
    have hcC : bD.conts c = { b.conts c with objs := (b.conts c).objs - 1, finishing := true, p1 := 0 } := by simp [bD, St.setC]
    have hcD : ∀ d, d ≠ c → bD.conts d = b.conts d := by intro d hd; simp [bD, St.setC, hd]
    have hbb : base bD a.cur = base b a.cur := base_set hci hcD
    have hlD : ∀ t, (b.conts c).task = some t → Linked bD c t := by
      intro t ht
      have := h0.task t hal ht
      exact linked_congr this (by rw [hcC]) (by rw [hcC]) (Nat.le_refl _) rfl rfl
    revert hs
    cases hst : (a.cos c).status with
    | active => rw [hst] at hna; cases hna
    | idle =>
      intro hs
      obtain rfl := Option.some.inj hs
      have hidle := h0.status hal
      rw [hst] at hidle
      have hcx : Ctx { a with cos := upd a.cos c fun d => { d with handles := d.handles - 1 } } bD (some c) :=
        ctx_same (ctx_set (ctx_weak c h.ctx) hna (fun d => { d with objs := d.objs - 1, finishing := true, p1 := 0 })
          (fun d => { d with handles := d.handles - 1 }) hna hcn) rfl rfl rfl rfl rfl rfl rfl rfl rfl rfl rfl rfl rfl
      have hmu : upd a.cos c (fun d => { d with handles := d.handles - 1 }) c = { a.cos c with handles := (a.cos c).handles - 1 } := by simp [upd]
      obtain ⟨b2, hu, hpc2, hstk2, hto2, hcx2⟩ := ctx_del hcx (by show (upd _ c _ c).status = _; rw [hmu]; exact hst)
        (by show (upd _ c _ c).handles = _; rw [hmu]; show (a.cos c).handles - 1 = 0; omega)
        (by rw [hcC]; show (b.conts c).objs - 1 = 0; rw [h0.objs]; omega) (by rw [hcC]; exact hal) (by rw [hcC]; exact hl1) hcn
        (by
          intro t ht
          rw [hcC] at ht
          exact ⟨hlD t ht, hidle t ht⟩)
      have hany : (bD.conts c).task.any (fun t => (bD.tasks t).running) = false := by
        rw [hcC]
        show (b.conts c).task.any (fun t => (b.tasks t).running) = false
        cases htk : (b.conts c).task with
        | none => rfl
        | some t => rw [Option.any_some]; exact (hidle t htk).1
      have hrel : Rel (Spec.Coroutine.St.go p { a with cos := upd a.cos c fun d => { d with handles := d.handles - 1 } } 0)
          { b2 with stk := b.stk, pc := .go (p.resume a.code 0) } := by
        refine ⟨rfl, ?_, ctx_same hcx2 rfl rfl rfl rfl rfl rfl rfl rfl rfl rfl rfl rfl rfl⟩
        show b.stk = base b2 a.cur
        rw [h.stk, ← hbb]
        have hne : a.cur ≠ some c := by intro e; rw [e] at hci; exact hci (cur_mem (b := b))
        have := hto2 a.cur hne
        revert this
        cases a.cur with
        | none => intro _; rfl
        | some d => intro e; simp only [taskOf, Option.bind_some] at e; simp only [base, e]
      refine ⟨_, quiet_trans q1 (quiet_trans (b := { b2 with stk := .user a.code :: b.stk, pc := .back 0 }) (quiet ?_ (fun x hx => by cases hx)) ?_), hrel⟩
      · have hal2 : (bD.conts c).alive = true := by rw [hcC]; exact hal
        have : bD.step p = bD.back p 0 := rfl
        rw [this]
        have hstkD : bD.stk = .destroying c :: .user a.code :: b.stk := rfl
        simp only [St.back, hstkD, hal2, Bool.true_eq_false, if_false, hany, Bool.false_eq_true, hu, Option.map_some]
      · rw [← hrel.seen]
        refine run_one ?_
        simp only [St.step, St.back]
    | waiting y =>
      intro hs
      simp only [hh1, if_true] at hs
      obtain rfl := Option.some.inj hs
      have hw := h0.status hal
      rw [hst] at hw
      obtain ⟨t, htk, hrn, hss⟩ := hw
      have hcx : Ctx { a with cos := upd a.cos c fun d => { d with handles := d.handles - 1, finishing := true } }
          { bD with pc := .back 0 } (some c) :=
        ctx_same (ctx_set (ctx_weak c h.ctx) hna (fun d => { d with objs := d.objs - 1, finishing := true, p1 := 0 })
          (fun d => { d with handles := d.handles - 1, finishing := true }) hna hcn) rfl rfl rfl rfl rfl rfl rfl rfl rfl rfl rfl rfl rfl
      have hmu : upd a.cos c (fun d => { d with handles := d.handles - 1, finishing := true }) c =
          { a.cos c with handles := (a.cos c).handles - 1, finishing := true } := by simp [upd]
      obtain ⟨b3, hcall, hpc3, hstk3, hcd3, hal3, hp13, -, -, -, hrel⟩ := enter_rel (b := bD) (c := c) (t := t) (ds := true)
        (S := [.yielding, .user y, .bouncer c, .loop t]) hcx (by show act? (upd _ c _ c).status = false; rw [hmu]; exact hna) hcn (hlD t htk)
        (by rw [hcC]; exact hmd) hss
        (by show _ = (upd _ c _ c).handles; rw [hmu, hcC]; show (b.conts c).objs - 1 = (a.cos c).handles - 1; rw [h0.objs])
        (by show 0 < (upd _ c _ c).handles → _; rw [hmu]; show 0 < (a.cos c).handles - 1 → _; intro h; omega)
        (by show _ = (upd _ c _ c).body; rw [hmu, hcC]; exact h0.body hal)
        (by show _ = (upd _ c _ c).finishing; rw [hmu, hcC])
        (by show _ = (upd _ c _ c).handles + _; rw [hmu, hcC]; show (b.conts c).links = (a.cos c).handles - 1 + 1; omega)
        (fun _ => by
          show (upd _ c _ c).handles = _ ∧ (upd _ c _ c).finishing = _
          rw [hmu]; exact ⟨by show (a.cos c).handles - 1 = 0; omega, rfl⟩) hrn
        (by show .destroying c :: .user a.code :: b.stk = _; rw [h.stk]; show _ = _ ++ base bD a.cur; rw [hbb]; rfl)
      have hrl := hrel (p.resume y 0)
      rw [upd_upd]
      refine ⟨_, quiet_trans q1 (quiet_trans (b := b3) (quiet ?_ (fun x hx => by rw [hpc3] at hx; cases hx))
        (quiet_trans (b := { b3 with stk := [.user y, .bouncer c, .loop t], pc := .back 0 }) (quiet ?_ (fun x hx => by cases hx)) ?_)), hrl⟩
      · have hal2 : (bD.conts c).alive = true := by rw [hcC]; exact hal
        have htk2 : (bD.conts c).task = some t := by rw [hcC]; exact htk
        have hrn2 : (bD.tasks t).running = true := hrn
        have : bD.step p = bD.back p 0 := rfl
        rw [this]
        have hstkD : bD.stk = .destroying c :: .user a.code :: b.stk := rfl
        simp only [St.back, hstkD, hal2, Bool.true_eq_false, if_false, htk2, Option.any_some, hrn2, if_true, hcall]
      · have hp0 : (b3.conts c).p1 = 0 := by rw [hp13, hcC]
        simp only [St.step, hpc3, St.landed, hstk3, hcd3, Option.bind_some, hal3, if_true, hp0]
      · rw [← hrl.seen]
        refine run_one ?_
        simp only [St.step, St.back]
  · -- others remain
    have hor : act? (a.cos c).status = true ∨ 0 < (a.cos c).handles - 1 := by
      cases hac : act? (a.cos c).status with
      | true => exact Or.inl rfl
      | false => exact Or.inr (by have := (h0.off hac hal).1; omega)
    have ha' : a' = Spec.Coroutine.St.go p { a with cos := upd a.cos c fun d => { d with handles := d.handles - 1 } } 0 := by
      revert hs
      cases hst : (a.cos c).status with
      | idle => intro hs; exact (Option.some.inj hs).symm
      | active => intro hs; exact (Option.some.inj hs).symm
      | waiting y =>
        intro hs
        have : (a.cos c).handles ≠ 1 := by
          have := (h0.off (by rw [hst]; rfl) hal).1; omega
        simp only [this, if_false] at hs
        exact (Option.some.inj hs).symm
    subst ha'
    rw [e1]
    have hcx := ctx_handles h.ctx (n := (a.cos c).handles - 1) (l := (b.conts c).links - 1) hfin hal hor (by omega) hcn
    refine sim_now ?_ (rel_go h hcx rfl rfl rfl (fun d _ => ?_))
    · have hal2 : ((b.setC c fun d => { d with objs := d.objs - 1 }).conts c).alive = true := by simpa [St.setC] using hal
      have hlk2 : ((b.setC c fun d => { d with objs := d.objs - 1 }).conts c).links = (b.conts c).links := by simp [St.setC]
      have g1 : ¬ (b.conts c).links = 0 := by omega
      have g2 : 1 < (b.conts c).links := by omega
      have e2 : ((b.setC c fun d => { d with objs := d.objs - 1 }).setC c fun x => { x with links := x.links - 1 }) =
          b.setC c fun x => { x with objs := (a.cos c).handles - 1, links := (b.conts c).links - 1 } := by
        rw [setC_setC]
        simp only [St.setC]; congr 1; funext i; split
        · rename_i e; subst e; rw [h0.objs]
        · rfl
      simp only [St.step, h.pc, St.act, hact, hob, hal, Bool.true_eq_false, or_self, if_false, hl1, St.unlink, hal2, hlk2, g1, g2, if_true, Option.map_some]
      rw [e2]
    · simp only [St.setC]; split <;> rfl

/-- Every action of the specification is what the implementation does. -/
theorem sim {a a' : Spec.Coroutine.St σ} {b : St σ} (h : Rel a b) (hs : a.step p = some a') : ∃ b', Run p b [a'.seen] b' ∧ Rel a' b' := by
  cases hact : p.act a.code with
  | call c v => exact sim_call h hact hs
  | yield v => exact sim_yield h hact hs
  | ret v => exact sim_ret h hact hs
  | isok => exact sim_isok h hact hs
  | new n m => exact sim_new h hact hs
  | copy c => exact sim_copy h hact hs
  | current => exact sim_current h hact hs
  | destroy c => exact sim_destroy h hact hs

/-- What the specification forbids aborts. -/
theorem sim_none {a : Spec.Coroutine.St σ} {b : St σ} (h : Rel a b) (hs : a.step p = none) : b.step p = none := by
  have hcd := h.ctx.curdata
  cases hact : p.act a.code with
  | call c v =>
    simp only [Spec.Coroutine.St.step, hact] at hs
    have h0 := h.ctx.cos c (by simp)
    by_cases hh : (a.cos c).handles = 0
    · simp only [St.step, h.pc, St.act, hact, h0.objs, hh, true_or, if_true]
    · simp only [hh, if_false] at hs
      have hac : act? (a.cos c).status = true := by revert hs; cases (a.cos c).status <;> simp [act?]
      have hal : (b.conts c).alive = true := h0.alive.mpr (Or.inr hac)
      have hob : (b.conts c).objs ≠ 0 := by rw [h0.objs]; exact hh
      have hmem := (h.ctx.active c).mp hac
      have hd := (chain_depth h.ctx.chain c hmem).1
      obtain ⟨t, hl⟩ := chain_linked h.ctx.chain c hmem
      have hcall : ∀ s : St σ, (s.conts c).mydepth = (b.conts c).mydepth → s.call c = none := by
        intro s hsd
        have : (s.conts c).mydepth ≠ 0 := by rw [hsd]; omega
        simp only [St.call, ne_eq, this, not_false_eq_true, if_true, ite_self]
      simp only [St.step, h.pc, St.act, hact, hob, hal, Bool.true_eq_false, or_self, if_false, hl.task]
      apply hcall
      by_cases hr : (b.tasks t).running = true
      · simp [hr, St.setC]
      · simp [hr, St.setC, St.setT]
  | yield v =>
    simp only [Spec.Coroutine.St.step, hact] at hs
    cases hcur : a.cur with
    | none =>
      rw [hcur] at hcd
      simp only [St.step, h.pc, St.act, hact, hcd, Option.bind_none]
    | some c =>
      rw [hcur] at hs hcd
      cases hfin : (a.cos c).finishing with
      | true => simp only [St.step, h.pc, St.act, hact, hcd, Option.bind_some, isok_eq h.ctx hcur, hfin, Bool.not_true, Bool.false_eq_true, if_false]
      | false =>
        obtain ⟨k, ks, t, hk, -⟩ := chain_self h.ctx hcur
        simp only [hfin, Bool.false_eq_true, if_false, Spec.Coroutine.St.leave, hk] at hs
        split at hs <;> cases hs
  | ret v =>
    simp only [Spec.Coroutine.St.step, hact] at hs
    cases hcur : a.cur with
    | none => rw [hcur] at hs; cases hs
    | some c =>
      obtain ⟨k, ks, t, hk, -⟩ := chain_self h.ctx hcur
      rw [hcur] at hs
      simp only [Spec.Coroutine.St.leave, hk] at hs
      cases hs
  | isok =>
    simp only [Spec.Coroutine.St.step, hact] at hs
    split at hs <;> cases hs
  | new n m => simp only [Spec.Coroutine.St.step, hact] at hs; cases hs
  | copy c =>
    simp only [Spec.Coroutine.St.step, hact] at hs
    have h0 := h.ctx.cos c (by simp)
    by_cases hh : (a.cos c).handles = 0
    · simp only [St.step, h.pc, St.act, hact, h0.objs, hh, true_or, if_true]
    · simp only [hh, if_false] at hs; cases hs
  | current =>
    simp only [Spec.Coroutine.St.step, hact] at hs
    cases hcur : a.cur with
    | none =>
      rw [hcur] at hcd
      simp only [St.step, h.pc, St.act, hact, hcd, Option.bind_none]
    | some c =>
      rw [hcur] at hs hcd
      cases hfin : (a.cos c).finishing with
      | true => simp only [St.step, h.pc, St.act, hact, hcd, Option.bind_some, isok_eq h.ctx hcur, hfin, Bool.not_true, Bool.false_eq_true, if_false]
      | false => simp only [hfin, Bool.false_eq_true, if_false] at hs; cases hs
  | destroy c =>
    simp only [Spec.Coroutine.St.step, hact] at hs
    have h0 := h.ctx.cos c (by simp)
    by_cases hh : (a.cos c).handles = 0
    · simp only [St.step, h.pc, St.act, hact, h0.objs, hh, true_or, if_true]
    · simp only [hh, if_false] at hs
      split at hs
      · split at hs <;> cases hs
      · cases hs

theorem run_front {s t : St σ} {l : List (Option Nat × σ)} (h : Run p s l t) :
    (s = t ∧ l = []) ∨ ∃ u l', s.step p = some u ∧ Run p u l' t ∧ l = u.seen ++ l' := by
  induction h with
  | none => exact Or.inl ⟨rfl, rfl⟩
  | @more t u l h1 h2 ih =>
    right
    rcases ih with ⟨rfl, rfl⟩ | ⟨w, l', h3, h4, rfl⟩
    · exact ⟨u, [], h2, .none _, by simp⟩
    · exact ⟨w, l' ++ u.seen, h3, .more h4 h2, by simp⟩

/-- A step towards the next action. -/
theorem toward {b b1 u : St σ} {o : Option Nat × σ} (h : Run p b [o] b1) (hb : b1.seen = [o]) (hu : b.step p = some u) :
    (u.seen = [o] ∧ u = b1) ∨ (u.seen = [] ∧ Run p u [o] b1) := by
  rcases run_front h with ⟨-, h2⟩ | ⟨w, l', h3, h4, h5⟩
  · cases h2
  · rw [hu] at h3
    obtain rfl := Option.some.inj h3
    cases hs : u.seen with
    | nil => rw [hs] at h5; exact Or.inr ⟨rfl, by rw [show l' = [o] from by simpa using h5.symm] at h4; exact h4⟩
    | cons a r =>
      rw [hs] at h5
      have h6 : a = o ∧ r ++ l' = [] := by simpa [eq_comm] using h5
      obtain ⟨rfl, h6⟩ := h6
      obtain ⟨rfl, rfl⟩ := List.append_eq_nil_iff.mp h6
      left
      refine ⟨rfl, ?_⟩
      generalize hl : ([] : List (Option Nat × σ)) = m at h4
      cases h4 with
      | none => rfl
      | more h7 h8 => rw [hb] at hl; simp at hl

/-- The implementation is at an action, or on its way to the next. -/
theorem back_sim {x : σ} {l : List (Option Nat × σ)} {b : St σ} (h : Run p (St.init x) l b) :
    ∃ a, Spec.Coroutine.Run p (.init x) l a ∧ (Rel a b ∨ ∃ a' b1, a.step p = some a' ∧ Rel a' b1 ∧ Run p b [a'.seen] b1) := by
  generalize hs : St.init x = s at h
  induction h with
  | none => subst hs; exact ⟨_, .none _, Or.inl (init_rel x)⟩
  | @more t u l h1 h2 ih =>
    obtain ⟨a, hr, ha⟩ := ih
    have key : ∀ a' b1, a.step p = some a' → Rel a' b1 → Run p t [a'.seen] b1 →
        ∃ a2, Spec.Coroutine.Run p (.init x) (l ++ u.seen) a2 ∧
          (Rel a2 u ∨ ∃ a' b1, a2.step p = some a' ∧ Rel a' b1 ∧ Run p u [a'.seen] b1) := by
      intro a' b1 h3 h4 h5
      rcases toward h5 h4.seen h2 with ⟨h6, rfl⟩ | ⟨h6, h7⟩
      · rw [h6]; exact ⟨a', .more hr h3, Or.inl h4⟩
      · rw [h6, List.append_nil]; exact ⟨a, hr, Or.inr ⟨a', b1, h3, h4, h7⟩⟩
    rcases ha with ha | ⟨a', b1, h3, h4, h5⟩
    · cases hst : a.step p with
      | none => rw [sim_none ha hst] at h2; cases h2
      | some a' =>
        obtain ⟨b1, h5, h4⟩ := sim ha hst
        exact key a' b1 hst h4 h5
    · exact key a' b1 h3 h4 h5

theorem fwd_sim {x : σ} {l : List (Option Nat × σ)} {a : Spec.Coroutine.St σ} (h : Spec.Coroutine.Run p (.init x) l a) :
    ∃ b, Run p (St.init x) l b ∧ Rel a b := by
  generalize hs : Spec.Coroutine.St.init x = s at h
  induction h with
  | none => subst hs; exact ⟨_, .none _, init_rel x⟩
  | more h1 h2 ih =>
    obtain ⟨b, hb, hr⟩ := ih
    obtain ⟨b', h3, h4⟩ := sim hr h2
    exact ⟨b', run_trans hb h3, h4⟩

end Lemmas.Cont
