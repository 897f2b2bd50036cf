import Verif.Model.Debugger
import Verif.Props.Tcl
/- C103: the debugger. -/
namespace Props
open Wv Wv.Debugger Spec.Debugger

namespace Dbg

theorem lk_cons {α : Type} (a : Text) (b : α) (l : List (Text × α)) (k : Text) : ((a, b) :: l).lookup k = if k = a then some b else l.lookup k := by
  rw [List.lookup_cons]
  by_cases h : k = a
  · simp [h]
  · have : (k == a) = false := by simpa using h
    rw [this, if_neg h]

theorem lookup_append {α : Type} (l : List (Text × α)) (k cmd : Text) (x : α) (h : l.lookup k = none) :
    (l ++ [(k, x)]).lookup cmd = if cmd = k then some x else l.lookup cmd := by
  induction l with
  | nil =>
    rw [List.nil_append, lk_cons]
  | cons p l ih =>
    obtain ⟨a, b⟩ := p
    rw [lk_cons] at h
    rw [List.cons_append, lk_cons, lk_cons]
    by_cases ha : k = a
    · rw [if_pos ha] at h; simp at h
    · rw [if_neg ha] at h
      rw [ih h]
      by_cases hc : cmd = a
      · have e2 : cmd ≠ k := by rintro rfl; exact ha hc
        rw [if_pos hc, if_pos hc, if_neg e2]
      · rw [if_neg hc, if_neg hc]

theorem lived_append (c : Cmd) (d : Nat) (cmd : Text) (log : List Ev) (e : Ev) :
    lived c d cmd (log ++ [e]) = if e.about d cmd then (lived c d cmd log).bind (life c · e) else lived c d cmd log := by
  unfold lived
  rw [List.filter_append]
  by_cases h : e.about d cmd = true
  · simp [h]
  · simp [h]

/-- What the data of an instance say about the past. -/
def OkAt (F : Text → Cmd) (log : List Ev) (i : Inst) (cmd : Text) : Prop :=
  match i.data.lookup cmd with
  | some x => lived (F cmd) i.id cmd log = some (.has x) ∨ (lived (F cmd) i.id cmd log = some .fresh ∧ x = none ∧ (F cmd).init = false)
  | none => lived (F cmd) i.id cmd log = some .fresh

structure Fits (F : Text → Cmd) (cmds : List (Text × Cmd)) : Prop where
  f : ∀ k v, cmds.lookup k = some v → F k = v

structure InstOk (F : Text → Cmd) (cmds : List (Text × Cmd)) (log : List Ev) (i : Inst) : Prop where
  ok : ∀ cmd, OkAt F log i cmd
  keys : i.data.Pairwise fun a b => a.1 ≠ b.1
  known : ∀ p ∈ i.data, cmds.lookup p.1 ≠ none

theorem lookup_none_mem {α : Type} (l : List (Text × α)) (k : Text) (h : l.lookup k = none) : ∀ p ∈ l, p.1 ≠ k := by
  intro p hp e
  have : l.lookup k ≠ none := by
    induction l with
    | nil => simp at hp
    | cons q l ih =>
      obtain ⟨a, b⟩ := q
      rw [lk_cons] at h ⊢
      by_cases ha : k = a
      · rw [if_pos ha]; simp
      · rw [if_neg ha] at h ⊢
        rcases List.mem_cons.mp hp with rfl | hp
        · exact absurd e.symm ha
        · exact ih h hp
  exact this h

/-- Getting the data. -/
theorem data_ok (F : Text → Cmd) (st : St) (i : Inst) (k : Text) (v : Cmd) (hf : F k = v) (hk : st.cmds.lookup k = some v)
    (io : InstOk F st.cmds st.log i) :
    ∃ st' i' x, data st i k v = (st', i', x) ∧ i'.id = i.id ∧ st'.cmds = st.cmds ∧ st'.insts = st.insts ∧ st'.nextId = st.nextId ∧
      InstOk F st.cmds st'.log i' ∧ i'.data.lookup k = some x ∧ (∀ d cmd, d ≠ i.id → lived (F cmd) d cmd st'.log = lived (F cmd) d cmd st.log) ∧
      (∃ ext, st'.log = st.log ++ ext ∧ ∀ e ∈ ext, ∃ c n, e = .init i.id c n) := by
  unfold data
  cases hl : i.data.lookup k with
  | some x => exact ⟨st, i, x, rfl, rfl, rfl, rfl, rfl, io, hl, fun _ _ _ => rfl, [], by simp, by simp⟩
  | none =>
    have hfresh : lived (F k) i.id k st.log = some .fresh := by have := io.ok k; unfold OkAt at this; rw [hl] at this; exact this
    have hkeys : ∀ (x : Option Nat), (i.data ++ [(k, x)]).Pairwise fun a b => a.1 ≠ b.1 := by
      intro x
      rw [List.pairwise_append]
      exact ⟨io.keys, by simp, fun a ha b hb => by simp only [List.mem_singleton] at hb; rw [hb]; exact lookup_none_mem _ _ hl a ha⟩
    have hknown : ∀ (x : Option Nat), ∀ p ∈ i.data ++ [(k, x)], st.cmds.lookup p.1 ≠ none := by
      intro x p hp
      rcases List.mem_append.mp hp with hp | hp
      · exact io.known p hp
      · simp only [List.mem_singleton] at hp; rw [hp, hk]; simp
    dsimp only
    cases hv : v.init with
    | true =>
      rw [if_pos rfl]
      refine ⟨_, _, _, rfl, rfl, rfl, rfl, rfl, ⟨?_, hkeys _, hknown _⟩, ?_, ?_, [.init i.id k st.nextData], rfl, ?_⟩
      · intro cmd
        unfold OkAt
        dsimp only
        rw [lookup_append i.data k cmd _ hl, lived_append]
        by_cases e : cmd = k
        · subst e
          rw [if_pos rfl]
          left
          rw [if_pos (by simp [Ev.about]), hfresh]
          simp [life, hf, hv]
        · rw [if_neg e, if_neg (by simp only [Ev.about, decide_eq_true_eq]; exact fun x => e x.2.symm)]
          exact io.ok cmd
      · dsimp only; rw [lookup_append i.data k k _ hl, if_pos rfl]
      · intro d cmd hd
        dsimp only
        rw [lived_append, if_neg (by simp only [Ev.about, decide_eq_true_eq]; exact fun x => hd x.1.symm)]
      · intro e he; simp only [List.mem_singleton] at he; exact ⟨_, _, he⟩
    | false =>
      rw [if_neg (by simp)]
      refine ⟨_, _, _, rfl, rfl, rfl, rfl, rfl, ⟨?_, hkeys _, hknown _⟩, ?_, fun _ _ _ => rfl, [], by simp, by simp⟩
      · intro cmd
        unfold OkAt
        dsimp only
        rw [lookup_append i.data k cmd _ hl]
        by_cases e : cmd = k
        · subst e
          rw [if_pos rfl]
          exact Or.inr ⟨hfresh, rfl, by rw [hf, hv]⟩
        · rw [if_neg e]; exact io.ok cmd
      · dsimp only; rw [lookup_append i.data k k _ hl, if_pos rfl]

structure Inv (F : Text → Cmd) (st : St) : Prop where
  ids : st.insts.Pairwise fun a b => a.id ≠ b.id
  lt : ∀ i ∈ st.insts, i.id < st.nextId
  inst : ∀ i ∈ st.insts, InstOk F st.cmds st.log i
  fresh : ∀ d cmd, st.nextId ≤ d → lived (F cmd) d cmd st.log = some .fresh
  ended : ∀ d cmd, d < st.nextId → (∀ i ∈ st.insts, i.id ≠ d) → lived (F cmd) d cmd st.log = some .ended

theorem instOk_other (F : Text → Cmd) (cmds : List (Text × Cmd)) (log log' : List Ev) (i : Inst)
    (h : ∀ cmd, lived (F cmd) i.id cmd log' = lived (F cmd) i.id cmd log) (io : InstOk F cmds log i) : InstOk F cmds log' i := by
  refine ⟨fun cmd => ?_, io.keys, io.known⟩
  have := io.ok cmd
  unfold OkAt at this ⊢
  rw [h cmd]; exact this

theorem same_inst (st : St) (hp : st.insts.Pairwise fun a b => a.id ≠ b.id) (i j : Inst) (hi : i ∈ st.insts) (hj : j ∈ st.insts) (e : i.id = j.id) : i = j := by
  have key : ∀ (l : List Inst), l.Pairwise (fun a b => a.id ≠ b.id) → ∀ g ∈ l, ∀ h ∈ l, g.id = h.id → g = h := by
    intro l
    induction l with
    | nil => intro _ g hg; simp at hg
    | cons a l ih =>
      intro hp g hg h hh e
      rw [List.pairwise_cons] at hp
      rcases List.mem_cons.mp hg with x | x <;> rcases List.mem_cons.mp hh with y | y
      · rw [x, y]
      · rw [x] at e; exact absurd e (hp.1 h y)
      · rw [y] at e; exact absurd e.symm (hp.1 g x)
      · exact ih hp.2 g x h y e
  exact key st.insts hp i hi j hj e

theorem find_inst (st : St) (d : Nat) (i : Inst) (h : st.insts.find? (·.id = d) = some i) : i ∈ st.insts ∧ i.id = d :=
  ⟨List.mem_of_find?_eq_some h, by simpa using List.find?_some h⟩

theorem initAll_ok (F : Text → Cmd) : ∀ (l : List (Text × Cmd)) (st : St) (i : Inst), (∀ p ∈ l, st.cmds.lookup p.1 = some p.2 ∧ F p.1 = p.2) →
    InstOk F st.cmds st.log i →
    ∃ st' i', initAll st i l = (st', i') ∧ i'.id = i.id ∧ st'.cmds = st.cmds ∧ st'.insts = st.insts ∧ st'.nextId = st.nextId ∧
      InstOk F st.cmds st'.log i' ∧ (∀ d cmd, d ≠ i.id → lived (F cmd) d cmd st'.log = lived (F cmd) d cmd st.log)
  | [], st, i, _, io => ⟨st, i, rfl, rfl, rfl, rfl, rfl, io, fun _ _ _ => rfl⟩
  | p :: l, st, i, hl, io => by
    obtain ⟨st1, i1, x, e, e1, e2, e3, e4, e5, _, e7, _⟩ := data_ok F st i p.1 p.2 (hl p (by simp)).2 (hl p (by simp)).1 io
    obtain ⟨st2, i2, g, g1, g2, g3, g4, g5, g6⟩ := initAll_ok F l st1 i1 (fun q hq => by rw [e2]; exact hl q (by simp [hq])) (by rw [e2]; exact e5)
    refine ⟨st2, i2, by rw [initAll, e]; exact g, g1.trans e1, g2.trans e2, g3.trans e3, g4.trans e4, by rw [← e2]; exact g5, fun d cmd hd => ?_⟩
    rw [g6 d cmd (by rw [e1]; exact hd), e7 d cmd hd]

theorem lookup_of_mem (l : List (Text × Cmd)) (hn : l.Pairwise fun a b => a.1 ≠ b.1) (p : Text × Cmd) (hp : p ∈ l) : l.lookup p.1 = some p.2 := by
  induction l with
  | nil => simp at hp
  | cons q l ih =>
    obtain ⟨a, b⟩ := q
    rw [List.pairwise_cons] at hn
    rw [lk_cons]
    rcases List.mem_cons.mp hp with rfl | hp
    · simp
    · rw [if_neg (fun e => hn.1 p hp e.symm)]
      exact ih hn.2 hp

theorem make_ok (F : Text → Cmd) (st : St) (hn : st.cmds.Pairwise fun a b => a.1 ≠ b.1) (hf : Fits F st.cmds) (inv : Inv F st) :
    Inv F (make st) ∧ (make st).cmds = st.cmds := by
  have hl : ∀ p ∈ st.cmds, st.cmds.lookup p.1 = some p.2 ∧ F p.1 = p.2 := fun p hp => by
    have := lookup_of_mem st.cmds hn p hp
    exact ⟨this, hf.f _ _ this⟩
  obtain ⟨st', i', e, e1, e2, e3, e4, e5, e6⟩ := initAll_ok F st.cmds { st with nextId := st.nextId + 1 } ⟨st.nextId, []⟩ hl
    ⟨fun cmd => by unfold OkAt; exact inv.fresh st.nextId cmd (Nat.le_refl _), by simp, by simp⟩
  dsimp only at e1 e2 e3 e4 e5 e6
  unfold make
  dsimp only
  rw [e]
  dsimp only
  refine ⟨⟨?_, ?_, ?_, ?_, ?_⟩, e2⟩
  · dsimp only
    rw [e3, List.pairwise_append]
    refine ⟨inv.ids, by simp, fun a ha b hb => ?_⟩
    simp only [List.mem_singleton] at hb
    rw [hb, e1]
    have := inv.lt a ha
    omega
  · intro i hi
    dsimp only at hi ⊢
    rw [e4]
    rw [e3] at hi
    rcases List.mem_append.mp hi with hi | hi
    · have := inv.lt i hi; omega
    · simp only [List.mem_singleton] at hi; rw [hi, e1]; omega
  · intro i hi
    dsimp only at hi ⊢
    rw [e2]
    rw [e3] at hi
    rcases List.mem_append.mp hi with hi | hi
    · have := inv.lt i hi
      exact instOk_other F _ _ _ i (fun cmd => e6 i.id cmd (by omega)) (inv.inst i hi)
    · simp only [List.mem_singleton] at hi; rw [hi]; exact e5
  · intro d cmd hd
    dsimp only at hd ⊢
    rw [e4] at hd
    rw [e6 d cmd (by omega)]
    exact inv.fresh d cmd (by omega)
  · intro d cmd hd hi
    dsimp only at hd hi ⊢
    rw [e4] at hd
    rw [e3] at hi
    have hne : d ≠ st.nextId := by
      rintro rfl
      exact hi i' (by simp) e1
    rw [e6 d cmd hne]
    exact inv.ended d cmd (by omega) (fun i hi' => hi i (by simp [hi']))

theorem use_ok (F : Text → Cmd) (st : St) (d : Nat) (k : Text) (v : Cmd) (hf : F k = v) (hk : st.cmds.lookup k = some v) (inv : Inv F st) :
    Inv F (use st d k v) ∧ (use st d k v).cmds = st.cmds ∧ (use st d k v).insts.map (·.id) = st.insts.map (·.id) := by
  unfold use
  cases he : st.insts.find? (·.id = d) with
  | none => exact ⟨inv, rfl, rfl⟩
  | some i =>
    obtain ⟨hi, hid⟩ := find_inst st d i he
    obtain ⟨st', i', x, e, e1, e2, e3, e4, e5, e6, e7, _⟩ := data_ok F st i k v hf hk (inv.inst i hi)
    dsimp only
    rw [e]
    dsimp only
    have hlog : ∀ d' cmd, d' ≠ i.id → lived (F cmd) d' cmd (st'.log ++ [.use d k x]) = lived (F cmd) d' cmd st.log := by
      intro d' cmd hd'
      rw [lived_append, if_neg (by simp only [Ev.about, decide_eq_true_eq]; exact fun y => hd' (by rw [← y.1, hid])), e7 d' cmd hd']
    have hmem : ∀ j, j ∈ st'.insts.map (fun j => if j.id = d then i' else j) → j = i' ∨ (j ∈ st.insts ∧ j.id ≠ d) := by
      intro j hj
      rw [e3] at hj
      obtain ⟨a, ha, hb⟩ := List.mem_map.mp hj
      split at hb
      · exact Or.inl hb.symm
      · rename_i hx; subst hb; exact Or.inr ⟨ha, hx⟩
    have hids : (st'.insts.map (fun j => if j.id = d then i' else j)).map (·.id) = st.insts.map (·.id) := by
      rw [e3, List.map_map]
      refine List.map_congr_left (fun j _ => ?_)
      simp only [Function.comp]
      split
      · rename_i hx; rw [e1, hid, hx]
      · rfl
    refine ⟨⟨?_, ?_, ?_, ?_, ?_⟩, e2, hids⟩
    · have : (st.insts.map (·.id)).Pairwise (· ≠ ·) := List.pairwise_map.mpr inv.ids
      rw [← hids] at this
      exact List.pairwise_map.mp this
    · intro j hj
      dsimp only at hj ⊢
      rw [e4]
      rcases hmem j hj with rfl | ⟨a, _⟩
      · rw [e1]; exact inv.lt i hi
      · exact inv.lt j a
    · intro j hj
      dsimp only at hj ⊢
      rw [e2]
      rcases hmem j hj with rfl | ⟨a, b⟩
      · refine ⟨fun cmd => ?_, e5.keys, e5.known⟩
        have hok := e5.ok cmd
        unfold OkAt at hok ⊢
        rw [lived_append]
        by_cases ec : cmd = k
        · subst ec
          rw [if_pos (by simp [Ev.about, e1, hid])]
          rw [e6] at hok ⊢
          dsimp only at hok ⊢
          left
          rcases hok with q | ⟨q1, q2, q3⟩
          · rw [q]; simp [life]
          · rw [q1, q2]; simp [life, q3]
        · rw [if_neg (by simp only [Ev.about, decide_eq_true_eq]; exact fun y => ec y.2.symm)]
          exact hok
      · exact instOk_other F _ _ _ j (fun cmd => hlog j.id cmd (by rw [hid]; exact b)) (inv.inst j a)
    · intro d' cmd hd'
      dsimp only at hd' ⊢
      rw [e4] at hd'
      have := inv.lt i hi
      rw [hlog d' cmd (by omega)]
      exact inv.fresh d' cmd hd'
    · intro d' cmd hd' hall
      dsimp only at hd' hall ⊢
      rw [e4] at hd'
      have hall' : ∀ j ∈ st.insts, j.id ≠ d' := by
        intro j hj e
        have : j.id ∈ st.insts.map (·.id) := List.mem_map_of_mem hj
        rw [← hids] at this
        obtain ⟨a, ha, hb⟩ := List.mem_map.mp this
        exact hall a ha (hb.trans e)
      rw [hlog d' cmd (fun e => hall' i hi e.symm)]
      exact inv.ended d' cmd hd' hall'

theorem filter_cleanups (F : Text → Cmd) (cmds : List (Text × Cmd)) (hf : Fits F cmds) (d : Nat) (cmd : Text) : ∀ (l : List (Text × Option Nat)),
    l.Pairwise (fun a b => a.1 ≠ b.1) → (∀ p ∈ l, cmds.lookup p.1 ≠ none) →
    (cleanups cmds d l).filter (Ev.about d cmd) = match l.lookup cmd with
      | none => []
      | some x => if (F cmd).cleanup then [.cleanup d cmd x] else []
  | [], _, _ => rfl
  | p :: l, hp, hk => by
    obtain ⟨a, b⟩ := p
    rw [List.pairwise_cons] at hp
    have ih := filter_cleanups F cmds hf d cmd l hp.2 (fun q hq => hk q (by simp [hq]))
    have hcons : cleanups cmds d ((a, b) :: l) = (match cmds.lookup a with | some v => if v.cleanup then [Ev.cleanup d a b] else [] | none => []) ++ cleanups cmds d l := rfl
    rw [hcons, List.filter_append, ih, lk_cons]
    have hka := hk (a, b) (by simp)
    cases hv : cmds.lookup a with
    | none => exact absurd hv hka
    | some v =>
      have hF := hf.f a v hv
      dsimp only
      by_cases hc : cmd = a
      · subst hc
        have hnone : l.lookup cmd = none := by
          cases hl : l.lookup cmd with
          | none => rfl
          | some y =>
            exfalso
            have : ∃ q ∈ l, q.1 = cmd := by
              clear ih hp hk hcons
              induction l with
              | nil => simp at hl
              | cons q l ih2 =>
                obtain ⟨q1, q2⟩ := q
                rw [lk_cons] at hl
                by_cases hq : cmd = q1
                · exact ⟨(q1, q2), by simp, hq.symm⟩
                · rw [if_neg hq] at hl
                  obtain ⟨q, hq1, hq2⟩ := ih2 hl
                  exact ⟨q, by simp [hq1], hq2⟩
            obtain ⟨q, hq1, hq2⟩ := this
            exact hp.1 q hq1 hq2.symm
        rw [hnone, if_pos rfl, hF]
        cases v.cleanup <;> simp [Ev.about]
      · rw [if_neg hc]
        have : ((if v.cleanup then [Ev.cleanup d a b] else []).filter (Ev.about d cmd)) = [] := by
          cases v.cleanup
          · rfl
          · simp [Ev.about]; exact fun e => hc e.symm
        rw [this]; rfl

theorem filter_cleanups_other (cmds : List (Text × Cmd)) (d d' : Nat) (cmd : Text) (h : d' ≠ d) (l : List (Text × Option Nat)) :
    (cleanups cmds d l).filter (Ev.about d' cmd) = [] := by
  rw [List.filter_eq_nil_iff]
  intro e he
  unfold cleanups at he
  obtain ⟨p, _, hp⟩ := List.mem_flatMap.mp he
  split at hp
  · split at hp
    · simp only [List.mem_singleton] at hp
      rw [hp]
      simp only [Ev.about, decide_eq_true_eq]
      exact fun x => h x.1.symm
    · simp at hp
  · simp at hp

theorem destroy_ok (F : Text → Cmd) (st : St) (d : Nat) (hf : Fits F st.cmds) (inv : Inv F st) : Inv F (destroy st d) ∧ (destroy st d).cmds = st.cmds := by
  unfold destroy
  cases he : st.insts.find? (·.id = d) with
  | none => exact ⟨inv, rfl⟩
  | some i =>
    obtain ⟨hi, hid⟩ := find_inst st d i he
    dsimp only
    have io := inv.inst i hi
    have hother : ∀ d' cmd, d' ≠ d → lived (F cmd) d' cmd (st.log ++ cleanups st.cmds d i.data ++ [.gone d]) = lived (F cmd) d' cmd st.log := by
      intro d' cmd hd
      rw [lived_append, if_neg (by simp only [Ev.about, decide_eq_true_eq]; exact fun x => hd x.symm)]
      unfold lived
      rw [List.filter_append, filter_cleanups_other _ _ _ _ hd, List.append_nil]
    have hthis : ∀ cmd, lived (F cmd) d cmd (st.log ++ cleanups st.cmds d i.data ++ [.gone d]) = some .ended := by
      intro cmd
      rw [lived_append, if_pos (by simp [Ev.about])]
      have hok := io.ok cmd
      unfold OkAt at hok
      rw [hid] at hok
      have hl : lived (F cmd) d cmd (st.log ++ cleanups st.cmds d i.data) =
          (lived (F cmd) d cmd st.log).bind fun p => ((cleanups st.cmds d i.data).filter (Ev.about d cmd)).foldlM (life (F cmd)) p := by
        unfold lived
        rw [List.filter_append, List.foldlM_append]; rfl
      rw [hl, filter_cleanups F st.cmds hf d cmd i.data io.keys io.known]
      cases hx : i.data.lookup cmd with
      | none => rw [hx] at hok; dsimp only at hok ⊢; rw [hok]; rfl
      | some x =>
        rw [hx] at hok
        dsimp only at hok ⊢
        cases hc : (F cmd).cleanup with
        | true =>
          rcases hok with q | ⟨q1, q2, q3⟩
          · rw [q]; simp [life, hc]
          · rw [q1, q2]; simp [life, hc, q3]
        | false =>
          rcases hok with q | ⟨q1, q2, q3⟩
          · rw [q]; simp [life, hc]
          · rw [q1]; simp [life]
    refine ⟨⟨inv.ids.filter _, ?_, ?_, ?_, ?_⟩, rfl⟩
    · intro j hj; exact inv.lt j (List.mem_filter.mp hj).1
    · intro j hj
      obtain ⟨a, b⟩ := List.mem_filter.mp hj
      exact instOk_other F _ _ _ j (fun cmd => hother j.id cmd (by simpa using b)) (inv.inst j a)
    · intro d' cmd hd'
      have := inv.lt i hi
      rw [hother d' cmd (by dsimp only at hd'; omega)]
      exact inv.fresh d' cmd hd'
    · intro d' cmd hd' hall
      by_cases e : d' = d
      · rw [e]; exact hthis cmd
      · rw [hother d' cmd e]
        refine inv.ended d' cmd hd' (fun j hj hx => ?_)
        exact hall j (List.mem_filter.mpr ⟨hj, by simp; rw [hx]; exact e⟩) hx

/-! ### The commands -/

theorem lookup_insert (k : Text) (v : Cmd) : ∀ (l : List (Text × Cmd)) (c : Text), l.lookup k = none →
    (place k v l).lookup c = if c = k then some v else l.lookup c
  | [], c, _ => by
    rw [place, lk_cons]
  | p :: l, c, h => by
    obtain ⟨a, b⟩ := p
    rw [lk_cons] at h
    by_cases ha : k = a
    · rw [if_pos ha] at h; simp at h
    · rw [if_neg ha] at h
      unfold place
      split
      · rw [lk_cons]
      · rw [lk_cons, lk_cons, lookup_insert k v l c h]
        by_cases hc : c = a
        · have e2 : c ≠ k := by rintro rfl; exact ha hc
          rw [if_pos hc, if_pos hc, if_neg e2]
        · rw [if_neg hc, if_neg hc]

theorem mem_insert (k : Text) (v : Cmd) (q : Text × Cmd) : ∀ (l : List (Text × Cmd)), q ∈ place k v l ↔ q = (k, v) ∨ q ∈ l
  | [] => by simp [place]
  | p :: l => by
    unfold place
    split
    · simp
    · rw [List.mem_cons, mem_insert k v q l, List.mem_cons]
      constructor
      · rintro (h | h | h) <;> simp [h]
      · rintro (h | h | h) <;> simp [h]

theorem less_irrefl : ∀ (s : Text), less s s = false
  | [] => rfl
  | a :: s => by simp [less, less_irrefl s]

theorem less_trans : ∀ (s t u : Text), less s t = true → less t u = true → less s u = true
  | [], [], _, h, _ => by simp [less] at h
  | [], _ :: _, [], _, h => by simp [less] at h
  | [], _ :: _, _ :: _, _, _ => rfl
  | _ :: _, [], _, h, _ => by simp [less] at h
  | _ :: _, _ :: _, [], _, h => by simp [less] at h
  | a :: s, b :: t, c :: u, h1, h2 => by
    unfold less at h1 h2 ⊢
    by_cases e1 : a = b
    · subst e1
      rw [if_pos rfl] at h1
      by_cases e2 : a = c
      · rw [if_pos e2] at h2 ⊢; exact less_trans s t u h1 h2
      · rw [if_neg e2] at h2 ⊢; exact h2
    · rw [if_neg e1] at h1
      by_cases e2 : b = c
      · subst e2; rw [if_neg e1]; exact h1
      · rw [if_neg e2] at h2
        simp only [decide_eq_true_eq] at h1 h2
        have h3 : a < c := UInt8.lt_trans h1 h2
        rw [if_neg (by rintro rfl; exact absurd h3 (UInt8.lt_irrefl a))]
        simpa using h3

theorem less_total : ∀ (s t : Text), s ≠ t → less s t = false → less t s = true
  | [], [], h, _ => absurd rfl h
  | [], _ :: _, _, h => by simp [less] at h
  | _ :: _, [], _, _ => rfl
  | a :: s, b :: t, h, h1 => by
    unfold less at h1 ⊢
    by_cases e : a = b
    · subst e
      rw [if_pos rfl] at h1 ⊢
      exact less_total s t (by rintro rfl; exact h rfl) h1
    · rw [if_neg e] at h1
      rw [if_neg (fun x => e x.symm)]
      simp only [decide_eq_false_iff_not, UInt8.not_lt, decide_eq_true_eq] at h1 ⊢
      exact UInt8.lt_of_le_of_ne h1 (fun x => e x.symm)

theorem insert_sorted (k : Text) (v : Cmd) : ∀ (l : List (Text × Cmd)), l.lookup k = none → l.Pairwise (fun a b => less a.1 b.1 = true) →
    (place k v l).Pairwise (fun a b => less a.1 b.1 = true)
  | [], _, _ => by simp [place]
  | p :: l, hk, h => by
    have hne : k ≠ p.1 := fun e => lookup_none_mem _ _ hk p (by simp) e.symm
    have hk' : l.lookup k = none := by
      obtain ⟨a, b⟩ := p
      rw [lk_cons, if_neg hne] at hk; exact hk
    rw [List.pairwise_cons] at h
    unfold place
    split
    · rename_i hlt
      rw [List.pairwise_cons]
      refine ⟨fun q hq => ?_, List.pairwise_cons.mpr h⟩
      rcases List.mem_cons.mp hq with rfl | hq
      · exact hlt
      · exact less_trans _ _ _ hlt (h.1 q hq)
    · rename_i hlt
      rw [List.pairwise_cons]
      refine ⟨fun q hq => ?_, insert_sorted k v l hk' h.2⟩
      rcases (mem_insert k v q l).mp hq with rfl | hq
      · exact less_total _ _ hne (by simpa using hlt)
      · exact h.1 q hq

theorem sorted_distinct (l : List (Text × Cmd)) (h : l.Pairwise (fun a b => less a.1 b.1 = true)) : l.Pairwise fun a b => a.1 ≠ b.1 :=
  h.imp (fun {a b} hab e => by rw [e, less_irrefl] at hab; simp at hab)

/-- The commands after a step. -/
theorem step_cmds (st : St) (o : Op) :
    (step st o).cmds = match o with | .add k v => if (st.cmds.lookup k).isSome then st.cmds else place k v st.cmds | _ => st.cmds := by
  have hd : ∀ st i k v, (data st i k v).1.cmds = st.cmds := by
    intro st i k v
    unfold data
    split
    · rfl
    · split <;> rfl
  have hi : ∀ l st i, (initAll st i l).1.cmds = st.cmds := by
    intro l
    induction l with
    | nil => intro st i; rfl
    | cons p l ih => intro st i; rw [initAll]; rw [ih, hd]
  have hu : ∀ st d k v, (use st d k v).cmds = st.cmds := by
    intro st d k v
    unfold use
    split
    · rfl
    · exact hd _ _ _ _
  cases o with
  | add k v =>
    show (add st k v).1.cmds = _
    unfold add
    cases h : st.cmds.lookup k <;> simp [h]
  | make => exact hi _ _ _
  | destroy d =>
    show (destroy st d).cmds = _
    unfold destroy
    split <;> rfl
  | run d k =>
    show (run st d k).1.cmds = _
    unfold run
    split
    · rfl
    · exact hu _ _ _ _
  | foreach k =>
    show (foreach st k).1.cmds = _
    unfold foreach
    split
    · rfl
    · rename_i v _
      have : ∀ (l : List Nat) (st : St), (l.foldl (fun st d => use st d k v) st).cmds = st.cmds := by
        intro l
        induction l with
        | nil => intro st; rfl
        | cons d l ih => intro st; rw [List.foldl_cons, ih, hu]
      exact this _ _

theorem step_sorted (st : St) (o : Op) (h : st.cmds.Pairwise (fun a b => less a.1 b.1 = true)) : (step st o).cmds.Pairwise (fun a b => less a.1 b.1 = true) := by
  rw [step_cmds]
  cases o with
  | add k v =>
    dsimp only
    split
    · exact h
    · rename_i hn
      exact insert_sorted k v _ (Option.not_isSome_iff_eq_none.mp hn) h
  | _ => exact h

theorem step_lookup (st : St) (o : Op) (k : Text) (v : Cmd) (h : st.cmds.lookup k = some v) : (step st o).cmds.lookup k = some v := by
  rw [step_cmds]
  cases o with
  | add k' v' =>
    dsimp only
    split
    · exact h
    · rename_i hn
      rw [lookup_insert k' v' _ k (Option.not_isSome_iff_eq_none.mp hn)]
      split
      · rename_i e; subst e; rw [h] at hn; simp at hn
      · exact h
  | _ => exact h

theorem exec_lookup (ops : List Op) (st : St) (k : Text) (v : Cmd) (h : st.cmds.lookup k = some v) : (exec st ops).cmds.lookup k = some v := by
  induction ops generalizing st with
  | nil => exact h
  | cons o ops ih => exact ih (step st o) (step_lookup st o k v h)

theorem step_ok (F : Text → Cmd) (st : St) (o : Op) (hs : st.cmds.Pairwise (fun a b => less a.1 b.1 = true)) (hf : Fits F (step st o).cmds) (inv : Inv F st) :
    Inv F (step st o) := by
  have hf0 : Fits F st.cmds := ⟨fun k v h => hf.f k v (step_lookup st o k v h)⟩
  cases o with
  | add k v =>
    have hc := step_cmds st (.add k v)
    show Inv F (add st k v).1
    unfold add
    cases h : st.cmds.lookup k with
    | some _ => exact inv
    | none =>
      refine ⟨inv.ids, inv.lt, fun i hi => ⟨(inv.inst i hi).ok, (inv.inst i hi).keys, fun p hp => ?_⟩, inv.fresh, inv.ended⟩
      dsimp only
      rw [lookup_insert k v _ _ h]
      split
      · simp
      · exact (inv.inst i hi).known p hp
  | make => exact (make_ok F st (sorted_distinct _ hs) hf0 inv).1
  | destroy d => exact (destroy_ok F st d hf0 inv).1
  | run d k =>
    show Inv F (run st d k).1
    unfold run
    cases h : st.cmds.lookup k with
    | none => exact inv
    | some v => exact (use_ok F st d k v (hf0.f k v h) h inv).1
  | foreach k =>
    show Inv F (foreach st k).1
    unfold foreach
    cases h : st.cmds.lookup k with
    | none => exact inv
    | some v =>
      dsimp only
      have : ∀ (l : List Nat) (st : St), st.cmds.lookup k = some v → Inv F st → Inv F (l.foldl (fun st d => use st d k v) st) := by
        intro l
        induction l with
        | nil => intro st _ i; exact i
        | cons d l ih =>
          intro st h i
          obtain ⟨a, b, _⟩ := use_ok F st d k v (hf0.f k v (by assumption)) h i
          exact ih _ (by rw [b]; exact h) a
      exact this _ st h inv

theorem exec_ok (F : Text → Cmd) : ∀ (ops : List Op) (st : St), st.cmds.Pairwise (fun a b => less a.1 b.1 = true) → Fits F (exec st ops).cmds → Inv F st →
    Inv F (exec st ops)
  | [], _, _, _, inv => inv
  | o :: ops, st, hs, hf, inv =>
    exec_ok F ops (step st o) (step_sorted st o hs) hf (step_ok F st o hs ⟨fun k v h => hf.f k v (exec_lookup ops (step st o) k v h)⟩ inv)

theorem inv_new (F : Text → Cmd) : Inv F St.new :=
  ⟨by simp [St.new], by simp [St.new], by simp [St.new], fun _ _ _ => rfl, fun d _ h => by simp [St.new] at h⟩

theorem ended_iff (c : Cmd) (d : Nat) (cmd : Text) : ∀ (log : List Ev) (p0 p : Phase), (log.filter (Ev.about d cmd)).foldlM (life c) p0 = some p → p0 ≠ .ended →
    (p = .ended ↔ Ev.gone d ∈ log)
  | [], p0, p, h, hp => by
    simp only [List.filter_nil, List.foldlM_nil] at h
    have : p0 = p := Option.some.inj h
    rw [← this]; simp [hp]
  | e :: log, p0, p, h, hp => by
    rw [List.filter_cons] at h
    by_cases ha : e.about d cmd = true
    · rw [if_pos ha, List.foldlM_cons] at h
      cases hl : life c p0 e with
      | none => rw [hl] at h; simp at h
      | some p1 =>
        rw [hl] at h
        simp only [Option.bind_eq_bind, Option.bind_some] at h
        by_cases he : p1 = .ended
        · -- nothing is accepted after the end
          have hnil : log.filter (Ev.about d cmd) = [] ∧ p = .ended := by
            rw [he] at h
            cases hf : log.filter (Ev.about d cmd) with
            | nil => rw [hf] at h; exact ⟨rfl, (Option.some.inj h).symm⟩
            | cons x xs =>
              rw [hf, List.foldlM_cons] at h
              have : life c .ended x = none := by cases x <;> rfl
              rw [this] at h; simp at h
          have hg : e = .gone d := by
            rw [he] at hl
            cases e with
            | gone d' => simp only [Ev.about, decide_eq_true_eq] at ha; rw [ha]
            | init a b x => cases p0 <;> simp [life] at hl
            | use a b x =>
              cases p0 <;> simp [life] at hl
              cases x <;> simp at hl
            | cleanup a b x =>
              cases p0 <;> simp [life] at hl
              cases x <;> simp at hl
          simp [hnil.2, hg]
        · have := ended_iff c d cmd log p1 p h he
          rw [this]
          have hg : e ≠ .gone d := by
            rintro rfl
            cases p0 with
            | fresh => simp [life] at hl; exact he hl.symm
            | has x => simp [life] at hl; exact he hl.2.symm
            | cleaned => simp [life] at hl; exact he hl.symm
            | ended => exact hp rfl
          simp [Ne.symm hg]
    · rw [if_neg ha] at h
      rw [ended_iff c d cmd log p0 p h hp]
      have : e ≠ .gone d := by rintro rfl; simp [Ev.about] at ha
      simp [Ne.symm this]

/-- Which command is known by a name: the first that was added. -/
theorem exec_first (k : Text) : ∀ (ops : List Op) (st : St),
    (exec st ops).cmds.lookup k = (st.cmds.lookup k).or (ops.findSome? fun | .add k' v => if k' = k then some v else none | _ => none)
  | [], st => by simp [exec]
  | o :: ops, st => by
    show (exec (step st o) ops).cmds.lookup k = _
    rw [exec_first k ops (step st o), step_cmds]
    cases o with
    | add k' v =>
      dsimp only
      rw [List.findSome?_cons]
      cases h : st.cmds.lookup k' with
      | some x =>
        rw [if_pos (by rfl)]
        by_cases e : k' = k
        · subst e; rw [h]; rfl
        · simp [e]
      | none =>
        rw [if_neg (by simp), lookup_insert k' v _ k h]
        by_cases e : k' = k
        · subst e; simp [h]
        · simp [e, Ne.symm e]
    | _ => simp [List.findSome?_cons]

/-- The instances that a log says are there are those that are. -/
def useOf : Ev → Option (Nat × Text)
  | .use d k _ => some (d, k)
  | _ => none

/-- What a call adds to the log. -/
theorem use_log (F : Text → Cmd) (st : St) (d : Nat) (k : Text) (v : Cmd) (hf : F k = v) (hk : st.cmds.lookup k = some v) (inv : Inv F st)
    (hd : d ∈ st.insts.map (·.id)) : ∃ ext, (use st d k v).log = st.log ++ ext ∧ ext.filterMap useOf = [(d, k)] := by
  unfold use
  cases he : st.insts.find? (·.id = d) with
  | none =>
    rw [List.find?_eq_none] at he
    obtain ⟨i, hi, e⟩ := List.mem_map.mp hd
    exact absurd (by simpa using e) (he i hi)
  | some i =>
    obtain ⟨hi, hid⟩ := find_inst st d i he
    obtain ⟨st', i', x, e, _, _, _, _, _, _, _, ext, e8, e9⟩ := data_ok F st i k v hf hk (inv.inst i hi)
    dsimp only
    rw [e]
    refine ⟨ext ++ [.use d k x], by dsimp only; rw [e8, List.append_assoc], ?_⟩
    rw [List.filterMap_append]
    have : ext.filterMap useOf = [] := by
      rw [List.filterMap_eq_nil_iff]
      intro e he
      obtain ⟨c, n, rfl⟩ := e9 e he
      rfl
    rw [this]; rfl

/-! ### The text -/

theorem backslashes_mem (m : List Byte) : ∀ (s : List Byte), 10 ∉ s → 10 ∉ Tcl.backslashes m s
  | [], _ => by simp [Tcl.backslashes]
  | c :: s, h => by
    simp only [List.mem_cons, not_or] at h
    unfold Tcl.backslashes
    split
    · simp only [List.mem_cons, not_or]
      exact ⟨by decide, h.1, backslashes_mem m s h.2⟩
    · simp only [List.mem_cons, not_or]
      exact ⟨h.1, backslashes_mem m s h.2⟩

theorem escape_mem (m s : List Byte) (h : 10 ∉ s) : 10 ∉ Tcl.escape m s := by
  unfold Tcl.escape
  split
  · decide
  · split
    · exact h
    · split
      · exact backslashes_mem m s h
      · simp only [List.mem_cons, List.mem_append, List.not_mem_nil, or_false, not_or]
        exact ⟨by decide, h, by decide⟩

theorem encode_mem : ∀ (l : List Text), (∀ w ∈ l, 10 ∉ w) → 10 ∉ Tcl.encode Tcl.spaces Tcl.spaces l
  | [], _ => by simp [Tcl.encode]
  | [w], h => by simpa [Tcl.encode] using escape_mem Tcl.spaces w (h w (by simp))
  | w :: w' :: l, h => by
    rw [Tcl.encode]
    · rw [List.mem_append, List.mem_cons, not_or, not_or]
      exact ⟨escape_mem Tcl.spaces w (h w (by simp)), by decide, encode_mem (w' :: l) (fun x hx => h x (by simp [hx]))⟩
    · simp

theorem decode_message (code : Text) (results : List Text) (hr : ∀ w ∈ results, 10 ∉ w) :
    Tcl.decode Tcl.spaces true (Tcl.escape Tcl.spaces code ++ ch ' ' :: Tcl.encode Tcl.spaces Tcl.spaces results) = code :: results := by
  have hg := C15_getword_escape Tcl.spaces Tcl.spaces separators_default [] code (ch ' ') (Tcl.encode Tcl.spaces Tcl.spaces results) (by simp) (by decide)
  rw [List.nil_append] at hg
  rw [decode_cons hg, decode_lead (by decide)]
  congr 1
  refine C16_list_roundtrip_partial Tcl.spaces Tcl.spaces separators_default (by decide) results (fun w hw hb => ?_)
  exact hr w (List.mem_of_getLast? hw) (List.mem_of_getLast? hb.2.1)

theorem lines_word (p r acc : Text) (h : 10 ∉ p) : lines acc (p ++ 10 :: r) = (acc.reverse ++ p) :: lines [] r := by
  induction p generalizing acc with
  | nil => simp [lines]
  | cons c p ih =>
    simp only [List.mem_cons, not_or] at h
    rw [List.cons_append, lines, if_neg (fun e => h.1 e.symm), ih _ h.2]
    simp

end Dbg

open Dbg

/-- C103: whatever commands are added, run in whichever instances, and whenever instances come and go: the data of a command in an instance are made at most once, every
    use gets what was made for this command in this instance, they are cleaned up once, before the instance goes, and never used after that. -/
theorem C103_life (ops : List Op) (d : Nat) (cmd : List Byte) :
    let st := exec St.new ops
    ∃ p, lived ((st.cmds.lookup cmd).getD ⟨false, false⟩) d cmd st.log = some p ∧ p ≠ .cleaned ∧ (p = .ended ↔ Ev.gone d ∈ st.log) := by
  dsimp only
  have inv := exec_ok (fun c => ((exec St.new ops).cmds.lookup c).getD ⟨false, false⟩) ops St.new (by simp [St.new]) ⟨fun k v h => by rw [h]; rfl⟩ (inv_new _)
  have key : ∃ p, lived (((exec St.new ops).cmds.lookup cmd).getD ⟨false, false⟩) d cmd (exec St.new ops).log = some p ∧ p ≠ .cleaned := by
    rcases Nat.lt_or_ge d (exec St.new ops).nextId with h | h
    · by_cases hx : ∃ i ∈ (exec St.new ops).insts, i.id = d
      · obtain ⟨i, hi, rfl⟩ := hx
        have hok := (inv.inst i hi).ok cmd
        unfold OkAt at hok
        split at hok
        · rcases hok with q | ⟨q, _⟩
          · exact ⟨_, q, by simp⟩
          · exact ⟨_, q, by simp⟩
        · exact ⟨_, hok, by simp⟩
      · exact ⟨_, inv.ended d cmd h (fun i hi e => hx ⟨i, hi, e⟩), by simp⟩
    · exact ⟨_, inv.fresh d cmd h, by simp⟩
  obtain ⟨p, h1, h2⟩ := key
  exact ⟨p, h1, h2, ended_iff _ d cmd _ _ p h1 (by simp)⟩

/-- C103: the first command added under a name is the one; adding another one, or running a name that was never added, is refused and changes nothing. -/
theorem C103_first (ops : List Op) (k : List Byte) :
    let st := exec St.new ops
    let first := ops.findSome? (fun | .add k' v => if k' = k then some v else none | _ => none)
    st.cmds.lookup k = first ∧ (∀ v, (add st k v).2 = first.isNone ∧ (first.isSome = true → (add st k v).1 = st)) ∧
      (∀ d, (run st d k).2 = first.isSome ∧ (foreach st k).2 = first.isSome ∧ (first = none → (run st d k).1 = st ∧ (foreach st k).1 = st)) := by
  dsimp only
  have h := exec_first k ops St.new
  have h0 : St.new.cmds.lookup k = none := rfl
  rw [h0, Option.none_or] at h
  refine ⟨h, fun v => ?_, fun d => ?_⟩
  · rw [← h]; unfold add
    cases hl : (exec St.new ops).cmds.lookup k <;> simp [hl]
  · rw [← h]; unfold run foreach
    cases hl : (exec St.new ops).cmds.lookup k <;> simp [hl]

/-- C103: `help` lists the names that were added, each once, in order. -/
theorem C103_help (ops : List Op) :
    (help (exec St.new ops)).Pairwise (fun a b => less a b = true ∧ a ≠ b) ∧
      ∀ k, k ∈ help (exec St.new ops) ↔ ∃ v, Op.add k v ∈ ops := by
  have hs : ∀ (ops : List Op) (st : St), st.cmds.Pairwise (fun a b => less a.1 b.1 = true) → (exec st ops).cmds.Pairwise (fun a b => less a.1 b.1 = true) := by
    intro ops
    induction ops with
    | nil => intro st h; exact h
    | cons o ops ih => intro st h; exact ih _ (step_sorted st o h)
  have h := hs ops St.new (by simp [St.new])
  refine ⟨?_, fun k => ?_⟩
  · unfold help
    rw [List.pairwise_map]
    exact h.imp (fun {a b} hab => ⟨hab, fun e => by rw [e, less_irrefl] at hab; simp at hab⟩)
  · have h1 := (C103_first ops k).1
    unfold help
    constructor
    · intro hk
      obtain ⟨p, hp, rfl⟩ := List.mem_map.mp hk
      rw [lookup_of_mem _ (sorted_distinct _ h) p hp] at h1
      obtain ⟨o, ho, e⟩ := List.exists_of_findSome?_eq_some h1.symm
      cases o with
      | add k' v =>
        simp only at e
        split at e
        · rename_i ek; exact ⟨v, by rw [← ek]; exact ho⟩
        · simp at e
      | _ => simp at e
    · rintro ⟨v, hv⟩
      cases hl : (exec St.new ops).cmds.lookup k with
      | none =>
        rw [hl] at h1
        have := List.findSome?_eq_none_iff.mp h1.symm _ hv
        simp at this
      | some x =>
        apply Classical.byContradiction
        intro hn
        have : (exec St.new ops).cmds.lookup k = none := by
          rw [List.lookup_eq_none_iff]
          intro p hp
          simp only [beq_eq_false_iff_ne, ne_eq, bne_iff_ne]
          intro e
          exact hn (List.mem_map.mpr ⟨p, hp, e.symm⟩)
        rw [this] at hl; simp at hl

/-- C103: `run` is one use of the command in that instance; `foreach` is one in every instance. -/
theorem C103_uses (ops : List Op) (k : List Byte) (v : Cmd) (hk : (exec St.new ops).cmds.lookup k = some v) :
    let st := exec St.new ops
    (∀ d ∈ st.insts.map (·.id), ∃ ext, (run st d k).1.log = st.log ++ ext ∧ ext.filterMap useOf = [(d, k)]) ∧
      ∃ ext, (foreach st k).1.log = st.log ++ ext ∧ ext.filterMap useOf = st.insts.map fun i => (i.id, k) := by
  dsimp only
  have inv := exec_ok (fun c => ((exec St.new ops).cmds.lookup c).getD ⟨false, false⟩) ops St.new (by simp [St.new]) ⟨fun k v h => by rw [h]; rfl⟩ (inv_new _)
  have hF : ((exec St.new ops).cmds.lookup k).getD ⟨false, false⟩ = v := by rw [hk]; rfl
  constructor
  · intro d hd
    unfold run
    rw [hk]
    exact use_log _ _ d k v hF hk inv hd
  · unfold foreach
    rw [hk]
    dsimp only
    have key : ∀ (l : List Nat) (st : St), st.cmds.lookup k = some v → Inv (fun c => ((exec St.new ops).cmds.lookup c).getD ⟨false, false⟩) st →
        (∀ d ∈ l, d ∈ st.insts.map (·.id)) →
        ∃ ext, (l.foldl (fun st d => use st d k v) st).log = st.log ++ ext ∧ ext.filterMap useOf = l.map fun d => (d, k) := by
      intro l
      induction l with
      | nil => intro st _ _ _; exact ⟨[], by simp, rfl⟩
      | cons d l ih =>
        intro st h i hd
        obtain ⟨e1, a1, a2⟩ := use_log _ st d k v hF h i (hd d (by simp))
        obtain ⟨b1, b2, b3⟩ := use_ok _ st d k v hF h i
        obtain ⟨e2, c1, c2⟩ := ih (use st d k v) (by rw [b2]; exact h) b1 (fun d' hd' => by rw [b3]; exact hd d' (by simp [hd']))
        refine ⟨e1 ++ e2, by rw [List.foldl_cons, c1, a1, List.append_assoc], ?_⟩
        rw [List.filterMap_append, a2, c2]; rfl
    obtain ⟨ext, e1, e2⟩ := key _ _ hk inv (fun d hd => hd)
    exact ⟨ext, e1, by rw [e2, List.map_map]; rfl⟩

/-- C103: messages without newlines reach the client as they were sent: cut into lines and decoded, each is its code and its results. -/
theorem C103_wire_partial (ms : List (List Byte × List (List Byte))) (h : ∀ m ∈ ms, 10 ∉ m.1 ∧ ∀ w ∈ m.2, 10 ∉ w) :
    (lines [] (ms.flatMap fun m => send m.1 m.2)).map (Tcl.decode Tcl.spaces true) = ms.map fun m => m.1 :: m.2 := by
  induction ms with
  | nil => rfl
  | cons m ms ih =>
    obtain ⟨h1, h2⟩ := h m (by simp)
    have e : send m.1 m.2 ++ (ms.flatMap fun m => send m.1 m.2) =
        (Tcl.escape Tcl.spaces m.1 ++ ch ' ' :: Tcl.encode Tcl.spaces Tcl.spaces m.2) ++ 10 :: (ms.flatMap fun m => send m.1 m.2) := by
      simp [send, ch]
    rw [List.flatMap_cons, e, lines_word _ _ _ (by
      rw [List.mem_append, List.mem_cons, not_or, not_or]
      exact ⟨escape_mem _ _ h1, by decide, encode_mem _ h2⟩)]
    rw [List.map_cons, List.map_cons, List.reverse_nil, List.nil_append, decode_message m.1 m.2 h2, ih (fun x hx => h x (by simp [hx]))]

/-- C103: a line is run as its words say, if there is such a command; the answer is any number of results, then one OK or ERROR, and OK exactly if the command ran
    without an error. -/
theorem C103_reply (known : List Byte → Bool) (run : Runner) (line : List Byte) :
    ∃ results last, (ready known run line).1 = results.map (fun l => (str ['-'], l)) ++ [last] ∧ (last.1 = okWord ∨ last.1 = errorWord) ∧
      (∀ cmd args, (ready known run line).2 = some (cmd, args) ↔ (Tcl.decode Tcl.spaces true line = cmd :: args ∧ cmd ≠ [] ∧ known cmd = true)) ∧
      (last.1 = okWord ↔ ∃ cmd args, (ready known run line).2 = some (cmd, args) ∧ (run cmd args).2 = []) ∧
      (∀ cmd args, (ready known run line).2 = some (cmd, args) → results = (run cmd args).1) := by
  have hne : errorWord ≠ okWord := by decide +kernel
  unfold ready
  cases hd : Tcl.decode Tcl.spaces true line with
  | nil => exact ⟨[], (errorWord, [emptyCommand]), rfl, Or.inr rfl, by simp, by simp [hne], by simp⟩
  | cons cmd args =>
    dsimp only
    by_cases hc : cmd = []
    · rw [if_pos hc]
      refine ⟨[], (errorWord, [emptyCommand]), rfl, Or.inr rfl, ?_, by simp [hne], by simp⟩
      intro c a
      simp only [reduceCtorEq, List.cons.injEq, false_iff]
      rintro ⟨⟨rfl, _⟩, x, _⟩
      exact x hc
    · rw [if_neg hc]
      by_cases hk : known cmd = true
      · rw [if_pos hk]
        refine ⟨(run cmd args).1, _, rfl, ?_, ?_, ?_, ?_⟩
        · split
          · exact Or.inr rfl
          · exact Or.inl rfl
        · intro c a
          simp only [Option.some.injEq, Prod.mk.injEq, List.cons.injEq]
          constructor
          · rintro ⟨rfl, rfl⟩; exact ⟨⟨rfl, rfl⟩, hc, hk⟩
          · rintro ⟨h, _⟩; exact h
        · constructor
          · intro h
            refine ⟨cmd, args, rfl, ?_⟩
            split at h
            · exact absurd h hne
            · rename_i hx; exact Classical.not_not.mp hx
          · rintro ⟨c, a, h, hr⟩
            simp only [Option.some.injEq, Prod.mk.injEq] at h
            obtain ⟨rfl, rfl⟩ := h
            rw [if_neg (by rw [hr]; simp)]
        · intro c a h
          simp only [Option.some.injEq, Prod.mk.injEq] at h
          obtain ⟨rfl, rfl⟩ := h
          rfl
      · rw [if_neg hk]
        refine ⟨[], (errorWord, [noSuchCommand]), rfl, Or.inr rfl, ?_, by simp [hne], by simp⟩
        intro c a
        simp only [reduceCtorEq, List.cons.injEq, false_iff]
        rintro ⟨⟨rfl, _⟩, _, x⟩
        exact hk x

namespace Dbg
def hi : Text := str ['h', 'i']
def ops1 : List Op := [.add hi ⟨true, true⟩, .make, .add [98] ⟨false, true⟩, .make, .run 0 hi, .run 0 [98], .foreach hi, .destroy 0, .run 1 hi]
def echo : Runner := fun cmd args => ([cmd :: args], [])
end Dbg

/-- Two instances; one has gone, the other keeps its data. -/
example : (exec St.new ops1).log =
    [.init 0 hi 0, .init 1 hi 1, .use 0 hi (some 0), .use 0 [98] none, .use 0 hi (some 0), .use 1 hi (some 1), .cleanup 0 hi (some 0), .cleanup 0 [98] none, .gone 0,
     .use 1 hi (some 1)] ∧ lived ⟨true, true⟩ 0 hi (exec St.new ops1).log = some .ended ∧ lived ⟨true, true⟩ 1 hi (exec St.new ops1).log = some (.has (some 1)) := by
  refine ⟨?_, ?_, ?_⟩ <;> decide +kernel

example : send okWord [str ['a', ' ', 'b']] = str ['O', 'K', ' ', '{', 'a', ' ', 'b', '}', '\n'] := by decide +kernel

/-- C103: a result with a newline in it is more than one line for the client. -/
theorem C103_wire_fails : (lines [] (send okWord [[97, 10, 98]])).length = 2 := by decide +kernel

/-- C103: nobody is asked who they are: a connection that comes in by TCP runs its first line, whatever the callback for authentication would say. -/
theorem C103_auth_fails (auth : List Byte → List Byte → List Byte → Bool) (salt : List Byte) (known : List Byte → Bool) (run : Runner) (line cmd : List Byte)
    (args : List (List Byte)) (hd : Tcl.decode Tcl.spaces true line = cmd :: args) (hc : cmd ≠ []) (hk : known cmd = true) :
    (serve auth salt known run tcpAccept line).2.1 = some (cmd, args) := by
  unfold serve tcpAccept ready
  simp [hd, hc, hk]

/-- C103: a connection that has to authenticate itself runs nothing, and may run commands from then on exactly if the callback accepts the first two words of the line
    for the salt it was sent; otherwise it has to authenticate itself again. Missing: no listener makes such a connection. -/
theorem C103_auth_partial (auth : List Byte → List Byte → List Byte → Bool) (salt salt' : List Byte) (known : List Byte → Bool) (run : Runner) (line : List Byte) (m : Mode)
    (hm : m = .authResponse salt ∨ (m = .authRequest ∧ salt' = salt)) :
    let r := serve auth salt' known run m line
    r.2.1 = none ∧ (r.2.2 = .ready ∨ r.2.2 = .authRequest) ∧
    (r.2.2 = .ready ↔ ∃ user pw rest, Tcl.decode Tcl.spaces true line = user :: pw :: rest ∧ user ≠ [] ∧ pw ≠ [] ∧ auth user salt pw = true) ∧
    (r.2.2 = .ready ↔ ∃ l text, r.1 = l ++ [(okWord, [text])]) ∧
    (m = .authRequest → ∃ l, r.1 = (str ['A', 'U', 'T', 'H'], [salt]) :: l) := by
  have hne : errorWord ≠ okWord := by decide +kernel
  have key : ∀ s : List (List Byte), ¬ (s.getD 0 [] = [] ∨ s.getD 1 [] = [] ∨ auth (s.getD 0 []) salt (s.getD 1 []) = false) ↔
      ∃ user pw rest, s = user :: pw :: rest ∧ user ≠ [] ∧ pw ≠ [] ∧ auth user salt pw = true := by
    intro s
    constructor
    · intro h
      cases s with
      | nil => simp at h
      | cons a s =>
        cases s with
        | nil => simp at h
        | cons b s =>
          simp only [List.getD_cons_zero, List.getD_cons_succ, not_or, Bool.not_eq_false] at h
          exact ⟨a, b, s, rfl, h.1, h.2.1, h.2.2⟩
    · rintro ⟨a, b, s, rfl, h1, h2, h3⟩
      simp [h1, h2, h3]
  have last : ∀ (l l' : List (List Byte × List (List Byte))) (t t' : List Byte), l ++ [(errorWord, [t])] ≠ l' ++ [(okWord, [t'])] := by
    intro l l' t t' h
    have := (List.append_inj' h rfl).2
    simp only [List.cons.injEq, Prod.mk.injEq, and_true] at this
    exact hne this.1
  have e : ∀ before, let r : List (List Byte × List (List Byte)) × Option (List Byte × List (List Byte)) × Mode :=
      (if (Tcl.decode Tcl.spaces true line).getD 0 [] = [] ∨ (Tcl.decode Tcl.spaces true line).getD 1 [] = [] ∨
          auth ((Tcl.decode Tcl.spaces true line).getD 0 []) salt ((Tcl.decode Tcl.spaces true line).getD 1 []) = false then
        (before ++ [(errorWord, [str ['A', 'u', 't', 'h', 'e', 'n', 't', 'i', 'c', 'a', 't', 'i', 'o', 'n', ' ', 'f', 'a', 'i', 'l', 'u', 'r', 'e']])], none, .authRequest)
      else (before ++ [(okWord, [str ['A', 'u', 't', 'h', 'e', 'n', 't', 'i', 'c', 'a', 't', 'e', 'd']])], none, .ready))
      r.2.1 = none ∧ (r.2.2 = .ready ∨ r.2.2 = .authRequest) ∧
      (r.2.2 = .ready ↔ ∃ user pw rest, Tcl.decode Tcl.spaces true line = user :: pw :: rest ∧ user ≠ [] ∧ pw ≠ [] ∧ auth user salt pw = true) ∧
      (r.2.2 = .ready ↔ ∃ l text, r.1 = l ++ [(okWord, [text])]) ∧ ∃ l, r.1 = before ++ l := by
    intro before
    dsimp only
    have hk := key (Tcl.decode Tcl.spaces true line)
    split
    · rename_i h
      refine ⟨rfl, Or.inr rfl, ⟨fun h' => by simp at h', fun h' => absurd h (hk.mpr h')⟩, ⟨fun h' => by simp at h', ?_⟩, _, rfl⟩
      rintro ⟨l, t, h'⟩
      exact absurd h' (last _ _ _ _)
    · rename_i h
      exact ⟨rfl, Or.inl rfl, ⟨fun _ => hk.mp h, fun _ => rfl⟩, ⟨fun _ => ⟨_, _, rfl⟩, fun _ => rfl⟩, _, rfl⟩
  rcases hm with rfl | ⟨rfl, rfl⟩
  · obtain ⟨h1, h2, h3, h4, _⟩ := e []
    exact ⟨h1, h2, h3, h4, fun h => by simp at h⟩
  · obtain ⟨h1, h2, h3, h4, l, h5⟩ := e [(str ['A', 'U', 'T', 'H'], [salt'])]
    exact ⟨h1, h2, h3, h4, fun _ => ⟨l, h5⟩⟩

/-- The line "hi a" for someone who is accepted, and for someone who is not. -/
example : (serve (fun _ _ _ => true) [49] (fun _ => true) echo .authRequest (hi ++ [32, 97])).2.2 = .ready ∧
    (serve (fun _ _ _ => false) [49] (fun _ => true) echo .authRequest (hi ++ [32, 97])).2.2 = .authRequest := by
  refine ⟨?_, ?_⟩ <;> decide +kernel

/-- The hypotheses are met by the line "hi a". -/
example : Tcl.decode Tcl.spaces true (hi ++ [32, 97]) = [hi, [97]] := by
  have h := decode_message hi [[97]] (by intro w hw; simp only [List.mem_singleton] at hw; rw [hw]; decide)
  have e : Tcl.escape Tcl.spaces hi ++ ch ' ' :: Tcl.encode Tcl.spaces Tcl.spaces [[97]] = hi ++ [32, 97] := by decide +kernel
  rw [e] at h; exact h

end Props
