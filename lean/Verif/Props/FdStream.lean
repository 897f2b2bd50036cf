import Verif.Model.FdStream
/-!
C118: the descriptors of streams and files.
-/
namespace Props
open Wv Wv.FdStream
open Spec.FdStream (Ev opened mayRead mayWrite)

namespace FdP

/-- The descriptors that a stream has. -/
def own (r w : Option Nat) : List Nat := r.toList ++ if w = r then [] else w.toList

theorem opened_append : ∀ (a b : List Ev) (l : List Nat), opened (a ++ b) l = (opened a l).bind (opened b)
  | [], b, l => rfl
  | e :: a, b, l => by
    cases e <;> simp only [List.cons_append, opened] <;> first | (split <;> first | rfl | exact opened_append a b _) | exact opened_append a b _

structure Inv (s : St) : Prop where
  log : opened s.log [] = some (own s.rfd s.wfd)
  closed : s.closed = true → s.rfd = none ∧ s.wfd = none
  cb : ∀ d m, s.closecb ≠ some (.reopen d m)

theorem log_add {s : St} (h : opened s.log [] = some (own s.rfd s.wfd)) (e : Ev) :
    opened (s.log ++ [e]) [] = opened [e] (own s.rfd s.wfd) := by rw [opened_append, h]; rfl

theorem closeFds_log {s : St} (h : opened s.log [] = some (own s.rfd s.wfd)) :
    opened s.closeFds.log [] = some [] ∧ s.closeFds.rfd = none ∧ s.closeFds.wfd = none ∧ s.closeFds.closed = s.closed ∧ s.closeFds.closecb = s.closecb := by
  unfold St.closeFds
  cases hr : s.rfd with
  | none =>
    cases hw : s.wfd with
    | none => simp [St.sys, h, hr, hw, own]
    | some w =>
      have := log_add h (.closed w)
      simp only [hr, hw, own] at this
      simp [St.sys, this, opened]
  | some r =>
    have := log_add h (.closed r)
    cases hw : s.wfd with
    | none =>
      simp only [hr, hw, own] at this
      simp [St.sys, this, opened]
    | some w =>
      by_cases he : w = r
      · subst he
        simp only [hr, hw, own] at this
        simp [St.sys, this, opened]
      · simp only [hr, hw, own] at this
        have h2 : opened (s.log ++ [Ev.closed r] ++ [Ev.closed w]) [] = some [] := by
          rw [opened_append, this]
          simp [opened, he]
        simp only [List.append_assoc, List.cons_append, List.nil_append] at h2
        simp [St.sys, he, h2]

theorem callback_ok {s : St} (h : opened s.log [] = some (own s.rfd s.wfd)) (hc : ∀ d m, s.closecb ≠ some (.reopen d m)) :
    opened s.callback.log [] = some (own s.callback.rfd s.callback.wfd) ∧ s.callback.closed = s.closed ∧ s.callback.closecb = none := by
  unfold St.callback
  cases hcb : s.closecb with
  | none => exact ⟨h, rfl, hcb⟩
  | some c =>
    cases c with
    | nothing => exact ⟨by simp only [log_add h]; rfl, rfl, rfl⟩
    | reopen d m => exact absurd hcb (hc d m)

theorem autoW_ok {s : St} (h : Inv s) : Inv s.autoW.1 := by
  unfold St.autoW
  split
  · dsimp only
    split
    · exact ⟨h.log, h.closed, h.cb⟩
    · rename_i hw
      obtain ⟨w, hw'⟩ := Option.ne_none_iff_exists'.1 hw
      have hcl : s.closed = false := by
        cases hc : s.closed with
        | false => rfl
        | true => exact absurd (h.closed hc).2 hw
      split
      · rename_i hne
        refine ⟨?_, fun h0 => ?_, ?_⟩
        · have := log_add h.log (.closed w)
          simp only [St.sys, hw']
          rw [this]
          cases hr : s.rfd with
          | none => simp [own, hw', opened]
          | some r =>
            have hrw : ¬ r = w := fun e => hne (by rw [hr, hw', e])
            have hwr : ¬ w = r := fun e => hrw e.symm
            simp [own, hw', opened, hrw, hwr]
        · simp [St.sys, hw', hcl] at h0
        · intro d m; simp only [St.sys, hw']; exact h.cb d m
      · rename_i hne
        have hrw : s.rfd = some w := by
          by_cases he : s.rfd = s.wfd
          · rw [he, hw']
          · exact absurd he hne
        refine ⟨?_, fun h0 => ?_, ?_⟩
        · have := log_add h.log (.shutW w)
          simp only [St.sys, hw']
          rw [this]
          simp [own, hw', hrw, opened]
        · simp [St.sys, hw', hcl] at h0
        · intro d m; simp only [St.sys, hw']; exact h.cb d m
  · exact h

theorem autoR_ok {s : St} (h : Inv s) : Inv s.autoR := by
  unfold St.autoR
  split
  · dsimp only
    cases hr : s.rfd with
    | none =>
      have h1 := h.log
      have h2 := h.closed
      refine ⟨?_, ?_, ?_⟩
      · split <;> (simp only [St.sys]; rw [h1, hr])
      · split <;> (simp only [St.sys]; intro h0; simpa using (h2 h0).2)
      · intro d m; split <;> (simp only [St.sys]; exact h.cb d m)
    | some r =>
      have hcl : s.closed = false := by
        cases hc : s.closed with
        | false => rfl
        | true => have := (h.closed hc).1; rw [hr] at this; cases this
      split
      · rename_i hne
        refine ⟨?_, fun h0 => ?_, ?_⟩
        · have := log_add h.log (.closed r)
          simp only [St.sys]
          rw [this, hr]
          cases hw : s.wfd with
          | none => simp [own, opened]
          | some w =>
            have hwr : ¬ w = r := fun e => hne (by rw [hw, e])
            simp [own, opened, hwr]
        · simp [St.sys, hcl] at h0
        · intro d m; simp only [St.sys]; exact h.cb d m
      · rename_i hne
        have hw : s.wfd = some r := by
          by_cases he : some r = s.wfd
          · exact he.symm
          · exact absurd he hne
        refine ⟨?_, fun h0 => ?_, ?_⟩
        · have := log_add h.log (.shutR r)
          simp only [St.sys]
          rw [this, hr]
          simp [own, hw, opened]
        · simp [St.sys, hcl] at h0
        · intro d m; simp only [St.sys]; exact h.cb d m
  · exact h

theorem mem_r {s : St} {d : Nat} (h : s.rfd = some d) : d ∈ own s.rfd s.wfd := by simp [own, h]
theorem mem_w {s : St} {d : Nat} (h : s.wfd = some d) : d ∈ own s.rfd s.wfd := by
  by_cases he : s.wfd = s.rfd
  · rw [h] at he; simp [own, ← he]
  · simp only [own, if_neg he]; rw [h]; simp

/-- Changes that have nothing to do with descriptors. -/
theorem Inv.congr {s t : St} (h : Inv s) (h1 : t.log = s.log) (h2 : t.rfd = s.rfd) (h3 : t.wfd = s.wfd) (h4 : t.closed = s.closed) (h5 : t.closecb = s.closecb) : Inv t :=
  ⟨by rw [h1, h2, h3]; exact h.log, by rw [h2, h3, h4]; exact h.closed, by rw [h5]; exact h.cb⟩

theorem Inv.use {s t : St} (h : Inv s) {e : Ev} (he : opened [e] (own s.rfd s.wfd) = some (own s.rfd s.wfd)) (h1 : t.log = s.log ++ [e]) (h2 : t.rfd = s.rfd) (h3 : t.wfd = s.wfd)
    (h4 : t.closed = s.closed) (h5 : t.closecb = s.closecb) : Inv t :=
  ⟨by rw [h1, h2, h3, log_add h.log, he], by rw [h2, h3, h4]; exact h.closed, by rw [h5]; exact h.cb⟩

theorem exec_ok (dev : Nat → Ans) : ∀ (f : Nat) (c : Call) (s : St) (r : Res), Inv s → exec dev f c s = some r → Inv r.1
  | 0, c, s, r, _, h => by simp [exec] at h
  | f + 1, c, s, r, hs, h => by
    cases c with
    | close =>
      simp only [exec] at h
      split at h
      · simp only [Option.some.injEq] at h; subst h; exact hs
      · simp only [Option.map_eq_some_iff] at h
        obtain ⟨q, hq, rfl⟩ := h
        have hq' := exec_ok dev f _ _ _ hs hq
        obtain ⟨h1, h2, h3⟩ := callback_ok (s := { q.1 with closed := true }) hq'.log hq'.cb
        obtain ⟨k1, k2, k3, k4, k5⟩ := closeFds_log h1
        exact ⟨by rw [k1, k2, k3]; rfl, fun _ => ⟨k2, k3⟩, fun d m => by rw [k5, h3]; simp⟩
    | seterr e =>
      simp only [exec] at h
      split at h
      · simp only [Option.some.injEq] at h; subst h; exact hs
      · exact exec_ok dev f .close { s with err := e } _ (hs.congr rfl rfl rfl rfl rfl) h
    | flush w =>
      simp only [exec] at h
      split at h
      · simp only [Option.some.injEq] at h; subst h; exact hs
      · simp only [Option.map_eq_some_iff] at h
        obtain ⟨q, hq, rfl⟩ := h
        have hq' := exec_ok dev f (.flushOut w) { s with flushing := true } q (hs.congr rfl rfl rfl rfl rfl) hq
        exact hq'.congr rfl rfl rfl rfl rfl
    | flushOut w =>
      simp only [exec] at h
      split at h
      · exact exec_ok dev f _ _ _ hs h
      · exact exec_ok dev f _ _ _ hs h
    | loop w =>
      simp only [exec] at h
      split at h
      · exact exec_ok dev f _ _ _ hs h
      · simp only [Option.bind_eq_some_iff] at h
        obtain ⟨q, hq, h⟩ := h
        have hq' := exec_ok dev f (.uwrite s.outbuf) { s with outbuf := [] } q (hs.congr rfl rfl rfl rfl rfl) hq
        have ht : Inv (if (q.1.isok && decide (q.2.1 < s.outbuf.length)) = true then { q.1 with outbuf := s.outbuf.drop q.2.1 ++ q.1.outbuf } else q.1) := by
          split
          · exact hq'.congr rfl rfl rfl rfl rfl
          · exact hq'
        generalize (if (q.1.isok && decide (q.2.1 < s.outbuf.length)) = true then { q.1 with outbuf := s.outbuf.drop q.2.1 ++ q.1.outbuf } else q.1) = t at ht h
        split at h
        · exact exec_ok dev f _ _ _ ht h
        · split at h
          · exact exec_ok dev f (.after true) { t with tick := t.tick + 1 } _ (ht.congr rfl rfl rfl rfl rfl) h
          · split at h
            · exact exec_ok dev f (.after false) { t with tick := t.tick + 1 } _ (ht.congr rfl rfl rfl rfl rfl) h
            · exact exec_ok dev f (.loop w) { t with tick := t.tick + 1 } _ (ht.congr rfl rfl rfl rfl rfl) h
    | after used =>
      simp only [exec] at h
      refine exec_ok dev f _ _ _ ?_ h
      split
      · exact hs.congr rfl rfl rfl rfl rfl
      · exact hs
    | auto =>
      simp only [exec] at h
      have hw := autoW_ok hs
      split at h
      · simp only [Option.some.injEq] at h; subst h; exact hw
      · have hr := autoR_ok hw
        split at h
        · exact exec_ok dev f _ _ _ hr h
        · simp only [Option.some.injEq] at h; subst h; exact hr
    | uwrite b =>
      simp only [exec] at h
      split at h
      · simp only [Option.some.injEq] at h; subst h; exact hs
      · split at h
        · simp only [Option.map_eq_some_iff] at h
          obtain ⟨q, hq, rfl⟩ := h
          exact exec_ok dev f (.seterr 9) { s with tick := s.tick + 1 } q (hs.congr rfl rfl rfl rfl rfl) hq
        · rename_i d hd
          have hu : ∀ x, opened [Ev.wrote d x] (own s.rfd s.wfd) = some (own s.rfd s.wfd) := fun x => by simp [opened, mem_w hd]
          split at h
          · simp only [Option.some.injEq] at h; subst h
            exact hs.use (hu _) rfl rfl rfl rfl rfl
          · split at h
            · simp only [Option.some.injEq] at h; subst h
              exact hs.use (hu _) rfl rfl rfl rfl rfl
            · rename_i e he
              simp only [Option.map_eq_some_iff] at h
              obtain ⟨q, hq, rfl⟩ := h
              exact exec_ok dev f (.seterr e) { s with tick := s.tick + 1, log := s.log ++ [.wrote d []] } q (hs.use (hu _) rfl rfl rfl rfl rfl) hq
    | uread n =>
      simp only [exec] at h
      split at h
      · simp only [Option.some.injEq] at h; subst h; exact hs
      · split at h
        · simp only [Option.map_eq_some_iff] at h
          obtain ⟨q, hq, rfl⟩ := h
          exact exec_ok dev f (.seterr 9) { s with tick := s.tick + 1 } q (hs.congr rfl rfl rfl rfl rfl) hq
        · rename_i d hd
          have hu : ∀ x, opened [Ev.got d x] (own s.rfd s.wfd) = some (own s.rfd s.wfd) := fun x => by simp [opened, mem_r hd]
          split at h
          · simp only [Option.some.injEq] at h; subst h
            exact hs.use (hu _) rfl rfl rfl rfl rfl
          · split at h
            · simp only [Option.some.injEq] at h; subst h
              exact hs.use (hu _) rfl rfl rfl rfl rfl
            · rename_i e he
              simp only [Option.map_eq_some_iff] at h
              obtain ⟨q, hq, rfl⟩ := h
              exact exec_ok dev f (.seterr e) { s with tick := s.tick + 1, log := s.log ++ [.got d []] } q (hs.use (hu _) rfl rfl rfl rfl rfl) hq

/-- A stream that was closed has no descriptors. -/
theorem close_none {dev : Nat → Ans} {f : Nat} {s : St} {r : Res} (hs : Inv s) (h : exec dev f .close s = some r) : r.1.rfd = none ∧ r.1.wfd = none := by
  cases f with
  | zero => simp [exec] at h
  | succ f =>
    simp only [exec] at h
    split at h
    · rename_i hc
      simp only [Option.some.injEq] at h; subst h; exact hs.closed hc
    · simp only [Option.map_eq_some_iff] at h
      obtain ⟨q, _, rfl⟩ := h
      exact ⟨rfl, rfl⟩

theorem mode_eq (s : St) (m : Nat) : (s.mode m).log = s.log ∧ (s.mode m).rfd = s.rfd ∧ (s.mode m).wfd = s.wfd ∧ (s.mode m).closed = s.closed ∧ (s.mode m).closecb = s.closecb := by
  unfold St.mode
  dsimp only
  split <;> exact ⟨rfl, rfl, rfl, rfl, rfl⟩

theorem Inv.mode {s : St} (h : Inv s) (m : Nat) : Inv (s.mode m) := by
  obtain ⟨h1, h2, h3, h4, h5⟩ := mode_eq s m
  exact h.congr h1 h2 h3 h4 h5

theorem Inv.setfd {s t : St} (h : Inv s) (hn : s.rfd = none ∧ s.wfd = none) {d : Nat} (h1 : t.log = s.log ++ [.took d]) (h2 : t.rfd = some d) (h3 : t.wfd = some d) (h4 : t.closed = false)
    (h5 : t.closecb = s.closecb) : Inv t := by
  refine ⟨?_, by rw [h4]; simp, by rw [h5]; exact h.cb⟩
  rw [h1, log_add h.log, h2, h3, hn.1, hn.2]
  simp [own, opened]

/-- The close callback that is set does not open another file. -/
def fine : Op → Prop
  | .onclose (some (.reopen _ _)) => False
  | _ => True

theorem step_ok {dev : Nat → Ans} {f : Nat} {s : St} (hs : Inv s) {o : Op} (ho : fine o) {r : St × List Byte} (h : s.step dev f o = some r) : Inv r.1 := by
  cases o with
  | write b =>
    simp only [St.step] at h
    split at h
    · simp only [Option.some.injEq] at h; subst h; exact hs
    · simp only [Option.bind_eq_some_iff, Option.map_eq_some_iff] at h
      obtain ⟨q, hq, p, hp, rfl⟩ := h
      have hq' : Inv q.1 := by
        split at hq
        · exact exec_ok dev f _ _ _ hs hq
        · simp only [Option.some.injEq] at hq; subst hq; exact hs
      exact exec_ok dev f (.flush false) { q.1 with outbuf := q.1.outbuf ++ b.drop q.2.1 } p (hq'.congr rfl rfl rfl rfl rfl) hp
  | read n =>
    simp only [St.step] at h
    split at h
    · simp only [Option.bind_eq_some_iff, Option.map_eq_some_iff] at h
      obtain ⟨q, hq, p, hp, rfl⟩ := h
      exact exec_ok dev f _ _ _ (exec_ok dev f _ _ _ hs hq) hp
    · simp only [Option.map_eq_some_iff] at h
      obtain ⟨q, hq, rfl⟩ := h
      exact exec_ok dev f .auto { s with inbuf := s.inbuf.drop n } q (hs.congr rfl rfl rfl rfl rfl) hq
  | unread b =>
    simp only [St.step, Option.some.injEq] at h; subst h; exact hs.congr rfl rfl rfl rfl rfl
  | flush w =>
    simp only [St.step, Option.map_eq_some_iff] at h
    obtain ⟨q, hq, rfl⟩ := h
    exact exec_ok dev f _ _ _ hs hq
  | close =>
    simp only [St.step, Option.map_eq_some_iff] at h
    obtain ⟨q, hq, rfl⟩ := h
    exact exec_ok dev f _ _ _ hs hq
  | noread =>
    simp only [St.step, Option.map_eq_some_iff] at h
    obtain ⟨q, hq, rfl⟩ := h
    exact exec_ok dev f .auto { s with stopR := true } q (hs.congr rfl rfl rfl rfl rfl) hq
  | nowrite =>
    simp only [St.step, Option.map_eq_some_iff] at h
    obtain ⟨q, hq, rfl⟩ := h
    exact exec_ok dev f .auto { s with stopW := true } q (hs.congr rfl rfl rfl rfl rfl) hq
  | seterr e =>
    simp only [St.step, Option.map_eq_some_iff] at h
    obtain ⟨q, hq, rfl⟩ := h
    exact exec_ok dev f _ _ _ hs hq
  | auto =>
    simp only [St.step, Option.map_eq_some_iff] at h
    obtain ⟨q, hq, rfl⟩ := h
    exact exec_ok dev f _ _ _ hs hq
  | onclose c =>
    simp only [St.step] at h
    have hc : ∀ d m, c ≠ some (.reopen d m) := by
      intro d m e
      subst e
      exact ho
    split at h
    · simp only [Option.some.injEq] at h; subst h
      exact ⟨hs.log, hs.closed, hc⟩
    · split at h
      · simp only [Option.some.injEq] at h; subst h
        exact ⟨hs.log, hs.closed, fun d m => by simp⟩
      · simp only [Option.some.injEq] at h; subst h
        exact ⟨by simp only [log_add hs.log]; rfl, hs.closed, fun d m => by simp⟩
      · exact absurd rfl (hc _ _)
  | force a b =>
    simp only [St.step, Option.some.injEq] at h; subst h; exact hs.congr rfl rfl rfl rfl rfl
  | opens d mode =>
    simp only [St.step, Option.map_eq_some_iff] at h
    obtain ⟨q, hq, rfl⟩ := h
    have h0 : Inv { s with err := 0 } := hs.congr rfl rfl rfl rfl rfl
    exact (exec_ok dev f _ _ _ (h0.mode mode) hq).setfd (close_none (h0.mode mode) hq) rfl rfl rfl rfl rfl
  | openFails e mode =>
    simp only [St.step, Option.bind_eq_some_iff, Option.map_eq_some_iff] at h
    obtain ⟨q, hq, p, hp, rfl⟩ := h
    have h0 : Inv { s with err := 0 } := hs.congr rfl rfl rfl rfl rfl
    exact exec_ok dev f _ _ _ (exec_ok dev f _ _ _ (h0.mode mode) hq) hp

theorem run_ok {dev : Nat → Ans} {f : Nat} : ∀ (os : List Op) {s : St}, Inv s → (∀ o ∈ os, fine o) → ∀ {r : St × List Byte}, St.run dev f os s = some r → Inv r.1
  | [], s, hs, _, r, h => by simp only [St.run, Option.some.injEq] at h; subst h; exact hs
  | o :: os, s, hs, ho, r, h => by
    simp only [St.run, Option.bind_eq_some_iff, Option.map_eq_some_iff] at h
    obtain ⟨q, hq, p, hp, rfl⟩ := h
    exact run_ok (r := p) os (step_ok hs (ho o (by simp)) hq) (fun o' h' => ho o' (by simp [h'])) hp

theorem callback_same {s : St} (hc : ∀ d m, s.closecb ≠ some (.reopen d m)) :
    s.callback.err = s.err ∧ s.callback.outbuf = s.outbuf ∧ s.callback.inbuf = s.inbuf ∧ s.callback.closed = s.closed := by
  unfold St.callback
  cases hcb : s.closecb with
  | none => exact ⟨rfl, rfl, rfl, rfl⟩
  | some c =>
    cases c with
    | nothing => exact ⟨rfl, rfl, rfl, rfl⟩
    | reopen d m => exact absurd hcb (hc d m)

theorem sys_same (s : St) (d : Option Nat) (e : Nat → Ev) : (s.sys d e).err = s.err ∧ (s.sys d e).outbuf = s.outbuf ∧ (s.sys d e).inbuf = s.inbuf ∧ (s.sys d e).closed = s.closed := by
  unfold St.sys; split <;> exact ⟨rfl, rfl, rfl, rfl⟩

theorem closeFds_same (s : St) : s.closeFds.err = s.err ∧ s.closeFds.outbuf = s.outbuf ∧ s.closeFds.inbuf = s.inbuf ∧ s.closeFds.closed = s.closed := by
  unfold St.closeFds St.sys
  dsimp only
  cases s.rfd <;> cases s.wfd <;> dsimp only <;> first | exact ⟨rfl, rfl, rfl, rfl⟩ | (split <;> exact ⟨rfl, rfl, rfl, rfl⟩)

theorem autoW_same (s : St) : s.autoW.1.err = s.err ∧ s.autoW.1.outbuf = s.outbuf ∧ s.autoW.1.inbuf = s.inbuf ∧ s.autoW.1.stopR = s.stopR ∧ s.autoW.1.stopW = s.stopW := by
  unfold St.autoW St.sys
  split
  · dsimp only
    split
    · exact ⟨rfl, rfl, rfl, rfl, rfl⟩
    · dsimp only
      split <;> split <;> exact ⟨rfl, rfl, rfl, rfl, rfl⟩
  · exact ⟨rfl, rfl, rfl, rfl, rfl⟩

theorem autoR_same (s : St) : s.autoR.err = s.err ∧ s.autoR.outbuf = s.outbuf ∧ s.autoR.inbuf = s.inbuf ∧ s.autoR.stopR = s.stopR ∧ s.autoR.stopW = s.stopW := by
  unfold St.autoR St.sys
  split
  · dsimp only
    split <;> split <;> exact ⟨rfl, rfl, rfl, rfl, rfl⟩
  · exact ⟨rfl, rfl, rfl, rfl, rfl⟩

/-- The calls that closing makes when there is nothing to write. -/
def quiet : Call → Bool
  | .close | .flush _ | .flushOut _ | .auto => true
  | _ => false

theorem quiet_ok (dev : Nat → Ans) : ∀ (f : Nat) (c : Call) (s : St) (r : Res), quiet c = true → Inv s → s.outbuf = [] → exec dev f c s = some r →
    r.1.err = s.err ∧ r.1.outbuf = [] ∧ r.1.inbuf = s.inbuf
  | 0, c, s, r, _, _, _, h => by simp [exec] at h
  | f + 1, c, s, r, hq, hs, ho, h => by
    cases c with
    | close =>
      simp only [exec] at h
      split at h
      · simp only [Option.some.injEq] at h; subst h; exact ⟨rfl, ho, rfl⟩
      · simp only [Option.map_eq_some_iff] at h
        obtain ⟨q, hq, rfl⟩ := h
        have hi := exec_ok dev f _ _ _ hs hq
        obtain ⟨h1, h2, h3⟩ := quiet_ok dev f (.flush true) s q rfl hs ho hq
        obtain ⟨k1, k2, k3, _⟩ := closeFds_same ({ q.1 with closed := true } : St).callback
        obtain ⟨l1, l2, l3, _⟩ := callback_same (s := { q.1 with closed := true }) hi.cb
        exact ⟨by rw [k1, l1]; exact h1, by rw [k2, l2]; exact h2, by rw [k3, l3]; exact h3⟩
    | flush w =>
      simp only [exec] at h
      split at h
      · simp only [Option.some.injEq] at h; subst h; exact ⟨rfl, ho, rfl⟩
      · simp only [Option.map_eq_some_iff] at h
        obtain ⟨q, hq, rfl⟩ := h
        exact quiet_ok dev f (.flushOut w) { s with flushing := true } q rfl (hs.congr rfl rfl rfl rfl rfl) ho hq
    | flushOut w =>
      simp only [exec, ho, List.isEmpty_nil, if_true] at h
      exact quiet_ok dev f .auto s r rfl hs ho h
    | auto =>
      simp only [exec] at h
      have hw := autoW_ok hs
      obtain ⟨a1, a2, a3, _⟩ := autoW_same s
      split at h
      · simp only [Option.some.injEq] at h; subst h; exact ⟨a1, by rw [a2, ho], a3⟩
      · have hr := autoR_ok hw
        obtain ⟨b1, b2, b3, _⟩ := autoR_same s.autoW.1
        split at h
        · obtain ⟨c1, c2, c3⟩ := quiet_ok dev f .close _ r rfl hr (by rw [b2, a2, ho]) h
          exact ⟨by rw [c1, b1, a1], c2, by rw [c3, b3, a3]⟩
        · simp only [Option.some.injEq] at h; subst h; exact ⟨by rw [b1, a1], by rw [b2, a2, ho], by rw [b3, a3]⟩
    | seterr e => cases hq
    | loop w => cases hq
    | after u => cases hq
    | uwrite b => cases hq
    | uread n => cases hq

theorem close_closed {dev : Nat → Ans} {f : Nat} {s : St} {r : Res} (hs : Inv s) (h : exec dev f .close s = some r) : r.1.closed = true := by
  cases f with
  | zero => simp [exec] at h
  | succ f =>
    simp only [exec] at h
    split at h
    · rename_i hc
      simp only [Option.some.injEq] at h; subst h; exact hc
    · simp only [Option.map_eq_some_iff] at h
      obtain ⟨q, hq, rfl⟩ := h
      have hi := exec_ok dev f _ _ _ hs hq
      rw [(closeFds_same _).2.2.2, (callback_same (s := { q.1 with closed := true }) hi.cb).2.2.2]

/-- What has to do with the mode of a file. -/
def keep (s : St) : Bool × Bool × Bool × Bool := (s.readable, s.writable, s.readcb, s.writecb)

theorem keep_sys (s : St) (d : Option Nat) (e : Nat → Ev) : keep (s.sys d e) = keep s := by unfold St.sys; split <;> rfl

theorem keep_closeFds (s : St) : keep s.closeFds = keep s := by
  unfold St.closeFds
  dsimp only
  split
  · show keep ((s.sys s.rfd .closed).sys s.wfd .closed) = _; rw [keep_sys, keep_sys]
  · show keep (s.sys s.rfd .closed) = _; rw [keep_sys]

theorem keep_callback {s : St} (hc : ∀ d m, s.closecb ≠ some (.reopen d m)) : keep s.callback = keep s := by
  unfold St.callback
  cases hcb : s.closecb with
  | none => rfl
  | some c =>
    cases c with
    | nothing => rfl
    | reopen d m => exact absurd hcb (hc d m)

theorem keep_autoW (s : St) : keep s.autoW.1 = keep s := by
  unfold St.autoW St.sys
  split
  · dsimp only
    split
    · rfl
    · dsimp only
      split <;> split <;> rfl
  · rfl

theorem keep_autoR (s : St) : keep s.autoR = keep s := by
  unfold St.autoR St.sys
  split
  · dsimp only
    split <;> split <;> rfl
  · rfl

theorem exec_keep (dev : Nat → Ans) : ∀ (f : Nat) (c : Call) (s : St) (r : Res), Inv s → exec dev f c s = some r → keep r.1 = keep s
  | 0, c, s, r, _, h => by simp [exec] at h
  | f + 1, c, s, r, hs, h => by
    cases c with
    | close =>
      simp only [exec] at h
      split at h
      · simp only [Option.some.injEq] at h; subst h; rfl
      · simp only [Option.map_eq_some_iff] at h
        obtain ⟨q, hq, rfl⟩ := h
        have hq' := exec_ok dev f _ _ _ hs hq
        have hk := exec_keep dev f _ _ _ hs hq
        rw [keep_closeFds, keep_callback (s := { q.1 with closed := true }) hq'.cb]
        exact hk
    | seterr e =>
      simp only [exec] at h
      split at h
      · simp only [Option.some.injEq] at h; subst h; rfl
      · exact exec_keep dev f .close { s with err := e } _ (hs.congr rfl rfl rfl rfl rfl) h
    | flush w =>
      simp only [exec] at h
      split at h
      · simp only [Option.some.injEq] at h; subst h; rfl
      · simp only [Option.map_eq_some_iff] at h
        obtain ⟨q, hq, rfl⟩ := h
        exact exec_keep dev f (.flushOut w) { s with flushing := true } q (hs.congr rfl rfl rfl rfl rfl) hq
    | flushOut w =>
      simp only [exec] at h
      split at h
      · exact exec_keep dev f _ _ _ hs h
      · exact exec_keep dev f _ _ _ hs h
    | loop w =>
      simp only [exec] at h
      split at h
      · exact exec_keep dev f _ _ _ hs h
      · simp only [Option.bind_eq_some_iff] at h
        obtain ⟨q, hq, h⟩ := h
        have hq' := exec_ok dev f (.uwrite s.outbuf) { s with outbuf := [] } q (hs.congr rfl rfl rfl rfl rfl) hq
        have hk : keep q.1 = keep s := exec_keep dev f (.uwrite s.outbuf) { s with outbuf := [] } q (hs.congr rfl rfl rfl rfl rfl) hq
        have ht : Inv (if (q.1.isok && decide (q.2.1 < s.outbuf.length)) = true then { q.1 with outbuf := s.outbuf.drop q.2.1 ++ q.1.outbuf } else q.1) ∧
            keep (if (q.1.isok && decide (q.2.1 < s.outbuf.length)) = true then { q.1 with outbuf := s.outbuf.drop q.2.1 ++ q.1.outbuf } else q.1) = keep s := by
          split
          · exact ⟨hq'.congr rfl rfl rfl rfl rfl, hk⟩
          · exact ⟨hq', hk⟩
        generalize (if (q.1.isok && decide (q.2.1 < s.outbuf.length)) = true then { q.1 with outbuf := s.outbuf.drop q.2.1 ++ q.1.outbuf } else q.1) = t at ht h
        rw [← ht.2]
        split at h
        · exact exec_keep dev f _ _ _ ht.1 h
        · split at h
          · exact exec_keep dev f (.after true) { t with tick := t.tick + 1 } _ (ht.1.congr rfl rfl rfl rfl rfl) h
          · split at h
            · exact exec_keep dev f (.after false) { t with tick := t.tick + 1 } _ (ht.1.congr rfl rfl rfl rfl rfl) h
            · exact exec_keep dev f (.loop w) { t with tick := t.tick + 1 } _ (ht.1.congr rfl rfl rfl rfl rfl) h
    | after used =>
      simp only [exec] at h
      split at h
      · exact exec_keep dev f .auto { s with outbuf := [] } _ (hs.congr rfl rfl rfl rfl rfl) h
      · exact exec_keep dev f _ _ _ hs h
    | auto =>
      simp only [exec] at h
      have hw := autoW_ok hs
      split at h
      · simp only [Option.some.injEq] at h; subst h; exact keep_autoW s
      · have hr := autoR_ok hw
        split at h
        · rw [exec_keep dev f _ _ _ hr h, keep_autoR, keep_autoW]
        · simp only [Option.some.injEq] at h; subst h; rw [keep_autoR, keep_autoW]
    | uwrite b =>
      simp only [exec] at h
      split at h
      · simp only [Option.some.injEq] at h; subst h; rfl
      · split at h
        · simp only [Option.map_eq_some_iff] at h
          obtain ⟨q, hq, rfl⟩ := h
          exact exec_keep dev f (.seterr 9) { s with tick := s.tick + 1 } q (hs.congr rfl rfl rfl rfl rfl) hq
        · rename_i d hd
          have hu : ∀ x, opened [Ev.wrote d x] (own s.rfd s.wfd) = some (own s.rfd s.wfd) := fun x => by simp [opened, mem_w hd]
          split at h
          · simp only [Option.some.injEq] at h; subst h; rfl
          · split at h
            · simp only [Option.some.injEq] at h; subst h; rfl
            · rename_i e he
              simp only [Option.map_eq_some_iff] at h
              obtain ⟨q, hq, rfl⟩ := h
              exact exec_keep dev f (.seterr e) { s with tick := s.tick + 1, log := s.log ++ [.wrote d []] } q (hs.use (hu _) rfl rfl rfl rfl rfl) hq
    | uread n =>
      simp only [exec] at h
      split at h
      · simp only [Option.some.injEq] at h; subst h; rfl
      · split at h
        · simp only [Option.map_eq_some_iff] at h
          obtain ⟨q, hq, rfl⟩ := h
          exact exec_keep dev f (.seterr 9) { s with tick := s.tick + 1 } q (hs.congr rfl rfl rfl rfl rfl) hq
        · rename_i d hd
          have hu : ∀ x, opened [Ev.got d x] (own s.rfd s.wfd) = some (own s.rfd s.wfd) := fun x => by simp [opened, mem_r hd]
          split at h
          · simp only [Option.some.injEq] at h; subst h; rfl
          · split at h
            · simp only [Option.some.injEq] at h; subst h; rfl
            · rename_i e he
              simp only [Option.map_eq_some_iff] at h
              obtain ⟨q, hq, rfl⟩ := h
              exact exec_keep dev f (.seterr e) { s with tick := s.tick + 1, log := s.log ++ [.got d []] } q (hs.use (hu _) rfl rfl rfl rfl rfl) hq

theorem make_ok (a b : Option Nat) : Inv (make a b) := by
  refine ⟨?_, fun h => by simp [make] at h, fun d m => by simp [make]⟩
  cases a with
  | none =>
    cases b with
    | none => rfl
    | some b => simp [make, opened, own]
  | some a =>
    cases b with
    | none => simp [make, opened, own]
    | some b =>
      by_cases h : b = a
      · subst h; simp [make, opened, own]
      · simp [make, opened, own, h]

end FdP

/-- **C118** (close callbacks do not open files). Whatever is done with a stream of descriptors or a file, and whatever the system answers: no descriptor is used or closed that is not open, and those which are open are the ones
    that the stream has now. In particular none is closed twice, and none is forgotten. -/
theorem C118_open_partial (dev : Nat → Ans) (f : Nat) (a b : Option Nat) (os : List Op) (ho : ∀ o ∈ os, FdP.fine o) {r : St × List Byte}
    (h : St.run dev f os (make a b) = some r) :
    opened r.1.log [] = some (r.1.rfd.toList ++ if r.1.wfd = r.1.rfd then [] else r.1.wfd.toList) :=
  (FdP.run_ok os (FdP.make_ok a b) ho h).log

/-- **C118** (close callbacks do not open files). When the stream is closed, or destroyed - which closes it -, all descriptors that it ever had have been closed. -/
theorem C118_destroy_partial (dev : Nat → Ans) (f : Nat) (a b : Option Nat) (os : List Op) (ho : ∀ o ∈ os, FdP.fine o) {r r' : St × List Byte}
    (h : St.run dev f os (make a b) = some r) (h' : r.1.step dev f .close = some r') : opened r'.1.log [] = some [] := by
  have hi := FdP.run_ok os (FdP.make_ok a b) ho h
  have hl := (FdP.step_ok hi (o := .close) trivial h').log
  simp only [St.step, Option.map_eq_some_iff] at h'
  obtain ⟨q, hq, rfl⟩ := h'
  obtain ⟨h1, h2⟩ := FdP.close_none hi hq
  rw [hl]
  show some (FdP.own q.1.rfd q.1.wfd) = _
  rw [h1, h2]; rfl

/-- **C118** (close callbacks do not open files; nothing waits to be written). A file that is opened - whatever was done with the stream before - is open: it is ok, both directions work, and the descriptor is the new one. -/
theorem C118_reopen_partial (dev : Nat → Ans) (f : Nat) (a b : Option Nat) (os : List Op) (ho : ∀ o ∈ os, FdP.fine o) {r r' : St × List Byte}
    (h : St.run dev f os (make a b) = some r) (he : r.1.outbuf = []) (d mode : Nat) (h' : r.1.step dev f (.opens d mode) = some r') :
    r'.1.isok = true ∧ r'.1.rfd = some d ∧ r'.1.wfd = some d ∧ r'.1.stopR = false ∧ r'.1.stopW = false ∧ opened r'.1.log [] = some [d] := by
  have hi := FdP.run_ok os (FdP.make_ok a b) ho h
  have hl := (FdP.step_ok hi (o := .opens d mode) trivial h').log
  simp only [St.step, Option.map_eq_some_iff] at h'
  obtain ⟨q, hq, rfl⟩ := h'
  have h0 : FdP.Inv { r.1 with err := 0 } := hi.congr rfl rfl rfl rfl rfl
  have hm : (St.mode { r.1 with err := 0 } mode).outbuf = [] ∧ (St.mode { r.1 with err := 0 } mode).err = 0 := by
    unfold St.mode
    dsimp only
    split <;> exact ⟨he, rfl⟩
  have hq1 := (FdP.quiet_ok dev f .close _ q rfl (h0.mode mode) hm.1 hq).1
  rw [hm.2] at hq1
  refine ⟨?_, rfl, rfl, rfl, rfl, by rw [hl]; simp [FdP.own, St.setfd]⟩
  simp [St.isok, St.setfd, hq1]

/-- **C118**. A stream that both ends of are ended, and with nothing in its buffers, closes itself when it looks at that - unless it is the first look at the writing side and there is no descriptor for it. -/
theorem C118_ended_partial (dev : Nat → Ans) (f : Nat) (a b : Option Nat) (os : List Op) (ho : ∀ o ∈ os, FdP.fine o) {r r' : St × List Byte}
    (h : St.run dev f os (make a b) = some r) (h1 : r.1.stopR = true) (h2 : r.1.stopW = true) (h3 : r.1.outbuf = []) (h4 : r.1.inbuf = [])
    (hw : r.1.wfd ≠ none ∨ r.1.shutW = true) (h' : r.1.step dev f .auto = some r') : r'.1.closed = true := by
  have hi := FdP.run_ok os (FdP.make_ok a b) ho h
  simp only [St.step, Option.map_eq_some_iff] at h'
  obtain ⟨q, hq, rfl⟩ := h'
  cases f with
  | zero => simp [exec] at hq
  | succ f =>
    simp only [exec] at hq
    have hon : r.1.autoW.2 = true := by
      unfold St.autoW
      split
      · rename_i hc
        rcases hw with hw | hw
        · dsimp only; rw [if_neg hw]
        · simp [hw] at hc
      · rfl
    obtain ⟨_, a2, a3, a4, a5⟩ := FdP.autoW_same r.1
    obtain ⟨_, b2, b3, b4, b5⟩ := FdP.autoR_same r.1.autoW.1
    have hr := FdP.autoR_ok (FdP.autoW_ok hi)
    simp only [hon, Bool.not_true, Bool.false_eq_true, if_false, b2, b3, b4, b5, a2, a3, a4, a5, h1, h2, h3, h4, List.isEmpty_nil, Bool.true_and] at hq
    split at hq
    · exact FdP.close_closed hr hq
    · rename_i hc
      simp only [Option.some.injEq] at hq
      subst hq
      simpa using hc

namespace FdP

theorem autoW_closed (s : St) : s.autoW.1.closed = s.closed := by
  unfold St.autoW St.sys
  split
  · dsimp only
    split
    · rfl
    · dsimp only
      split <;> split <;> rfl
  · rfl

theorem autoR_closed (s : St) : s.autoR.closed = s.closed := by
  unfold St.autoR St.sys
  split
  · dsimp only
    split <;> split <;> rfl
  · rfl

end FdP

/-- **C118**. A stream with an end that is not ended, or with something in its buffers, is as closed as before when it looks at that; and it waits to be writable as long as there is something to write, whether or not anyone asks. -/
theorem C118_stays (dev : Nat → Ans) (f : Nat) (s : St) {r : St × List Byte}
    (h : s.stopR = false ∨ s.stopW = false ∨ s.outbuf ≠ [] ∨ s.inbuf ≠ []) (h' : s.step dev f .auto = some r) :
    r.1.closed = s.closed ∧ r.1.outbuf = s.outbuf ∧ r.1.inbuf = s.inbuf ∧ (s.outbuf ≠ [] → ∀ wantR wantW self, (s.preSelect wantR wantW self).2 = s.wfd) := by
  simp only [St.step, Option.map_eq_some_iff] at h'
  obtain ⟨q, hq, rfl⟩ := h'
  have hp : s.outbuf ≠ [] → ∀ wantR wantW self, (s.preSelect wantR wantW self).2 = s.wfd := by
    intro ho x y z
    simp [St.preSelect, ho]
  cases f with
  | zero => simp [exec] at hq
  | succ f =>
    simp only [exec] at hq
    obtain ⟨_, a2, a3, a4, a5⟩ := FdP.autoW_same s
    obtain ⟨_, b2, b3, b4, b5⟩ := FdP.autoR_same s.autoW.1
    split at hq
    · simp only [Option.some.injEq] at hq
      subst hq
      exact ⟨FdP.autoW_closed s, a2, a3, hp⟩
    · split at hq
      · rename_i hc
        simp only [b2, b3, b4, b5, a2, a3, a4, a5, Bool.and_eq_true, List.isEmpty_iff] at hc
        obtain ⟨⟨⟨⟨c1, c2⟩, c3⟩, c4⟩, _⟩ := hc
        rcases h with h | h | h | h
        · rw [h] at c1; cases c1
        · rw [h] at c2; cases c2
        · exact absurd c3 h
        · exact absurd c4 h
      · simp only [Option.some.injEq] at hq
        subst hq
        exact ⟨(FdP.autoR_closed _).trans (FdP.autoW_closed s), b2.trans a2, b3.trans a3, hp⟩

example : (St.run (fun _ => ⟨0, [], none, false⟩) 20 [.write [1, 2], .nowrite, .noread, .auto] (make (some 3) (some 3))).map (fun r => (r.1.closed, r.1.outbuf)) = some (false, [1, 2]) := by decide +kernel

/-- **C118** (close callbacks do not open files). A file that is opened is readable and writable as the mode says; if the mode is not for reading then the descriptor is not waited for to become readable, whoever asks; if it is not for
    writing then it is not waited for to become writable, unless there is a callback for that or something to be written. -/
theorem C118_modes_partial (dev : Nat → Ans) (f : Nat) (a b : Option Nat) (os : List Op) (ho : ∀ o ∈ os, FdP.fine o) {r r' : St × List Byte}
    (h : St.run dev f os (make a b) = some r) (d mode : Nat) (h' : r.1.step dev f (.opens d mode) = some r') :
    (r'.1.readable = true ↔ mayRead mode) ∧ (r'.1.writable = true ↔ mayWrite mode) ∧
    (¬ mayRead mode → ∀ wantR wantW self, (r'.1.preSelect wantR wantW self).1 = none) ∧
    (¬ mayWrite mode → r.1.writecb = false → r'.1.outbuf = [] → ∀ wantR wantW self, (r'.1.preSelect wantR wantW self).2 = none) ∧
    (mayRead mode → ∀ wantW self, (r'.1.preSelect true wantW self).1 = some d) ∧
    (mayWrite mode → ∀ wantR self, (r'.1.preSelect wantR true self).2 = some d) := by
  have hi := FdP.run_ok os (FdP.make_ok a b) ho h
  simp only [St.step, Option.map_eq_some_iff] at h'
  obtain ⟨q, hq, rfl⟩ := h'
  have h0 : FdP.Inv { r.1 with err := 0 } := hi.congr rfl rfl rfl rfl rfl
  have hk := FdP.exec_keep dev f _ _ _ (h0.mode mode) hq
  simp only [FdP.keep, Prod.mk.injEq] at hk
  obtain ⟨k1, k2, k3, k4⟩ := hk
  have hm1 : (St.mode { r.1 with err := 0 } mode).readable = (mode % 4 == 0 || mode % 4 == 2) := by unfold St.mode; dsimp only; split <;> rfl
  have hm2 : (St.mode { r.1 with err := 0 } mode).writable = (mode % 4 == 1 || mode % 4 == 2) := by unfold St.mode; dsimp only; split <;> rfl
  have hm3 : (St.mode { r.1 with err := 0 } mode).writecb = r.1.writecb := by unfold St.mode; dsimp only; split <;> rfl
  have hm4 : (mode % 4 == 0 || mode % 4 == 2) = false → (St.mode { r.1 with err := 0 } mode).readcb = false := by
    intro e; unfold St.mode; dsimp only; rw [if_neg (by rw [e]; simp)]
  have er : (q.1.setfd d).readable = (mode % 4 == 0 || mode % 4 == 2) := by rw [← hm1, ← k1]; rfl
  have ew : (q.1.setfd d).writable = (mode % 4 == 1 || mode % 4 == 2) := by rw [← hm2, ← k2]; rfl
  have ec : (q.1.setfd d).writecb = r.1.writecb := by rw [← hm3, ← k4]; rfl
  refine ⟨?_, ?_, ?_, ?_, ?_, ?_⟩
  · simp [er, mayRead]
  · simp [ew, mayWrite]
  · intro hn x y z
    have e : (mode % 4 == 0 || mode % 4 == 2) = false := by simpa [mayRead] using hn
    have ecr : (q.1.setfd d).readcb = false := by
      rw [← hm4 e, ← k3]; rfl
    simp [St.preSelect, er, e, ecr]
  · intro hn hc hout x y z
    have e : (mode % 4 == 1 || mode % 4 == 2) = false := by simpa [mayWrite] using hn
    have hout' : (q.1.setfd d).outbuf = [] := hout
    simp [St.preSelect, ew, e, ec, hc, hout']
  · intro hy y z
    have e : (mode % 4 == 0 || mode % 4 == 2) = true := by simpa [mayRead] using hy
    have e2 : q.1.readable = true := er.trans e
    simp [St.preSelect, e2, St.setfd]
  · intro hy y z
    have e : (mode % 4 == 1 || mode % 4 == 2) = true := by simpa [mayWrite] using hy
    have e2 : q.1.writable = true := ew.trans e
    simp [St.preSelect, e2, St.setfd]

namespace FdP

/-- A system that takes all, one that takes nothing, and one that fails. -/
def good : Nat → Ans := fun _ => ⟨100, [7], none, true⟩
def full : Nat → Ans := fun _ => ⟨0, [], none, false⟩
def broken : Nat → Ans := fun n => if n < 2 then ⟨0, [], none, false⟩ else ⟨0, [], some 5, true⟩

end FdP

/-- Writing, ending one way and then the other, and opening another file: the first descriptor is shut down one way, then closed. -/
example : (St.run FdP.good 20 [.write [1, 2], .onclose (some .nothing), .nowrite, .read 5, .noread, .opens 4 0, .read 5, .close] (make (some 3) (some 3))).map (fun r => (r.1.log, r.2)) =
    some ([.took 3, .wrote 3 [1, 2], .shutW 3, .got 3 [7], .closed 3, .callback, .took 4, .got 4 [7], .closed 4], [7, 7]) := by decide +kernel

/-- A stream of two descriptors, one of which fails. -/
example : (St.run FdP.broken 20 [.write [1, 2], .flush true, .opens 5 1] (make (some 3) (some 4))).map (fun r => (r.1.log, r.1.rfd, r.1.err)) =
    some ([.took 3, .took 4, .wrote 4 [], .wrote 4 [], .wrote 4 [], .closed 3, .closed 4, .took 5], some 5, 0) := by decide +kernel

/-- **C118, not so** with a close callback that opens another file: the new descriptor is closed at once, and the old one never. -/
theorem C118_open_fails : ∃ (os : List Op) (r : St × List Byte), St.run FdP.good 20 (os ++ [.close]) (make (some 3) (some 3)) = some r ∧
    r.1.rfd = none ∧ r.1.wfd = none ∧ opened r.1.log [] = some [3] :=
  ⟨[.onclose (some (.reopen 4 0))], _, rfl, by decide +kernel, by decide +kernel, by decide +kernel⟩

/-- **C118, not so** if something waits to be written and fails: the new file is opened and then not ok, because of the error of the old one. -/
theorem C118_reopen_fails : ∃ (os : List Op) (r : St × List Byte), St.run FdP.broken 20 (os ++ [.opens 4 2]) (make (some 3) (some 3)) = some r ∧
    r.1.isok = false ∧ r.1.err = 5 ∧ opened r.1.log [] = some [4] :=
  ⟨[.write [1]], _, rfl, by decide +kernel, by decide +kernel, by decide +kernel⟩

/-- **C118, not so**: what was written to a file goes to that file. If it cannot be written before the file is closed, it goes to the next file. -/
theorem C118_output_fails : ∃ (os os' : List Op) (dev : Nat → Ans) (r : St × List Byte),
    os = [.write [1, 2]] ∧ os' = [.opens 4 1, .flush false] ∧ St.run dev 20 (os ++ os') (make (some 3) (some 3)) = some r ∧ Ev.wrote 4 [1, 2] ∈ r.1.log :=
  ⟨_, _, fun n => if n < 4 then FdP.full n else FdP.good n, _, rfl, rfl, rfl, by decide +kernel⟩

/-- **C118, not so**: what is read from a file was in that file. What is left of another one in the buffer comes first. -/
theorem C118_input_fails : ∃ (os : List Op) (r : St × List Byte), St.run FdP.good 20 (.unread [1, 2] :: os) (make (some 3) (some 3)) = some r ∧
    os = [.opens 4 0, .read 10] ∧ r.2 = [1, 2] :=
  ⟨_, _, rfl, rfl, by decide +kernel⟩

/-- **C118, not so**: ending the writing side shuts down the descriptor. Not if that was done before, with another file. -/
theorem C118_nowrite_fails : ∃ r, St.run FdP.good 20 [.nowrite, .opens 4 2, .nowrite] (make (some 3) (some 3)) = some r ∧
    r.1.log = [.took 3, .shutW 3, .closed 3, .took 4] ∧ r.1.stopW = true ∧ r.1.wfd = some 4 :=
  ⟨_, rfl, by decide +kernel, by decide +kernel, by decide +kernel⟩

/-- **C118, not so**: a stream whose ends are both ended is closed, and its close callback called. Not if there is no descriptor for writing, and reading ends first. -/
theorem C118_ended_fails : ∃ r r', St.run FdP.good 20 [.onclose (some .nothing), .noread, .nowrite] (make (some 3) none) = some r ∧
    r.1.closed = false ∧ r.1.log = [.took 3, .closed 3] ∧
    St.run FdP.good 20 [.onclose (some .nothing), .nowrite, .noread] (make (some 3) none) = some r' ∧ r'.1.closed = true ∧ r'.1.log = [.took 3, .closed 3, .callback] :=
  ⟨_, _, rfl, by decide +kernel, by decide +kernel, rfl, by decide +kernel, by decide +kernel⟩

/-- **C118, not so**: "files not open for write are never writable". With a callback for writing, they are waited for, and so become writable. -/
theorem C118_modes_fails : ∃ r, St.run FdP.good 20 [.force false true, .opens 4 0] (make none none) = some r ∧ (r.1.preSelect false false true).2 = some 4 :=
  ⟨_, rfl, by decide +kernel⟩

/-- **C118, not so**: after a file was open for writing only, the stream does not wait for a file that is opened for reading. -/
theorem C118_callback_fails : ∃ r r', St.run FdP.good 20 [.opens 4 1, .opens 5 0] (make none none) = some r ∧ (r.1.preSelect false false true).1 = none ∧
    St.run FdP.good 20 [.opens 5 0] (make none none) = some r' ∧ (r'.1.preSelect false false true).1 = some 5 :=
  ⟨_, _, rfl, by decide +kernel, rfl, by decide +kernel⟩

end Props
