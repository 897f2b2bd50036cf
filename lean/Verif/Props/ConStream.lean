import Verif.Model.ConStream
/- C138: the console streams. -/
namespace Props
open Wv Wv.ConStream
open Wv.FdStream (Ans St Call)
open Spec.FdStream (Ev)
open Spec.ConStream (written Keeps)

namespace CnP

theorem keeps_snoc {l : List Ev} (h : Keeps l) (e : Ev) (he : Keeps [e]) : Keeps (l ++ [e]) := by
  intro d
  have h1 := h d
  have h2 := he d
  simp only [List.mem_append, not_or]
  exact ⟨⟨h1.1, h2.1⟩, ⟨h1.2.1, h2.2.1⟩, h1.2.2, h2.2.2⟩

theorem keeps_wrote (d : Nat) (b : List Byte) : Keeps [.wrote d b] := by intro x; simp
theorem keeps_got (d : Nat) (b : List Byte) : Keeps [.got d b] := by intro x; simp
theorem keeps_cb : Keeps [.callback] := by intro x; simp

/-- The descriptors are kept, and nobody asked to stop. -/
def Kept (c : Con) : Prop := Keeps c.fd.log ∧ c.fd.stopR = false ∧ c.fd.stopW = false

/-- What no call of the functions undoes: no descriptor, if it was so at the beginning. -/
def NoFd (c : Con) : Prop := c.isopen = false ∧ c.fd.rfd = none ∧ c.fd.wfd = none

/-- Only callbacks were called. -/
def Quiet (a b : St) : Prop := (∃ n, b.log = a.log ++ List.replicate n .callback) ∧ b.stopR = a.stopR ∧ b.stopW = a.stopW

theorem quiet_refl (a : St) : Quiet a a := ⟨⟨0, by simp⟩, rfl, rfl⟩

theorem quiet_trans {a b c : St} (h : Quiet a b) (h' : Quiet b c) : Quiet a c := by
  obtain ⟨⟨n, e⟩, e1, e2⟩ := h
  obtain ⟨⟨m, e'⟩, e1', e2'⟩ := h'
  refine ⟨⟨n + m, ?_⟩, e1'.trans e1, e2'.trans e2⟩
  rw [e', e, List.append_assoc, List.replicate_append_replicate]

theorem quiet_cb (s : St) : Quiet s (callback s) ∧ (callback s).rfd = s.rfd ∧ (callback s).wfd = s.wfd := by
  unfold callback
  cases s.closecb with
  | none => exact ⟨quiet_refl s, rfl, rfl⟩
  | some x => exact ⟨⟨⟨1, rfl⟩, rfl, rfl⟩, rfl, rfl⟩

theorem quiet_closeFds (s : St) (h1 : s.rfd = none) (h2 : s.wfd = none) : Quiet s s.closeFds ∧ s.closeFds.rfd = none ∧ s.closeFds.wfd = none := by
  refine ⟨?_, rfl, rfl⟩
  unfold St.closeFds
  simp only [h1, h2, St.sys]
  exact ⟨⟨0, by simp⟩, by simp, by simp⟩

theorem autoW_kept (s : St) (h : s.stopW = false) : s.autoW = (s, true) := by simp [St.autoW, h]
theorem autoR_kept (s : St) (h : s.stopR = false) : s.autoR = s := by simp [St.autoR, h]

theorem nofd (dev : Nat → Ans) (f : Nat) : ∀ (k : Call) (c : Con) (r : Con × Nat × List Byte), exec dev f k c = some r → NoFd c →
    NoFd r.1 ∧ Quiet c.fd r.1.fd ∧ r.2.2 = [] := by
  induction f with
  | zero => intro k c r h; cases h
  | succ f ih =>
    intro k c r h hn
    obtain ⟨h1, h2, h3⟩ := hn
    cases k with
    | close =>
      unfold exec at h
      dsimp only at h
      split at h
      · cases h; exact ⟨⟨rfl, rfl, rfl⟩, ⟨⟨0, by simp⟩, rfl, rfl⟩, rfl⟩
      · cases hx : exec dev f (.flush true) ⟨{ c.fd with rfd := none, wfd := none }, false⟩ with
        | none => rw [hx] at h; cases h
        | some q =>
          rw [hx] at h
          obtain ⟨⟨a1, a2, a3⟩, a4, a5⟩ := ih _ _ q hx ⟨rfl, rfl, rfl⟩
          obtain ⟨c1, c2, c3⟩ := quiet_cb { q.1.fd with closed := true }
          obtain ⟨d1, d2, d3⟩ := quiet_closeFds _ (c2.trans a2) (c3.trans a3)
          cases h
          exact ⟨⟨a1, d2, d3⟩, quiet_trans a4 (quiet_trans c1 d1), rfl⟩
    | seterr e =>
      unfold exec at h
      split at h
      · cases h; exact ⟨⟨h1, h2, h3⟩, quiet_refl _, rfl⟩
      · exact (have := ih _ _ r h ⟨h1, h2, h3⟩; this)
    | flush w =>
      unfold exec at h
      split at h
      · cases h; exact ⟨⟨h1, h2, h3⟩, quiet_refl _, rfl⟩
      · cases hx : exec dev f (.flushOut w) ⟨{ c.fd with flushing := true }, c.isopen⟩ with
        | none => rw [hx] at h; cases h
        | some q =>
          rw [hx] at h; cases h
          obtain ⟨a1, a4, a5⟩ := ih _ _ q hx ⟨h1, h2, h3⟩
          exact ⟨a1, a4, rfl⟩
    | flushOut w =>
      unfold exec at h
      split at h <;> exact (have := ih _ _ r h ⟨h1, h2, h3⟩; this)
    | loop w =>
      unfold exec at h
      rw [h1] at h
      exact (have := ih _ _ r h ⟨h1, h2, h3⟩; this)
    | after u =>
      unfold exec at h
      split at h
      · exact (have := ih _ _ r h ⟨h1, h2, h3⟩; this)
      · exact (have := ih _ _ r h ⟨h1, h2, h3⟩; this)
    | auto =>
      unfold exec at h
      dsimp only at h
      have hW : c.fd.autoW.1.rfd = none ∧ c.fd.autoW.1.wfd = none ∧ Quiet c.fd c.fd.autoW.1 := by
        unfold St.autoW
        split
        · exact ⟨h2, h3, ⟨⟨0, by simp⟩, rfl, rfl⟩⟩
        · exact ⟨h2, h3, quiet_refl _⟩
      have hR : ∀ s : St, s.rfd = none → s.wfd = none → s.autoR.rfd = none ∧ s.autoR.wfd = none ∧ Quiet s s.autoR := by
        intro s e1 e2
        unfold St.autoR
        split
        · simp only [St.sys, e1, e2, ne_eq]
          exact ⟨by simp, by simp [e2], ⟨⟨0, by simp⟩, by simp, by simp⟩⟩
        · exact ⟨e1, e2, quiet_refl _⟩
      obtain ⟨b1, b2, b3⟩ := hR _ hW.1 hW.2.1
      split at h
      · cases h; exact ⟨⟨h1, hW.1, hW.2.1⟩, hW.2.2, rfl⟩
      · split at h
        · obtain ⟨a1, a4, a5⟩ := ih _ _ r h ⟨h1, b1, b2⟩
          exact ⟨a1, quiet_trans hW.2.2 (quiet_trans b3 a4), a5⟩
        · cases h; exact ⟨⟨h1, b1, b2⟩, quiet_trans hW.2.2 b3, rfl⟩
    | uwrite b =>
      unfold exec at h
      rw [h1] at h
      simp at h
      cases h; exact ⟨⟨h1, h2, h3⟩, quiet_refl _, rfl⟩
    | uread n =>
      unfold exec at h
      rw [h1] at h
      simp at h
      cases h; exact ⟨⟨h1, h2, h3⟩, quiet_refl _, rfl⟩

/-- Closing, from any state. -/
theorem close_quiet (dev : Nat → Ans) (f : Nat) (c : Con) (r : Con × Nat × List Byte) (h : exec dev f .close c = some r) :
    NoFd r.1 ∧ Quiet c.fd r.1.fd ∧ r.2.2 = [] := by
  cases f with
  | zero => cases h
  | succ f =>
    have : exec dev (f + 1) .close ⟨{ c.fd with rfd := none, wfd := none }, false⟩ = some r := by
      unfold exec at h ⊢; exact h
    obtain ⟨a, b, d⟩ := nofd dev (f + 1) .close ⟨{ c.fd with rfd := none, wfd := none }, false⟩ r this ⟨rfl, rfl, rfl⟩
    exact ⟨a, b, d⟩

theorem seterr_quiet (dev : Nat → Ans) (f : Nat) (c : Con) (e : Nat) (r : Con × Nat × List Byte) (h : exec dev f (.seterr e) c = some r) :
    (r.1 = c ∨ NoFd r.1) ∧ Quiet c.fd r.1.fd := by
  cases f with
  | zero => cases h
  | succ f =>
    unfold exec at h
    split at h
    · cases h; exact ⟨.inl rfl, quiet_refl _⟩
    · obtain ⟨a, b, _⟩ := close_quiet dev f _ r h
      exact ⟨.inr a, b⟩

theorem keeps_quiet {a b : St} (h : Keeps a.log) (q : Quiet a b) : Keeps b.log := by
  obtain ⟨⟨n, e⟩, _, _⟩ := q
  intro d
  have := h d
  rw [e]
  simp only [List.mem_append, not_or, List.mem_replicate]
  exact ⟨⟨this.1, by simp⟩, ⟨this.2.1, by simp⟩, this.2.2, by simp⟩

theorem kept_quiet {a b : Con} (h : Kept a) (q : Quiet a.fd b.fd) : Kept b := ⟨keeps_quiet h.1 q, q.2.1.trans h.2.1, q.2.2.trans h.2.2⟩

theorem kept (dev : Nat → Ans) (f : Nat) : ∀ (k : Call) (c : Con) (r : Con × Nat × List Byte), exec dev f k c = some r → Kept c → Kept r.1 := by
  induction f with
  | zero => intro k c r h; cases h
  | succ f ih =>
    intro k c r h hk
    cases k with
    | close => exact kept_quiet hk (close_quiet dev (f + 1) c r h).2.1
    | seterr e => exact kept_quiet hk (seterr_quiet dev (f + 1) c e r h).2
    | flush w =>
      unfold exec at h
      split at h
      · cases h; exact hk
      · cases hx : exec dev f (.flushOut w) ⟨{ c.fd with flushing := true }, c.isopen⟩ with
        | none => rw [hx] at h; cases h
        | some q => rw [hx] at h; cases h; exact ih _ _ q hx hk
    | flushOut w =>
      unfold exec at h
      split at h <;> exact ih _ _ r h hk
    | loop w =>
      unfold exec at h
      split at h
      · exact ih _ _ r h hk
      · cases hx : exec dev f (.uwrite c.fd.outbuf) ⟨{ c.fd with outbuf := [] }, c.isopen⟩ with
        | none => rw [hx] at h; cases h
        | some q =>
          rw [hx, Option.bind_some] at h
          have hq : Kept q.1 := ih _ _ q hx hk
          have ht : Kept ⟨putBack q.1 c.fd.outbuf q.2.1, q.1.isopen⟩ := by
            unfold putBack; split
            · exact hq
            · exact hq
          dsimp only at h
          split at h
          · exact ih _ _ r h ht
          · split at h
            · exact ih _ _ r h ht
            · split at h
              · exact ih _ _ r h ht
              · exact ih _ _ r h ht
    | after u =>
      unfold exec at h
      split at h
      · exact ih _ _ r h hk
      · exact ih _ _ r h hk
    | auto =>
      unfold exec at h
      rw [autoW_kept _ hk.2.2] at h
      dsimp only at h
      rw [autoR_kept _ hk.2.1] at h
      simp only [hk.2.1, Bool.false_and, Bool.not_true, Bool.false_eq_true, if_false] at h
      cases h; exact hk
    | uwrite b =>
      unfold exec at h
      split at h
      · cases h; exact hk
      · dsimp only at h
        split at h
        · cases hx : exec dev f (.seterr 9) ⟨{ c.fd with tick := c.fd.tick + 1 }, c.isopen⟩ with
          | none => rw [hx] at h; cases h
          | some q => rw [hx] at h; cases h; exact ih _ _ q hx hk
        · rename_i d _
          split at h
          · cases h; exact ⟨keeps_snoc hk.1 _ (keeps_wrote _ _), hk.2⟩
          · split at h
            · cases h; exact ⟨keeps_snoc hk.1 _ (keeps_wrote _ _), hk.2⟩
            · rename_i e _
              cases hx : exec dev f (.seterr e) ⟨{ c.fd with tick := c.fd.tick + 1, log := c.fd.log ++ [.wrote d []] }, c.isopen⟩ with
              | none => rw [hx] at h; cases h
              | some q => rw [hx] at h; cases h; exact ih _ _ q hx ⟨keeps_snoc hk.1 _ (keeps_wrote d []), hk.2⟩
    | uread n =>
      unfold exec at h
      split at h
      · cases h; exact hk
      · dsimp only at h
        split at h
        · cases hx : exec dev f (.seterr 9) ⟨{ c.fd with tick := c.fd.tick + 1 }, c.isopen⟩ with
          | none => rw [hx] at h; cases h
          | some q => rw [hx] at h; cases h; exact ih _ _ q hx hk
        · rename_i d _
          split at h
          · cases h; exact ⟨keeps_snoc hk.1 _ (keeps_got _ _), hk.2⟩
          · split at h
            · cases h; exact ⟨keeps_snoc hk.1 _ (keeps_got _ _), hk.2⟩
            · rename_i e _
              cases hx : exec dev f (.seterr e) ⟨{ c.fd with tick := c.fd.tick + 1, log := c.fd.log ++ [.got d []] }, c.isopen⟩ with
              | none => rw [hx] at h; cases h
              | some q => rw [hx] at h; cases h; exact ih _ _ q hx ⟨keeps_snoc hk.1 _ (keeps_got d []), hk.2⟩

theorem map_some {α β : Type} {x : Option α} {g : α → β} {y : β} (h : x.map g = some y) : ∃ a, x = some a ∧ g a = y := by
  cases x with
  | none => cases h
  | some a => exact ⟨a, rfl, Option.some.inj h⟩

theorem bind_some' {α β : Type} {x : Option α} {g : α → Option β} {y : β} (h : x.bind g = some y) : ∃ a, x = some a ∧ g a = some y := by
  cases x with
  | none => cases h
  | some a => exact ⟨a, rfl, h⟩

end CnP

/-- An operation that does not ask to stop one direction. -/
def NoStop : Op → Prop
  | .noread | .nowrite => False
  | _ => True

namespace CnP

theorem step_kept (dev : Nat → Ans) (f : Nat) (o : Op) (ho : NoStop o) (c : Con) (r : Con × List Byte) (hk : Kept c) (h : step dev f c o = some r) :
    Kept r.1 := by
  cases o with
  | write b =>
    unfold step at h
    dsimp only at h
    split at h
    · cases h; exact hk
    · obtain ⟨q, hq, h⟩ := bind_some' h
      obtain ⟨p, hp, e⟩ := map_some h
      subst e
      have hq' : Kept q.1 := by
        split at hq
        · exact kept dev f _ _ _ hq hk
        · cases hq; exact hk
      exact kept dev f _ _ _ hp hq'
  | read n =>
    unfold step at h
    dsimp only at h
    split at h
    · obtain ⟨q, hq, h⟩ := bind_some' h
      obtain ⟨p, hp, e⟩ := map_some h
      subst e
      exact kept dev f _ _ _ hp (kept dev f _ _ _ hq hk)
    · obtain ⟨p, hp, e⟩ := map_some h
      subst e
      exact kept dev f _ _ _ hp hk
  | unread b => cases h; exact hk
  | flush w => obtain ⟨p, hp, e⟩ := map_some h; subst e; exact kept dev f _ _ _ hp hk
  | close => obtain ⟨p, hp, e⟩ := map_some h; subst e; exact kept dev f _ _ _ hp hk
  | noread => exact ho.elim
  | nowrite => exact ho.elim
  | seterr e => obtain ⟨p, hp, e⟩ := map_some h; subst e; exact kept dev f _ _ _ hp hk
  | auto => obtain ⟨p, hp, e⟩ := map_some h; subst e; exact kept dev f _ _ _ hp hk
  | onclose =>
    unfold step at h
    dsimp only at h
    split at h
    · cases h; exact hk
    · cases h; exact ⟨keeps_snoc hk.1 _ keeps_cb, hk.2⟩

theorem make_kept (a b : Option Nat) : Kept (make a b) := by
  refine ⟨?_, rfl, rfl⟩
  intro d
  unfold make FdStream.make
  dsimp only
  cases a <;> cases b <;> simp <;> split <;> simp

end CnP

/-- C138: whatever a program does with a console stream other than stopping one direction, and whatever the system answers, the descriptors of the
    console are neither closed nor shut down: also not by errors, the end of the input, closing or destroying the stream. -/
theorem C138_keeps_partial (dev : Nat → Ans) (f : Nat) (a b : Option Nat) (os : List Op) (ho : ∀ o ∈ os, NoStop o) (r : Con × List Byte)
    (h : run dev f os (make a b) = some r) : Keeps r.1.fd.log := by
  have key : ∀ (os : List Op) (c : Con) (r : Con × List Byte), CnP.Kept c → (∀ o ∈ os, NoStop o) → run dev f os c = some r → CnP.Kept r.1 := by
    intro os
    induction os with
    | nil => intro c r hk _ h; cases h; exact hk
    | cons o os ih =>
      intro c r hk ho h
      obtain ⟨q, hq, h⟩ := CnP.bind_some' h
      obtain ⟨p, hp, e⟩ := CnP.map_some h
      subst e
      exact ih _ p (CnP.step_kept dev f o (ho o (by simp)) c q hk hq) (fun o h => ho o (by simp [h])) hp
  exact (key os _ r (CnP.make_kept a b) ho h).1

/-- C138: closing a console stream makes it not ok, and does nothing to descriptors. -/
theorem C138_close (dev : Nat → Ans) (f : Nat) (c : Con) (r : Con × List Byte) (h : step dev f c .close = some r) :
    r.1.isopen = false ∧ ∃ n, r.1.fd.log = c.fd.log ++ List.replicate n .callback := by
  obtain ⟨p, hp, e⟩ := CnP.map_some h
  subst e
  obtain ⟨a, b, _⟩ := CnP.close_quiet dev f c p hp
  exact ⟨a.1, b.1⟩

namespace CnP

theorem written_append (a b : List Ev) : written (a ++ b) = written a ++ written b := by
  induction a with
  | nil => rfl
  | cons e a ih => cases e <;> simp [written, ih]

theorem written_sys (s : St) (d : Option Nat) (e : Nat → Ev) (he : ∀ x, written [e x] = []) :
    written (s.sys d e).log = written s.log ∧ (s.sys d e).outbuf = s.outbuf := by
  unfold St.sys
  cases d with
  | none => exact ⟨rfl, rfl⟩
  | some d => exact ⟨by rw [written_append, he, List.append_nil], rfl⟩

theorem autoW_same (s : St) : written s.autoW.1.log = written s.log ∧ s.autoW.1.outbuf = s.outbuf := by
  unfold St.autoW
  split
  · dsimp only
    split
    · exact ⟨rfl, rfl⟩
    · split
      · exact written_sys { s with shutW := true } s.wfd _ (fun _ => rfl)
      · exact written_sys { s with shutW := true } s.wfd _ (fun _ => rfl)
  · exact ⟨rfl, rfl⟩

theorem autoR_same (s : St) : written s.autoR.log = written s.log ∧ s.autoR.outbuf = s.outbuf := by
  unfold St.autoR
  split
  · dsimp only
    split
    · exact written_sys { s with shutR := true } s.rfd _ (fun _ => rfl)
    · exact written_sys { s with shutR := true } s.rfd _ (fun _ => rfl)
  · exact ⟨rfl, rfl⟩

/-- If the stream is still open, nothing of its output was lost. -/
def Bal : Call → Con → Con × Nat × List Byte → Prop
  | .uwrite b, c, r => r.1.isopen = true → c.isopen = true ∧ written r.1.fd.log = written c.fd.log ++ b.take r.2.1 ∧ r.1.fd.outbuf = c.fd.outbuf
  | _, c, r => r.1.isopen = true → c.isopen = true ∧ written r.1.fd.log ++ r.1.fd.outbuf = written c.fd.log ++ c.fd.outbuf

theorem bal (dev : Nat → Ans) (f : Nat) : ∀ (k : Call) (c : Con) (r : Con × Nat × List Byte), exec dev f k c = some r → Bal k c r := by
  induction f with
  | zero => intro k c r h; cases h
  | succ f ih =>
    intro k c r h
    cases k with
    | close =>
      intro ho
      rw [(close_quiet dev (f + 1) c r h).1.1] at ho; cases ho
    | seterr e =>
      intro ho
      rcases (seterr_quiet dev (f + 1) c e r h).1 with e | e
      · rw [e] at ho ⊢; exact ⟨ho, rfl⟩
      · rw [e.1] at ho; cases ho
    | flush w =>
      unfold exec at h
      split at h
      · cases h; exact fun ho => ⟨ho, rfl⟩
      · obtain ⟨q, hq, e⟩ := map_some h
        subst e
        exact ih _ _ q hq
    | flushOut w =>
      unfold exec at h
      split at h
      · exact (have := ih _ _ r h; this)
      · exact (have := ih _ _ r h; this)
    | loop w =>
      unfold exec at h
      split at h
      · rename_i hc
        have := ih _ _ r h
        intro ho
        have := (this ho).1
        rw [this] at hc; cases hc
      · rename_i hc
        obtain ⟨q, hq, h⟩ := bind_some' h
        have hc : c.isopen = true := by simpa using hc
        have hb := ih _ _ q hq
        have key : ∀ (r' : Con × Nat × List Byte) (tk : Nat), (r'.1.isopen = true → q.1.isopen = true ∧
            written r'.1.fd.log ++ r'.1.fd.outbuf = written (putBack q.1 c.fd.outbuf q.2.1).log ++ (putBack q.1 c.fd.outbuf q.2.1).outbuf) →
            Bal (.loop w) c r' := by
          intro r' _ hr ho
          obtain ⟨o1, o2⟩ := hr ho
          obtain ⟨_, b2, b3⟩ := hb o1
          refine ⟨hc, ?_⟩
          rw [o2]
          unfold putBack
          rw [o1]
          by_cases hlt : q.2.1 < c.fd.outbuf.length
          · rw [if_pos (by simp [hlt])]
            show written q.1.fd.log ++ (c.fd.outbuf.drop q.2.1 ++ q.1.fd.outbuf) = _
            rw [b2, b3, List.append_nil, List.append_assoc, List.take_append_drop]
          · rw [if_neg (by simp [hlt]), b2, b3, List.append_nil, List.take_of_length_le (by omega)]
        dsimp only at h
        split at h
        · exact key r 0 (ih _ _ r h)
        · split at h
          · exact key r 0 (ih _ _ r h)
          · split at h
            · exact key r 0 (ih _ _ r h)
            · exact key r 0 (ih _ _ r h)
    | after u =>
      unfold exec at h
      split at h
      · rename_i hc
        have := ih _ _ r h
        intro ho
        have this : c.isopen = true := (this ho).1
        rw [this, Bool.not_true, Bool.and_false] at hc
        cases hc
      · exact (have := ih _ _ r h; this)
    | auto =>
      unfold exec at h
      dsimp only at h
      have h1 := autoW_same c.fd
      have h2 := autoR_same c.fd.autoW.1
      split at h
      · cases h
        intro ho
        refine ⟨ho, ?_⟩
        show written c.fd.autoW.1.log ++ c.fd.autoW.1.outbuf = _
        rw [h1.1, h1.2]
      · split at h
        · have := (close_quiet dev f _ r h).1.1
          intro ho; rw [this] at ho; cases ho
        · cases h
          intro ho
          refine ⟨ho, ?_⟩
          show written c.fd.autoW.1.autoR.log ++ c.fd.autoW.1.autoR.outbuf = _
          rw [h2.1, h2.2, h1.1, h1.2]
    | uwrite b =>
      unfold exec at h
      split at h
      · cases h; intro ho; exact ⟨ho, by simp, rfl⟩
      · dsimp only at h
        split at h
        · obtain ⟨q, hq, e⟩ := map_some h
          subst e
          intro ho
          rcases (seterr_quiet dev f _ 9 q hq).1 with e | e
          · rw [e] at ho ⊢; exact ⟨ho, by simp, rfl⟩
          · have := e.1; rw [this] at ho; cases ho
        · rename_i d _
          split at h
          · cases h
            intro ho
            refine ⟨ho, ?_, rfl⟩
            show written (c.fd.log ++ [.wrote d _]) = _
            rw [written_append]; simp [written]
          · split at h
            · cases h
              intro ho
              refine ⟨ho, ?_, rfl⟩
              show written (c.fd.log ++ [.wrote d []]) = _
              rw [written_append]; simp [written]
            · obtain ⟨q, hq, e⟩ := map_some h
              subst e
              intro ho
              rcases (seterr_quiet dev f _ _ q hq).1 with e | e
              · rw [e] at ho ⊢
                refine ⟨ho, ?_, rfl⟩
                show written (c.fd.log ++ [.wrote d []]) = _
                rw [written_append]; simp [written]
              · have := e.1; rw [this] at ho; cases ho
    | uread n =>
      unfold exec at h
      split at h
      · cases h; intro ho; exact ⟨ho, rfl⟩
      · dsimp only at h
        split at h
        · obtain ⟨q, hq, e⟩ := map_some h
          subst e
          intro ho
          rcases (seterr_quiet dev f _ 9 q hq).1 with e | e
          · rw [e] at ho ⊢; exact ⟨ho, rfl⟩
          · have := e.1; rw [this] at ho; cases ho
        · rename_i d _
          split at h
          · cases h
            intro ho
            refine ⟨ho, ?_⟩
            show written (c.fd.log ++ [.got d _]) ++ c.fd.outbuf = _
            rw [written_append]; simp [written]
          · split at h
            · cases h
              intro ho
              refine ⟨ho, ?_⟩
              show written (c.fd.log ++ [.got d []]) ++ c.fd.outbuf = _
              rw [written_append]; simp [written]
            · obtain ⟨q, hq, e⟩ := map_some h
              subst e
              intro ho
              rcases (seterr_quiet dev f _ _ q hq).1 with e | e
              · rw [e] at ho ⊢
                refine ⟨ho, ?_⟩
                show written (c.fd.log ++ [.got d []]) ++ c.fd.outbuf = _
                rw [written_append]; simp [written]
              · have := e.1; rw [this] at ho; cases ho

end CnP

/-- What a program gives to a stream, if it never stops writing. -/
def given : List Op → List Byte
  | [] => []
  | .write b :: os => b ++ given os
  | _ :: os => given os

namespace CnP

theorem stopW_same (dev : Nat → Ans) (f : Nat) : ∀ (k : Call) (c : Con) (r : Con × Nat × List Byte), exec dev f k c = some r → r.1.isopen = true →
    r.1.fd.stopW = c.fd.stopW := by
  have hsys : ∀ (s : St) d e, (s.sys d e).stopW = s.stopW := by intro s d e; cases d <;> rfl
  have hW : ∀ s : St, s.autoW.1.stopW = s.stopW := by
    intro s; unfold St.autoW; dsimp only
    split
    · split
      · rfl
      · split <;> exact hsys { s with shutW := true } _ _
    · rfl
  have hR : ∀ s : St, s.autoR.stopW = s.stopW := by
    intro s; unfold St.autoR; dsimp only
    split
    · split <;> exact hsys { s with shutR := true } _ _
    · rfl
  have hP : ∀ (c : Con) b n, (putBack c b n).stopW = c.fd.stopW := by intro c b n; unfold putBack; split <;> rfl
  have hop : ∀ (f : Nat) (k : Call) (c : Con) (r : Con × Nat × List Byte), exec dev f k c = some r → r.1.isopen = true → c.isopen = true := by
    intro f k c r h ho
    have := bal dev f k c r h
    cases k <;> exact (this ho).1
  induction f with
  | zero => intro k c r h; cases h
  | succ f ih =>
    intro k c r h ho
    cases k with
    | close => exact (close_quiet dev (f + 1) c r h).2.1.2.2
    | seterr e => exact (seterr_quiet dev (f + 1) c e r h).2.2.2
    | flush w =>
      unfold exec at h
      split at h
      · cases h; rfl
      · obtain ⟨q, hq, e⟩ := map_some h
        subst e
        exact (have := ih _ _ q hq ho; this)
    | flushOut w =>
      unfold exec at h
      split at h
      · exact ih _ _ r h ho
      · exact ih _ _ r h ho
    | loop w =>
      unfold exec at h
      split at h
      · exact ih _ _ r h ho
      · obtain ⟨q, hq, h⟩ := bind_some' h
        have hmid : q.1.isopen = true → q.1.fd.stopW = c.fd.stopW := fun o => (have := ih _ _ q hq o; this)
        dsimp only at h
        have fin : ∀ (t : St) (k : Call), exec dev f k ⟨t, q.1.isopen⟩ = some r → t.stopW = q.1.fd.stopW → r.1.fd.stopW = c.fd.stopW := by
          intro t k hx ht
          have h1 : q.1.isopen = true := (have := hop f k _ r hx ho; this)
          have h2 : r.1.fd.stopW = t.stopW := (have := ih _ _ r hx ho; this)
          rw [h2, ht, hmid h1]
        split at h
        · exact fin _ _ h (hP _ _ _)
        · split at h
          · exact fin _ _ h (hP q.1 _ _)
          · split at h
            · exact fin _ _ h (hP q.1 _ _)
            · exact fin _ _ h (hP q.1 _ _)
    | after u =>
      unfold exec at h
      split at h
      · exact (have := ih _ _ r h ho; this)
      · exact ih _ _ r h ho
    | auto =>
      unfold exec at h
      dsimp only at h
      split at h
      · cases h; exact hW _
      · split at h
        · rw [ih _ _ r h ho]; exact (hR _).trans (hW _)
        · cases h; exact (hR _).trans (hW _)
    | uwrite b =>
      unfold exec at h
      split at h
      · cases h; rfl
      · dsimp only at h
        split at h
        · obtain ⟨q, hq, e⟩ := map_some h
          subst e
          exact (have := ih _ _ q hq ho; this)
        · split at h
          · cases h; rfl
          · split at h
            · cases h; rfl
            · obtain ⟨q, hq, e⟩ := map_some h
              subst e
              exact (have := ih _ _ q hq ho; this)
    | uread n =>
      unfold exec at h
      split at h
      · cases h; rfl
      · dsimp only at h
        split at h
        · obtain ⟨q, hq, e⟩ := map_some h
          subst e
          exact (have := ih _ _ q hq ho; this)
        · split at h
          · cases h; rfl
          · split at h
            · cases h; rfl
            · obtain ⟨q, hq, e⟩ := map_some h
              subst e
              exact (have := ih _ _ q hq ho; this)

/-- One operation. -/
theorem step_bal (dev : Nat → Ans) (f : Nat) (o : Op) (c : Con) (r : Con × List Byte) (hs : c.fd.stopW = false) (hn : ∀ x, o = x → x ≠ .nowrite)
    (h : step dev f c o = some r) (ho : r.1.isopen = true) :
    c.isopen = true ∧ r.1.fd.stopW = false ∧ written r.1.fd.log ++ r.1.fd.outbuf = written c.fd.log ++ c.fd.outbuf ++ given [o] := by
  have triv : ∀ k c' r', (∀ b, k ≠ .uwrite b) → exec dev f k c' = some r' → r'.1.isopen = true → c'.isopen = true ∧ r'.1.fd.stopW = c'.fd.stopW ∧
      written r'.1.fd.log ++ r'.1.fd.outbuf = written c'.fd.log ++ c'.fd.outbuf := by
    intro k c' r' hk hx hx'
    have := bal dev f k c' r' hx
    have hsW := stopW_same dev f k c' r' hx hx'
    cases k with
    | uwrite b => exact absurd rfl (hk b)
    | _ => exact ⟨(this hx').1, hsW, (this hx').2⟩
  cases o with
  | write b =>
    unfold step at h
    dsimp only at h
    split at h
    · rename_i hc
      cases h
      rw [ho, hs] at hc
      have : b = [] := by simpa using hc
      subst this
      exact ⟨ho, hs, by simp [given]⟩
    · obtain ⟨q, hq, h⟩ := bind_some' h
      obtain ⟨p, hp, e⟩ := map_some h
      subst e
      obtain ⟨t1, t2, t3⟩ := triv _ _ p (by simp) hp ho
      have t1 : q.1.isopen = true := t1
      have t2 : p.1.fd.stopW = q.1.fd.stopW := t2
      have t3 : written p.1.fd.log ++ p.1.fd.outbuf = written q.1.fd.log ++ (q.1.fd.outbuf ++ b.drop q.2.1) := t3
      show c.isopen = true ∧ p.1.fd.stopW = false ∧ written p.1.fd.log ++ p.1.fd.outbuf = _
      split at hq
      · rename_i he
        obtain ⟨b1, b2, b3⟩ := bal dev f _ _ q hq t1
        refine ⟨b1, by rw [t2, stopW_same dev f _ _ q hq t1, hs], ?_⟩
        have he : c.fd.outbuf = [] := by simpa using he
        rw [t3, b2, b3, he, List.nil_append, List.append_assoc, List.take_append_drop]; simp [given]
      · cases hq
        refine ⟨t1, by rw [t2, hs], ?_⟩
        rw [t3]; simp [given]
  | read n =>
    unfold step at h
    dsimp only at h
    split at h
    · obtain ⟨q, hq, h⟩ := bind_some' h
      obtain ⟨p, hp, e⟩ := map_some h
      subst e
      obtain ⟨t1, t2, t3⟩ := triv _ _ p (by simp) hp ho
      obtain ⟨u1, u2, u3⟩ := triv _ _ q (by simp) hq t1
      exact ⟨u1, by show p.1.fd.stopW = false; rw [t2, u2, hs], by show written p.1.fd.log ++ p.1.fd.outbuf = _; rw [t3, u3]; simp [given]⟩
    · obtain ⟨p, hp, e⟩ := map_some h
      subst e
      obtain ⟨t1, t2, t3⟩ := triv _ _ p (by simp) hp ho
      exact ⟨t1, t2.trans hs, by show written p.1.fd.log ++ p.1.fd.outbuf = _; rw [t3]; simp [given]⟩
  | unread b => cases h; exact ⟨ho, hs, by simp [given]⟩
  | nowrite => exact absurd rfl (hn _ rfl)
  | onclose =>
    unfold step at h
    dsimp only at h
    split at h
    · cases h; exact ⟨ho, hs, by simp [given]⟩
    · rename_i hc; cases h; exact absurd ho hc
  | flush w =>
    obtain ⟨p, hp, e⟩ := map_some h; subst e
    obtain ⟨t1, t2, t3⟩ := triv _ _ p (by simp) hp ho
    exact ⟨t1, t2.trans hs, by show written p.1.fd.log ++ p.1.fd.outbuf = _; rw [t3]; simp [given]⟩
  | close =>
    obtain ⟨p, hp, e⟩ := map_some h; subst e
    obtain ⟨t1, t2, t3⟩ := triv _ _ p (by simp) hp ho
    exact ⟨t1, t2.trans hs, by show written p.1.fd.log ++ p.1.fd.outbuf = _; rw [t3]; simp [given]⟩
  | noread =>
    obtain ⟨p, hp, e⟩ := map_some h; subst e
    obtain ⟨t1, t2, t3⟩ := triv _ _ p (by simp) hp ho
    exact ⟨t1, t2.trans hs, by show written p.1.fd.log ++ p.1.fd.outbuf = _; rw [t3]; simp [given]⟩
  | seterr e =>
    obtain ⟨p, hp, e⟩ := map_some h; subst e
    obtain ⟨t1, t2, t3⟩ := triv _ _ p (by simp) hp ho
    exact ⟨t1, t2.trans hs, by show written p.1.fd.log ++ p.1.fd.outbuf = _; rw [t3]; simp [given]⟩
  | auto =>
    obtain ⟨p, hp, e⟩ := map_some h; subst e
    obtain ⟨t1, t2, t3⟩ := triv _ _ p (by simp) hp ho
    exact ⟨t1, t2.trans hs, by show written p.1.fd.log ++ p.1.fd.outbuf = _; rw [t3]; simp [given]⟩

/-- What is closed stays closed. -/
theorem step_open (dev : Nat → Ans) (f : Nat) (o : Op) (c : Con) (r : Con × List Byte) (h : step dev f c o = some r) (ho : r.1.isopen = true) :
    c.isopen = true := by
  have hop : ∀ (k : Call) (c : Con) (r : Con × Nat × List Byte), exec dev f k c = some r → r.1.isopen = true → c.isopen = true := by
    intro k c r h ho
    have := bal dev f k c r h
    cases k <;> exact (this ho).1
  cases o with
  | write b =>
    unfold step at h
    dsimp only at h
    split at h
    · cases h; exact ho
    · obtain ⟨q, hq, h⟩ := bind_some' h
      obtain ⟨p, hp, e⟩ := map_some h
      subst e
      have : q.1.isopen = true := (have := hop _ _ p hp ho; this)
      split at hq
      · exact hop _ _ q hq this
      · cases hq; exact this
  | read n =>
    unfold step at h
    dsimp only at h
    split at h
    · obtain ⟨q, hq, h⟩ := bind_some' h
      obtain ⟨p, hp, e⟩ := map_some h
      subst e
      exact hop _ _ q hq (hop _ _ p hp ho)
    · obtain ⟨p, hp, e⟩ := map_some h
      subst e
      exact (have := hop _ _ p hp ho; this)
  | unread b => cases h; exact ho
  | onclose =>
    unfold step at h
    dsimp only at h
    split at h
    · cases h; exact ho
    · cases h; exact ho
  | flush w => obtain ⟨p, hp, e⟩ := map_some h; subst e; exact (have := hop _ _ p hp ho; this)
  | close => obtain ⟨p, hp, e⟩ := map_some h; subst e; exact (have := hop _ _ p hp ho; this)
  | noread => obtain ⟨p, hp, e⟩ := map_some h; subst e; exact (have := hop _ _ p hp ho; this)
  | nowrite => obtain ⟨p, hp, e⟩ := map_some h; subst e; exact (have := hop _ _ p hp ho; this)
  | seterr e => obtain ⟨p, hp, e⟩ := map_some h; subst e; exact (have := hop _ _ p hp ho; this)
  | auto => obtain ⟨p, hp, e⟩ := map_some h; subst e; exact (have := hop _ _ p hp ho; this)

theorem given_cons (o : Op) (os : List Op) : given (o :: os) = given [o] ++ given os := by cases o <;> simp [given]

end CnP

/-- C138: as long as a console stream is ok, the bytes that reached the console followed by those in its buffer are exactly those that were written to
    it, in their order, whatever the system answers. -/
theorem C138_order_partial (dev : Nat → Ans) (f : Nat) (a b : Option Nat) (os : List Op) (hn : Op.nowrite ∉ os) (r : Con × List Byte)
    (h : run dev f os (make a b) = some r) (ho : r.1.isopen = true) : written r.1.fd.log ++ r.1.fd.outbuf = given os := by
  have key : ∀ (os : List Op) (c : Con) (r : Con × List Byte), c.fd.stopW = false → Op.nowrite ∉ os → run dev f os c = some r → r.1.isopen = true →
      c.isopen = true ∧ written r.1.fd.log ++ r.1.fd.outbuf = written c.fd.log ++ c.fd.outbuf ++ given os := by
    intro os
    induction os with
    | nil => intro c r hs _ h ho; cases h; exact ⟨ho, by simp [given]⟩
    | cons o os ih =>
      intro c r hs hn h ho
      have hn1 : ∀ x, o = x → x ≠ .nowrite := by
        intro x hx e; subst e; subst hx; exact hn (by simp)
      have hn2 : Op.nowrite ∉ os := fun h => hn (by simp [h])
      obtain ⟨q, hq, h⟩ := CnP.bind_some' h
      obtain ⟨p, hp, e⟩ := CnP.map_some h
      subst e
      have hqo : q.1.isopen = true → q.1.fd.stopW = false := fun ho' => (CnP.step_bal dev f o c q hs hn1 hq ho').2.1
      by_cases hopen : q.1.isopen = true
      · obtain ⟨_, e2⟩ := ih _ p (hqo hopen) hn2 hp ho
        obtain ⟨b1, _, b3⟩ := CnP.step_bal dev f o c q hs hn1 hq hopen
        refine ⟨b1, ?_⟩
        rw [CnP.given_cons]
        show written p.1.fd.log ++ p.1.fd.outbuf = _
        rw [e2, b3, List.append_assoc]
      · exfalso
        have closed : ∀ (os : List Op) (c : Con) (r : Con × List Byte), run dev f os c = some r → r.1.isopen = true → c.isopen = true := by
          intro os
          induction os with
          | nil => intro c r h ho; cases h; exact ho
          | cons o os ih' =>
            intro c r h ho
            obtain ⟨q, hq, h⟩ := CnP.bind_some' h
            obtain ⟨p, hp, e⟩ := CnP.map_some h
            subst e
            exact CnP.step_open dev f o c q hq (ih' _ p hp ho)
        exact hopen (closed os _ p hp ho)
  have := (key os (make a b) r rfl hn h ho).2
  rw [this]
  have e1 : written (make a b).fd.log = [] := by
    unfold make FdStream.make
    cases a <;> cases b <;> simp [written] <;> split <;> simp [written]
  rw [e1]; rfl

namespace CnP

/-- A stream that is open is open afterwards, or has no descriptors. -/
theorem open_or (dev : Nat → Ans) (f : Nat) : ∀ (k : Call) (c : Con) (r : Con × Nat × List Byte), exec dev f k c = some r → c.isopen = true →
    r.1.isopen = true ∨ NoFd r.1 := by
  have both : ∀ (f : Nat), (∀ (k : Call) (c : Con) (r : Con × Nat × List Byte), exec dev f k c = some r → c.isopen = true → r.1.isopen = true ∨ NoFd r.1) →
      ∀ (k : Call) (c : Con) (r : Con × Nat × List Byte), exec dev f k c = some r → c.isopen = true ∨ NoFd c → r.1.isopen = true ∨ NoFd r.1 := by
    intro f hf k c r h hc
    rcases hc with hc | hc
    · exact hf k c r h hc
    · exact .inr (nofd dev f k c r h hc).1
  induction f with
  | zero => intro k c r h; cases h
  | succ f ih =>
    intro k c r h hc
    cases k with
    | close => exact .inr (close_quiet dev (f + 1) c r h).1
    | seterr e =>
      rcases (seterr_quiet dev (f + 1) c e r h).1 with e | e
      · rw [e]; exact .inl hc
      · exact .inr e
    | flush w =>
      unfold exec at h
      split at h
      · cases h; exact .inl hc
      · obtain ⟨q, hq, e⟩ := map_some h
        subst e
        exact (have := ih _ _ q hq hc; this)
    | flushOut w =>
      unfold exec at h
      split at h
      · exact ih _ _ r h hc
      · exact ih _ _ r h hc
    | loop w =>
      unfold exec at h
      split at h
      · exact ih _ _ r h hc
      · obtain ⟨q, hq, h⟩ := bind_some' h
        have hq' : q.1.isopen = true ∨ NoFd q.1 := ih _ _ q hq hc
        have fin : ∀ (t : St) (k : Call), exec dev f k ⟨t, q.1.isopen⟩ = some r → t.rfd = q.1.fd.rfd → t.wfd = q.1.fd.wfd → r.1.isopen = true ∨ NoFd r.1 := by
          intro t k hx e1 e2
          refine both f ih k _ r hx ?_
          rcases hq' with hq' | ⟨n1, n2, n3⟩
          · exact .inl hq'
          · exact .inr ⟨n1, e1.trans n2, e2.trans n3⟩
        have p1 : (putBack q.1 c.fd.outbuf q.2.1).rfd = q.1.fd.rfd := by unfold putBack; split <;> rfl
        have p2 : (putBack q.1 c.fd.outbuf q.2.1).wfd = q.1.fd.wfd := by unfold putBack; split <;> rfl
        dsimp only at h
        split at h
        · exact fin _ _ h p1 p2
        · split at h
          · exact fin _ _ h p1 p2
          · split at h
            · exact fin _ _ h p1 p2
            · exact fin _ _ h p1 p2
    | after u =>
      unfold exec at h
      split at h
      · exact ih _ _ r h hc
      · exact ih _ _ r h hc
    | auto =>
      unfold exec at h
      dsimp only at h
      split at h
      · cases h; exact .inl hc
      · split at h
        · exact .inr (close_quiet dev f _ r h).1
        · cases h; exact .inl hc
    | uwrite b =>
      unfold exec at h
      split at h
      · cases h; exact .inl hc
      · dsimp only at h
        split at h
        · obtain ⟨q, hq, e⟩ := map_some h
          subst e
          exact (have := ih _ _ q hq hc; this)
        · split at h
          · cases h; exact .inl hc
          · split at h
            · cases h; exact .inl hc
            · obtain ⟨q, hq, e⟩ := map_some h
              subst e
              exact (have := ih _ _ q hq hc; this)
    | uread n =>
      unfold exec at h
      split at h
      · cases h; exact .inl hc
      · dsimp only at h
        split at h
        · obtain ⟨q, hq, e⟩ := map_some h
          subst e
          exact (have := ih _ _ q hq hc; this)
        · split at h
          · cases h; exact .inl hc
          · split at h
            · cases h; exact .inl hc
            · obtain ⟨q, hq, e⟩ := map_some h
              subst e
              exact (have := ih _ _ q hq hc; this)

/-- Open, or without descriptors. -/
def Sane (c : Con) : Prop := c.isopen = true ∨ NoFd c

theorem sane (dev : Nat → Ans) (f : Nat) (k : Call) (c : Con) (r : Con × Nat × List Byte) (h : exec dev f k c = some r) (hc : Sane c) : Sane r.1 := by
  rcases hc with hc | hc
  · exact open_or dev f k c r h hc
  · exact .inr (nofd dev f k c r h hc).1

theorem step_sane (dev : Nat → Ans) (f : Nat) (o : Op) (c : Con) (r : Con × List Byte) (h : step dev f c o = some r) (hc : Sane c) : Sane r.1 := by
  cases o with
  | write b =>
    unfold step at h
    dsimp only at h
    split at h
    · cases h; exact hc
    · obtain ⟨q, hq, h⟩ := bind_some' h
      obtain ⟨p, hp, e⟩ := map_some h
      subst e
      have hq' : Sane q.1 := by
        split at hq
        · exact sane dev f _ _ q hq hc
        · cases hq; exact hc
      exact (have := sane dev f _ _ p hp hq'; this)
  | read n =>
    unfold step at h
    dsimp only at h
    split at h
    · obtain ⟨q, hq, h⟩ := bind_some' h
      obtain ⟨p, hp, e⟩ := map_some h
      subst e
      exact sane dev f _ _ p hp (sane dev f _ _ q hq hc)
    · obtain ⟨p, hp, e⟩ := map_some h
      subst e
      exact (have := sane dev f _ _ p hp hc; this)
  | unread b => cases h; exact hc
  | onclose =>
    unfold step at h
    dsimp only at h
    split at h
    · cases h; exact hc
    · cases h; exact hc
  | flush w => obtain ⟨p, hp, e⟩ := map_some h; subst e; exact (have := sane dev f _ _ p hp hc; this)
  | close => obtain ⟨p, hp, e⟩ := map_some h; subst e; exact (have := sane dev f _ _ p hp hc; this)
  | noread => obtain ⟨p, hp, e⟩ := map_some h; subst e; exact (have := sane dev f _ _ p hp hc; this)
  | nowrite => obtain ⟨p, hp, e⟩ := map_some h; subst e; exact (have := sane dev f _ _ p hp hc; this)
  | seterr e => obtain ⟨p, hp, e⟩ := map_some h; subst e; exact (have := sane dev f _ _ p hp hc; this)
  | auto => obtain ⟨p, hp, e⟩ := map_some h; subst e; exact (have := sane dev f _ _ p hp hc; this)

/-- Only callbacks were called. -/
def Calls (a b : St) : Prop := ∃ n, b.log = a.log ++ List.replicate n .callback

theorem calls_trans {a b c : St} (h : Calls a b) (h' : Calls b c) : Calls a c := by
  obtain ⟨n, e⟩ := h
  obtain ⟨m, e'⟩ := h'
  exact ⟨n + m, by rw [e', e, List.append_assoc, List.replicate_append_replicate]⟩

theorem step_nofd (dev : Nat → Ans) (f : Nat) (o : Op) (c : Con) (r : Con × List Byte) (h : step dev f c o = some r) (hc : NoFd c) :
    NoFd r.1 ∧ Calls c.fd r.1.fd := by
  have go : ∀ k c' p, exec dev f k c' = some p → NoFd c' → NoFd p.1 ∧ Calls c'.fd p.1.fd := by
    intro k c' p hp hn
    obtain ⟨a, b, _⟩ := nofd dev f k c' p hp hn
    exact ⟨a, b.1⟩
  have refl : Calls c.fd c.fd := ⟨0, by simp⟩
  cases o with
  | write b =>
    unfold step at h
    dsimp only at h
    rw [hc.1] at h
    simp at h
    cases h; exact ⟨hc, refl⟩
  | read n =>
    unfold step at h
    dsimp only at h
    split at h
    · obtain ⟨q, hq, h⟩ := bind_some' h
      obtain ⟨p, hp, e⟩ := map_some h
      subst e
      obtain ⟨a, b⟩ := go _ _ q hq hc
      obtain ⟨a', b'⟩ := go _ _ p hp a
      exact ⟨a', calls_trans b b'⟩
    · obtain ⟨p, hp, e⟩ := map_some h
      subst e
      exact (have := go _ _ p hp hc; this)
  | unread b => cases h; exact ⟨hc, refl⟩
  | onclose =>
    unfold step at h
    dsimp only at h
    rw [hc.1] at h
    cases h; exact ⟨⟨rfl, hc.2⟩, 1, rfl⟩
  | flush w => obtain ⟨p, hp, e⟩ := map_some h; subst e; exact (have := go _ _ p hp hc; this)
  | close => obtain ⟨p, hp, e⟩ := map_some h; subst e; exact (have := go _ _ p hp hc; this)
  | noread => obtain ⟨p, hp, e⟩ := map_some h; subst e; exact (have := go _ _ p hp hc; this)
  | nowrite => obtain ⟨p, hp, e⟩ := map_some h; subst e; exact (have := go _ _ p hp hc; this)
  | seterr e => obtain ⟨p, hp, e⟩ := map_some h; subst e; exact (have := go _ _ p hp hc; this)
  | auto => obtain ⟨p, hp, e⟩ := map_some h; subst e; exact (have := go _ _ p hp hc; this)

end CnP

/-- C138: once a console stream is not ok, however that came, it never is again, and nothing is done with any descriptor. -/
theorem C138_closed (dev : Nat → Ans) (f : Nat) (a b : Option Nat) (os os' : List Op) (r r' : Con × List Byte) (h : run dev f os (make a b) = some r)
    (hc : r.1.isopen = false) (h' : run dev f os' r.1 = some r') :
    r'.1.isopen = false ∧ ∃ n, r'.1.fd.log = r.1.fd.log ++ List.replicate n .callback := by
  have k1 : ∀ (os : List Op) (c : Con) (r : Con × List Byte), CnP.Sane c → run dev f os c = some r → CnP.Sane r.1 := by
    intro os
    induction os with
    | nil => intro c r hk h; cases h; exact hk
    | cons o os ih =>
      intro c r hk h
      obtain ⟨q, hq, h⟩ := CnP.bind_some' h
      obtain ⟨p, hp, e⟩ := CnP.map_some h
      subst e
      exact ih _ p (CnP.step_sane dev f o c q hq hk) hp
  have k2 : ∀ (os : List Op) (c : Con) (r : Con × List Byte), CnP.NoFd c → run dev f os c = some r → CnP.NoFd r.1 ∧ CnP.Calls c.fd r.1.fd := by
    intro os
    induction os with
    | nil => intro c r hk h; cases h; exact ⟨hk, 0, by simp⟩
    | cons o os ih =>
      intro c r hk h
      obtain ⟨q, hq, h⟩ := CnP.bind_some' h
      obtain ⟨p, hp, e⟩ := CnP.map_some h
      subst e
      obtain ⟨a1, a2⟩ := CnP.step_nofd dev f o c q hq hk
      obtain ⟨b1, b2⟩ := ih _ p a1 hp
      exact ⟨b1, CnP.calls_trans a2 b2⟩
  have hn : CnP.NoFd r.1 := by
    rcases k1 os _ r (.inl rfl) h with h | h
    · rw [hc] at h; cases h
    · exact h
  obtain ⟨a1, a2⟩ := k2 os' r.1 r' hn h'
  exact ⟨a1.1, a2⟩

namespace CnP

/-- A system that takes one byte at a time and gives the byte 7. -/
def easy : Nat → Ans := fun _ => ⟨1, [7], none, true⟩
/-- A system that is busy at first. -/
def busy : Nat → Ans := fun t => if t < 2 then ⟨0, [], none, true⟩ else ⟨100, [], none, true⟩
/-- The input has ended. -/
def ended : Nat → Ans := fun _ => ⟨0, [], some 0, true⟩

end CnP

example : (run CnP.easy 20 [.write [1, 2, 3], .read 1, .flush true] (make (some 0) (some 1))).map
    (fun r => (r.1.isopen, written r.1.fd.log, r.1.fd.outbuf, r.2)) = some (true, [1, 2, 3], [], [7]) := by decide +kernel
example : (run CnP.ended 20 [.onclose, .read 1, .write [1]] (make (some 0) (some 1))).map (fun r => (r.1.isopen, r.1.fd.log)) =
    some (false, [.took 0, .took 1, .got 0 [], .callback]) := by decide +kernel
example : ∀ o ∈ [Op.write [1], .read 1, .close], NoStop o := by simp [NoStop]

/-- C138 fails for output that is still in the buffer when the stream is closed: it is lost, although the console would take it; a `WvFdStream` writes it. -/
theorem C138_lost_fails :
    (run CnP.busy 20 [.write [1, 2], .close] (make none (some 1))).map (fun r => (written r.1.fd.log, r.1.fd.outbuf)) = some ([], []) ∧
    (FdStream.St.run CnP.busy 20 [.write [1, 2], .close] (FdStream.make none (some 1))).map (fun r => written r.1.log) = some [1, 2] := by
  decide +kernel

/-- C138 fails for a program that stops reading: the descriptor of the standard input is closed. -/
theorem C138_stop_fails : (run CnP.easy 20 [.noread] (make (some 0) (some 1))).map (fun r => decide (Ev.closed 0 ∈ r.1.fd.log)) = some true := by
  decide +kernel

end Props
