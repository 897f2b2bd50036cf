import Verif.Model.Loopback
/- C143: streams that are joined to themselves or each other. -/
namespace Props
open Wv Wv.FdStream Wv.Loopback
open Spec.FdStream (Ev)
open Spec.Loopback (sent received Holds)

/-- Writing, reading, flushing, waiting, closing, and errors. -/
def Simple : Op → Prop
  | .write _ | .read _ | .flush _ | .auto | .close | .seterr _ => True
  | _ => False

/-- All that is given to a stream to write. -/
def givenTo : List Op → List Byte
  | [] => []
  | .write b :: os => b ++ givenTo os
  | _ :: os => givenTo os

namespace LbP

theorem sent_append (a b : List Ev) : sent (a ++ b) = sent a ++ sent b := by
  induction a with
  | nil => rfl
  | cons e a ih => cases e <;> simp [sent, ih]

theorem received_append (a b : List Ev) : received (a ++ b) = received a ++ received b := by
  induction a with
  | nil => rfl
  | cons e a ih => cases e <;> simp [received, ih]

theorem map_some {α β : Type} {x : Option α} {g : α → β} {r : β} (h : x.map g = some r) : ∃ q, x = some q ∧ g q = r := Option.map_eq_some_iff.1 h
theorem bind_some {α β : Type} {x : Option α} {g : α → Option β} {r : β} (h : x.bind g = some r) : ∃ q, x = some q ∧ g q = some r :=
  Option.bind_eq_some_iff.1 h

/-- Nothing is stopped, put back or called back. -/
def Plain (s : St) : Prop := s.stopR = false ∧ s.stopW = false ∧ s.closecb = none ∧ s.inbuf = []

/-- How output may change. -/
def Base (s t : St) : Prop :=
  (t.isok = true → s.isok = true ∧ sent t.log ++ t.outbuf = sent s.log ++ s.outbuf) ∧ sent s.log <+: sent t.log ∧
  sent t.log ++ t.outbuf <+: sent s.log ++ s.outbuf ∧ (s.outbuf = [] → t.outbuf = []) ∧ (s.isok = false → sent t.log = sent s.log)

theorem Base.refl (s : St) : Base s s := ⟨fun h => ⟨h, rfl⟩, List.prefix_rfl, List.prefix_rfl, id, fun _ => rfl⟩

theorem Base.trans {s t u : St} (h : Base s t) (g : Base t u) : Base s u := by
  obtain ⟨h1, h2, h3, h4, h5⟩ := h
  obtain ⟨g1, g2, g3, g4, g5⟩ := g
  refine ⟨fun o => ?_, h2.trans g2, g3.trans h3, fun e => g4 (h4 e), fun o => ?_⟩
  · obtain ⟨a, b⟩ := g1 o
    obtain ⟨c, d⟩ := h1 a
    exact ⟨c, b.trans d⟩
  · have : t.isok = false := by
      cases ht : t.isok with
      | false => rfl
      | true => rw [(h1 ht).1] at o; cases o
    rw [g5 this, h5 o]

def Bal : Call → St → Res → Prop
  | .uwrite b, s, r => Plain r.1 ∧ received r.1.log = received s.log ∧ (s.outbuf = [] → (r.1.isok = true → s.isok = true) ∧
      sent r.1.log = sent s.log ++ b.take r.2.1 ∧ r.1.outbuf = [] ∧ (s.isok = false → r.2.1 = 0))
  | .uread _, s, r => Plain r.1 ∧ received r.1.log = received s.log ++ r.2.2 ∧ Base s r.1
  | _, s, r => Plain r.1 ∧ received r.1.log = received s.log ∧ Base s r.1

theorem auto_same (dev : Nat → Ans) (f : Nat) (s : St) (hp : Plain s) (r : Res) (h : exec dev f .auto s = some r) : r = (s, 0, []) := by
  cases f with
  | zero => cases h
  | succ f =>
    obtain ⟨h1, h2, _⟩ := hp
    have hW : s.autoW = (s, true) := by unfold St.autoW; simp [h2]
    have hR : s.autoR = s := by unfold St.autoR; simp [h1]
    unfold exec at h
    rw [hW] at h
    dsimp only at h
    rw [hR, h1] at h
    simpa using h.symm

theorem eq_of_base {s t : St} (h : Base s t) (he : s.outbuf = []) : sent t.log = sent s.log := by
  obtain ⟨_, h2, h3, _⟩ := h
  rw [he, List.append_nil] at h3
  have h3 : sent t.log <+: sent s.log := (List.prefix_append _ _).trans h3
  exact h3.eq_of_length (Nat.le_antisymm h3.length_le h2.length_le)

theorem isok_congr {s t : St} (h1 : t.closed = s.closed) (h2 : t.err = s.err) (h3 : t.rfd = s.rfd) (h4 : t.wfd = s.wfd) : t.isok = s.isok := by
  unfold St.isok; rw [h1, h2, h3, h4]

theorem closeFds_same (s : St) : sent s.closeFds.log = sent s.log ∧ received s.closeFds.log = received s.log ∧ s.closeFds.outbuf = s.outbuf ∧
    s.closeFds.closed = s.closed ∧ (Plain s → Plain s.closeFds) := by
  unfold St.closeFds St.sys
  cases s.rfd <;> cases s.wfd <;> dsimp only <;> split <;>
    refine ⟨by simp [sent_append, sent], by simp [received_append, received], rfl, rfl, id⟩

theorem bal (dev : Nat → Ans) (f : Nat) : ∀ (k : Call) (s : St) (r : Res), exec dev f k s = some r → Plain s → Bal k s r := by
  induction f with
  | zero => intro k s r h; cases h
  | succ f ih =>
    intro k s r h hp
    cases k with
    | close =>
      unfold exec at h
      split at h
      · cases h; exact ⟨hp, rfl, Base.refl _⟩
      · obtain ⟨q, hq, e⟩ := map_some h
        subst e
        obtain ⟨p1, p2, p3⟩ := ih _ _ q hq hp
        have hcb : St.callback { q.1 with closed := true } = { q.1 with closed := true } := by
          unfold St.callback
          have : (St.closecb { q.1 with closed := true }) = none := p1.2.2.1
          rw [this]
        rw [hcb]
        obtain ⟨c1, c2, c3, c4, c5⟩ := closeFds_same { q.1 with closed := true }
        refine ⟨c5 p1, c2.trans p2, ?_⟩
        have hb : Base q.1 (St.closeFds { q.1 with closed := true }) := by
          refine ⟨fun o => ?_, ?_, ?_, ?_, ?_⟩
          · unfold St.isok at o
            rw [c4] at o; simp at o
          · rw [c1]; exact List.prefix_rfl
          · rw [c1, c3]; exact List.prefix_rfl
          · intro e; rw [c3]; exact e
          · intro _; rw [c1]
        exact p3.trans hb
    | seterr e =>
      unfold exec at h
      split at h
      · cases h; exact ⟨hp, rfl, Base.refl _⟩
      · rename_i he
        have he : s.err = 0 := by simpa using he
        obtain ⟨p1, p2, p3⟩ := ih _ _ r h hp
        refine ⟨p1, p2, ?_⟩
        obtain ⟨b1, b2, b3, b4, b5⟩ := p3
        have hok : St.isok { s with err := e } = true → s.isok = true := by
          unfold St.isok
          rw [he]
          simp only [Bool.and_eq_true]
          intro ⟨⟨a, _⟩, c⟩
          exact ⟨⟨a, rfl⟩, c⟩
        refine ⟨fun o => ⟨hok (b1 o).1, (b1 o).2⟩, b2, b3, b4, fun o => b5 ?_⟩
        cases hx : St.isok { s with err := e } with
        | false => rfl
        | true => rw [hok hx] at o; cases o
    | flush w =>
      unfold exec at h
      split at h
      · cases h; exact ⟨hp, rfl, Base.refl _⟩
      · obtain ⟨q, hq, e⟩ := map_some h
        subst e
        exact (have := ih _ _ q hq hp; this)
    | flushOut w =>
      unfold exec at h
      split at h
      · exact (have := ih _ _ r h hp; this)
      · exact (have := ih _ _ r h hp; this)
    | loop w =>
      unfold exec at h
      split at h
      · exact (have := ih _ _ r h hp; this)
      · rename_i hok
        have hok : s.isok = true := by simpa using hok
        obtain ⟨q, hq, h⟩ := bind_some h
        obtain ⟨u1, u2, u3⟩ := ih (.uwrite s.outbuf) { s with outbuf := [] } q hq hp
        obtain ⟨v1, v2, v3, v4⟩ := u3 rfl
        have v2 : sent q.1.log = sent s.log ++ s.outbuf.take q.2.1 := v2
        have u2 : received q.1.log = received s.log := u2
        have key : ∀ t : St, (t.log = q.1.log) → (t.isok = q.1.isok) →
            (t.outbuf = if q.1.isok && decide (q.2.1 < s.outbuf.length) then s.outbuf.drop q.2.1 ++ q.1.outbuf else q.1.outbuf) → Base s t := by
          intro t t1 t2 t3
          rw [v3, List.append_nil] at t3
          refine ⟨fun o => ⟨hok, ?_⟩, ?_, ?_, ?_, ?_⟩
          · rw [t2] at o
            rw [t1, t3, o, v2]
            by_cases hl : q.2.1 < s.outbuf.length
            · rw [if_pos (by simp [hl]), List.append_assoc, List.take_append_drop]
            · rw [if_neg (by simp [hl]), List.append_nil, List.take_of_length_le (by omega)]
          · rw [t1, v2]; exact List.prefix_append _ _
          · rw [t1, t3, v2]
            split
            · rw [List.append_assoc, List.take_append_drop]; exact List.prefix_rfl
            · rw [List.append_nil]; exact (List.prefix_append_right_inj _).2 (List.take_prefix _ _)
          · intro e; rw [t3, e]; split <;> simp
          · intro o; rw [hok] at o; cases o
        have fin : ∀ (k : Call) (t : St), exec dev f k t = some r → (∀ b, k ≠ .uwrite b) → (∀ n, k ≠ .uread n) → Plain t → t.log = q.1.log → t.isok = q.1.isok →
            (t.outbuf = if q.1.isok && decide (q.2.1 < s.outbuf.length) then s.outbuf.drop q.2.1 ++ q.1.outbuf else q.1.outbuf) →
            Bal (.loop w) s r := by
          intro k t hx k1 k2 pt t1 t2 t3
          have hb := ih k t r hx pt
          have hb : Plain r.1 ∧ received r.1.log = received t.log ∧ Base t r.1 := by
            cases k with
            | uwrite b => exact absurd rfl (k1 b)
            | uread n => exact absurd rfl (k2 n)
            | _ => exact hb
          exact ⟨hb.1, by rw [hb.2.1, t1, u2], (key t t1 t2 t3).trans hb.2.2⟩
        dsimp only at h
        by_cases hc : (q.1.isok && decide (q.2.1 < s.outbuf.length)) = true
        · rw [if_pos hc] at h
          have ho : ∀ x : List Byte, x = s.outbuf.drop q.2.1 ++ q.1.outbuf →
            x = if q.1.isok && decide (q.2.1 < s.outbuf.length) then s.outbuf.drop q.2.1 ++ q.1.outbuf else q.1.outbuf := by
            intro x hx; rw [if_pos hc]; exact hx
          split at h
          · exact fin _ _ h (by simp) (by simp) u1 rfl rfl (ho _ rfl)
          · split at h
            · exact fin _ _ h (by simp) (by simp) u1 rfl rfl (ho _ rfl)
            · split at h
              · exact fin _ _ h (by simp) (by simp) u1 rfl rfl (ho _ rfl)
              · exact fin _ _ h (by simp) (by simp) u1 rfl rfl (ho _ rfl)
        · rw [if_neg hc] at h
          have ho : ∀ x : List Byte, x = q.1.outbuf →
            x = if q.1.isok && decide (q.2.1 < s.outbuf.length) then s.outbuf.drop q.2.1 ++ q.1.outbuf else q.1.outbuf := by
            intro x hx; rw [if_neg hc]; exact hx
          split at h
          · exact fin _ _ h (by simp) (by simp) u1 rfl rfl (ho _ rfl)
          · split at h
            · exact fin _ _ h (by simp) (by simp) u1 rfl rfl (ho _ rfl)
            · split at h
              · exact fin _ _ h (by simp) (by simp) u1 rfl rfl (ho _ rfl)
              · exact fin _ _ h (by simp) (by simp) u1 rfl rfl (ho _ rfl)
    | after u =>
      unfold exec at h
      split at h
      · rename_i hc
        have e := auto_same dev f _ (by exact hp) r h
        subst e
        have hno : s.isok = false := by
          cases hx : s.isok with
          | false => rfl
          | true => rw [hx] at hc; simp at hc
        refine ⟨hp, rfl, fun o => ?_, List.prefix_rfl, ?_, fun _ => rfl, fun _ => rfl⟩
        · have : s.isok = true := o
          rw [this] at hno; cases hno
        · show sent s.log ++ [] <+: _
          rw [List.append_nil]; exact List.prefix_append _ _
      · exact (have := ih _ _ r h hp; this)
    | auto =>
      have e := auto_same dev (f + 1) s hp r h
      subst e
      exact ⟨hp, rfl, Base.refl _⟩
    | uwrite b =>
      unfold exec at h
      split at h
      · cases h
        exact ⟨hp, rfl, fun he => ⟨id, by simp, he, fun _ => rfl⟩⟩
      · rename_i hc
        have hok : s.isok = true := by
          cases hx : s.isok with
          | true => rfl
          | false => rw [hx] at hc; simp at hc
        have no : ∀ n : Nat, s.isok = false → n = 0 := fun n o => by rw [hok] at o; cases o
        dsimp only at h
        split at h
        · obtain ⟨q, hq, e⟩ := map_some h
          subst e
          obtain ⟨p1, p2, p3⟩ := ih _ _ q hq hp
          refine ⟨p1, p2, fun he => ⟨fun _ => hok, ?_, p3.2.2.2.1 he, no _⟩⟩
          show sent q.1.log = sent s.log ++ b.take 0
          rw [eq_of_base p3 he]; simp
        · rename_i d _
          split at h
          · cases h
            refine ⟨hp, ?_, fun he => ⟨fun _ => hok, ?_, he, no _⟩⟩
            · show received (s.log ++ [.wrote d _]) = _
              rw [received_append]; simp [received]
            · show sent (s.log ++ [.wrote d _]) = _
              rw [sent_append]; simp [sent]
          · split at h
            · cases h
              refine ⟨hp, ?_, fun he => ⟨fun _ => hok, ?_, he, no _⟩⟩
              · show received (s.log ++ [.wrote d _]) = _
                rw [received_append]; simp [received]
              · show sent (s.log ++ [.wrote d _]) = _
                rw [sent_append]; simp [sent]
            · obtain ⟨q, hq, e⟩ := map_some h
              subst e
              obtain ⟨p1, p2, p3⟩ := ih _ _ q hq hp
              refine ⟨p1, p2.trans ?_, fun he => ⟨fun _ => hok, ?_, p3.2.2.2.1 he, no _⟩⟩
              · show received (s.log ++ [.wrote d _]) = _
                rw [received_append]; simp [received]
              · show sent q.1.log = sent s.log ++ b.take 0
                rw [eq_of_base p3 he]
                show sent (s.log ++ [.wrote d []]) = _
                rw [sent_append]; simp [sent]
    | uread n =>
      have got : ∀ (d : Nat) (x : List Byte) (tk : Nat), Base s { s with tick := tk, log := s.log ++ [.got d x] } ∧
          received (s.log ++ [.got d x]) = received s.log ++ x := by
        intro d x tk
        have hs : sent (s.log ++ [.got d x]) = sent s.log := by rw [sent_append]; simp [sent]
        refine ⟨⟨fun o => ⟨o, ?_⟩, ?_, ?_, id, fun _ => hs⟩, by rw [received_append]; simp [received]⟩
        · show sent (s.log ++ [.got d x]) ++ s.outbuf = _
          rw [hs]
        · show _ <+: sent (s.log ++ [.got d x])
          rw [hs]; exact List.prefix_rfl
        · show sent (s.log ++ [.got d x]) ++ s.outbuf <+: _
          rw [hs]; exact List.prefix_rfl
      unfold exec at h
      split at h
      · cases h; exact ⟨hp, by simp, Base.refl _⟩
      · dsimp only at h
        split at h
        · obtain ⟨q, hq, e⟩ := map_some h
          subst e
          obtain ⟨p1, p2, p3⟩ := ih _ _ q hq hp
          exact ⟨p1, by simpa using p2, p3⟩
        · rename_i d _
          split at h
          · cases h
            exact ⟨hp, (got d _ 0).2, (got d _ _).1⟩
          · split at h
            · cases h
              exact ⟨hp, (got d _ 0).2, (got d _ _).1⟩
            · obtain ⟨q, hq, e⟩ := map_some h
              subst e
              obtain ⟨p1, p2, p3⟩ := ih _ _ q hq hp
              exact ⟨p1, p2.trans (got d [] 0).2, (got d [] _).1.trans p3⟩

/-- What has been sent, when `g` was given. -/
def Sound (s : St) (g : List Byte) : Prop :=
  Plain s ∧ (s.isok = true → sent s.log ++ s.outbuf = g) ∧ sent s.log <+: g

theorem base_sound {s t : St} {g : List Byte} (h : Sound s g) (hp : Plain t) (hb : Base s t) : Sound t g := by
  obtain ⟨_, h2, h3⟩ := h
  refine ⟨hp, fun o => ?_, ?_⟩
  · rw [(hb.1 o).2]; exact h2 (hb.1 o).1
  · cases ho : s.isok with
    | true => rw [← h2 ho]; exact (List.prefix_append _ _).trans hb.2.2.1
    | false => rw [hb.2.2.2.2 ho]; exact h3

theorem step_sound (dev : Nat → Ans) (f : Nat) (s : St) (g : List Byte) (h : Sound s g) (o : Op) (ho : Simple o) (r : St × List Byte) (hr : s.step dev f o = some r) :
    Sound r.1 (g ++ givenTo [o]) ∧ received r.1.log = received s.log ++ r.2 := by
  have hp := h.1
  have triv : ∀ (k : Call) (q : Res), exec dev f k s = some q → (∀ b, k ≠ .uwrite b) → (∀ n, k ≠ .uread n) →
      Sound q.1 (g ++ []) ∧ received q.1.log = received s.log ++ [] := by
    intro k q hx k1 k2
    have hb := bal dev f k s q hx hp
    have hb : Plain q.1 ∧ received q.1.log = received s.log ∧ Base s q.1 := by
      cases k with
      | uwrite b => exact absurd rfl (k1 b)
      | uread n => exact absurd rfl (k2 n)
      | _ => exact hb
    rw [List.append_nil, List.append_nil]
    exact ⟨base_sound h hb.1 hb.2.2, hb.2.1⟩
  cases o with
  | write b =>
    have hg : givenTo [Op.write b] = b := by simp [givenTo]
    rw [hg]
    unfold St.step at hr
    dsimp only at hr
    split at hr
    · rename_i hc
      cases hr
      refine ⟨⟨hp, fun ok => ?_, h.2.2.trans (List.prefix_append _ _)⟩, by simp⟩
      have : b = [] := by
        have h2 := hp.2.1
        rw [ok, h2] at hc
        simpa using hc
      rw [this, List.append_nil]; exact h.2.1 ok
    · rename_i hc
      have hok : s.isok = true := by
        cases hx : s.isok with
        | true => rfl
        | false => rw [hx] at hc; simp at hc
      obtain ⟨q, hq, hr⟩ := bind_some hr
      obtain ⟨p, hpp, e⟩ := map_some hr
      subst e
      have hbal : Plain q.1 ∧ received q.1.log = received s.log ∧ sent q.1.log ++ (q.1.outbuf ++ b.drop q.2.1) = g ++ b := by
        have hG := h.2.1 hok
        split at hq
        · rename_i he
          have he : s.outbuf = [] := by simpa using he
          obtain ⟨u1, u2, u3⟩ := bal dev f _ s q hq hp
          obtain ⟨_, v2, v3, _⟩ := u3 he
          refine ⟨u1, u2, ?_⟩
          rw [he, List.append_nil] at hG
          rw [v2, v3, List.nil_append, List.append_assoc, List.take_append_drop, hG]
        · cases hq
          refine ⟨hp, rfl, ?_⟩
          show sent s.log ++ (s.outbuf ++ b.drop 0) = _
          rw [List.drop_zero, ← List.append_assoc, hG]
      obtain ⟨q1, q2, q3⟩ := hbal
      obtain ⟨w1, w2, w3⟩ := bal dev f _ { q.1 with outbuf := q.1.outbuf ++ b.drop q.2.1 } p hpp q1
      refine ⟨⟨w1, fun ok => ((w3.1 ok).2).trans q3, ?_⟩, ?_⟩
      · have : sent p.1.log ++ p.1.outbuf <+: sent q.1.log ++ (q.1.outbuf ++ b.drop q.2.1) := w3.2.2.1
        rw [q3] at this
        exact (List.prefix_append _ _).trans this
      · show received p.1.log = _ ++ []
        rw [List.append_nil]; exact w2.trans q2
  | read n =>
    have hg : givenTo [Op.read n] = [] := rfl
    rw [hg, List.append_nil]
    unfold St.step at hr
    dsimp only at hr
    rw [if_pos (by rw [hp.2.2.2]; rfl)] at hr
    obtain ⟨q, hq, hr⟩ := bind_some hr
    obtain ⟨p, hpp, e⟩ := map_some hr
    subst e
    obtain ⟨u1, u2, u3⟩ := bal dev f _ s q hq hp
    have e := auto_same dev f _ u1 p hpp
    subst e
    exact ⟨base_sound h u1 u3, u2⟩
  | flush w => obtain ⟨q, hq, e⟩ := map_some hr; subst e; exact triv _ q hq (by simp) (by simp)
  | close => obtain ⟨q, hq, e⟩ := map_some hr; subst e; exact triv _ q hq (by simp) (by simp)
  | seterr e => obtain ⟨q, hq, e⟩ := map_some hr; subst e; exact triv _ q hq (by simp) (by simp)
  | auto => obtain ⟨q, hq, e⟩ := map_some hr; subst e; exact triv _ q hq (by simp) (by simp)
  | _ => exact absurd ho id

theorem given_cons (o : Op) (os : List Op) : givenTo (o :: os) = givenTo [o] ++ givenTo os := by cases o <;> simp [givenTo]

theorem run_sound (dev : Nat → Ans) (f : Nat) (os : List Op) : ∀ (s : St) (g : List Byte) (r : St × List Byte), Sound s g → (∀ o ∈ os, Simple o) →
    St.run dev f os s = some r → Sound r.1 (g ++ givenTo os) ∧ received r.1.log = received s.log ++ r.2 := by
  induction os with
  | nil => intro s g r h _ hr; cases hr; simpa [givenTo] using h
  | cons o os ih =>
    intro s g r h ho hr
    obtain ⟨q, hq, hr⟩ := bind_some hr
    obtain ⟨p, hp, e⟩ := map_some hr
    subst e
    obtain ⟨a1, a2⟩ := step_sound dev f s g h o (ho o (by simp)) q hq
    obtain ⟨b1, b2⟩ := ih _ _ p a1 (fun x hx => ho x (by simp [hx])) hp
    rw [given_cons, ← List.append_assoc]
    refine ⟨b1, ?_⟩
    show received p.1.log = _ ++ (q.2 ++ p.2)
    rw [b2, a2, List.append_assoc]

theorem make_sound (a b : Option Nat) : Sound (FdStream.make a b) [] ∧ received (FdStream.make a b).log = [] := by
  have : sent (FdStream.make a b).log = [] ∧ received (FdStream.make a b).log = [] := by
    unfold FdStream.make
    cases a <;> cases b <;> dsimp only <;> split <;> exact ⟨rfl, rfl⟩
  exact ⟨⟨⟨rfl, rfl, rfl, rfl⟩, fun _ => by rw [this.1]; rfl, by rw [this.1]; exact List.prefix_rfl⟩, this.2⟩

end LbP

/-- C143: when the system keeps what was written to a loopback stream and not read yet, in order, then what a program reads from it is the beginning of
    what it wrote, whatever it does and whatever the system answers; and while the stream is ok nothing is lost: what was read, what the system keeps and
    what is still to be written are all that the program wrote. -/
theorem C143_loop_partial (dev : Nat → Ans) (f : Nat) (a b : Nat) (os : List Op) (ho : ∀ o ∈ os, Simple o) (r : St × List Byte)
    (h : St.run dev f os (loop (.ok (a, b))) = some r) (q : List Byte) (hq : Holds r.1.log r.1.log q) :
    r.2 <+: givenTo os ∧ (r.1.isok = true → r.2 ++ q ++ r.1.outbuf = givenTo os) := by
  obtain ⟨m1, m2⟩ := LbP.make_sound (some a) (some b)
  obtain ⟨⟨_, s2, s3⟩, e⟩ := LbP.run_sound dev f os _ [] r m1 ho h
  have e : received r.1.log = r.2 := by
    rw [e]
    show received (FdStream.make (some a) (some b)).log ++ r.2 = r.2
    rw [m2]; rfl
  unfold Holds at hq
  rw [e] at hq
  rw [List.nil_append] at s2 s3
  refine ⟨?_, fun ok => ?_⟩
  · rw [hq] at s3; exact (List.prefix_append _ _).trans s3
  · rw [← hq]; exact s2 ok

/-- C143: so it is for each direction of two streams that are joined. -/
theorem C143_pair_partial (dev dev' : Nat → Ans) (f f' : Nat) (a b : Nat) (os os' : List Op) (ho : ∀ o ∈ os, Simple o) (ho' : ∀ o ∈ os', Simple o) (r r' : St × List Byte)
    (h : St.run dev f os (loop2 (.ok (a, b))).1 = some r) (h' : St.run dev' f' os' (loop2 (.ok (a, b))).2 = some r') (q q' : List Byte)
    (hq : Holds r.1.log r'.1.log q) (hq' : Holds r'.1.log r.1.log q') :
    (r'.2 <+: givenTo os ∧ (r.1.isok = true → r'.2 ++ q ++ r.1.outbuf = givenTo os)) ∧
    (r.2 <+: givenTo os' ∧ (r'.1.isok = true → r.2 ++ q' ++ r'.1.outbuf = givenTo os')) := by
  obtain ⟨m1, m2⟩ := LbP.make_sound (some a) (some a)
  obtain ⟨n1, n2⟩ := LbP.make_sound (some b) (some b)
  obtain ⟨⟨_, s2, s3⟩, e⟩ := LbP.run_sound dev f os _ [] r m1 ho h
  obtain ⟨⟨_, t2, t3⟩, e'⟩ := LbP.run_sound dev' f' os' _ [] r' n1 ho' h'
  have e : received r.1.log = r.2 := by
    rw [e]
    show received (FdStream.make (some a) (some a)).log ++ r.2 = r.2
    rw [m2]; rfl
  have e' : received r'.1.log = r'.2 := by
    rw [e']
    show received (FdStream.make (some b) (some b)).log ++ r'.2 = r'.2
    rw [n2]; rfl
  unfold Holds at hq hq'
  rw [e'] at hq
  rw [e] at hq'
  rw [List.nil_append] at s2 s3 t2 t3
  refine ⟨⟨?_, fun ok => ?_⟩, ?_, fun ok => ?_⟩
  · rw [hq] at s3; exact (List.prefix_append _ _).trans s3
  · rw [← hq]; exact s2 ok
  · rw [hq'] at t3; exact (List.prefix_append _ _).trans t3
  · rw [← hq']; exact t2 ok

/-- C143: without descriptors a loopback stream is not ok, and stays so. -/
theorem C143_broken (dev : Nat → Ans) (f : Nat) (e : Nat) (os : List Op) (ho : ∀ o ∈ os, Simple o) (r : St × List Byte)
    (h : St.run dev f os (loop (.error e)) = some r) : r.1.isok = false ∧ (loop2 (.error e)).1.isok = false ∧ (loop2 (.error e)).2.isok = false := by
  refine ⟨?_, rfl, rfl⟩
  have hs : ∀ (os : List Op) (s : St) (r : St × List Byte), LbP.Plain s → s.isok = false → (∀ o ∈ os, Simple o) → St.run dev f os s = some r → r.1.isok = false := by
    intro os
    induction os with
    | nil => intro s r _ hs _ h; cases h; exact hs
    | cons o os ih =>
      intro s r hp hs ho h
      obtain ⟨q, hq, h⟩ := LbP.bind_some h
      obtain ⟨p, hpp, e⟩ := LbP.map_some h
      subst e
      have hsound : LbP.Sound s (sent s.log) := ⟨hp, (fun o => by rw [hs] at o; cases o), List.prefix_rfl⟩
      have hp' : LbP.Plain q.1 := (LbP.step_sound dev f s _ hsound o (ho o (by simp)) q hq).1.1
      have hno : q.1.isok = false := by
        have triv : ∀ (k : Call) (p : Res), exec dev f k s = some p → (∀ b, k ≠ .uwrite b) → (∀ n, k ≠ .uread n) → p.1.isok = false := by
          intro k p hx k1 k2
          have hb := LbP.bal dev f k s p hx hp
          cases ht : p.1.isok with
          | false => rfl
          | true =>
            exfalso
            cases k with
            | uwrite b => exact k1 b rfl
            | uread n => exact k2 n rfl
            | _ => have := (hb.2.2.1 ht).1; rw [hs] at this; cases this
        have hoo := ho o (by simp)
        cases o with
        | write b =>
          unfold St.step at hq
          dsimp only at hq
          rw [hs] at hq
          simp at hq
          rw [← hq]; exact hs
        | read n =>
          unfold St.step at hq
          dsimp only at hq
          rw [if_pos (by rw [hp.2.2.2]; rfl)] at hq
          obtain ⟨u, hu, hq⟩ := LbP.bind_some hq
          obtain ⟨v, hv, e⟩ := LbP.map_some hq
          subst e
          have hb := LbP.bal dev f _ s u hu hp
          have e := LbP.auto_same dev f _ hb.1 v hv
          subst e
          cases ht : u.1.isok with
          | false => rfl
          | true => have := (hb.2.2.1 ht).1; rw [hs] at this; cases this
        | flush w => obtain ⟨x, hx, e⟩ := LbP.map_some hq; subst e; exact triv _ x hx (by simp) (by simp)
        | close => obtain ⟨x, hx, e⟩ := LbP.map_some hq; subst e; exact triv _ x hx (by simp) (by simp)
        | seterr e => obtain ⟨x, hx, e⟩ := LbP.map_some hq; subst e; exact triv _ x hx (by simp) (by simp)
        | auto => obtain ⟨x, hx, e⟩ := LbP.map_some hq; subst e; exact triv _ x hx (by simp) (by simp)
        | _ => exact absurd hoo id
      exact ih _ p hp' hno (fun x hx => ho x (by simp [hx])) hpp
  exact hs os _ r ⟨rfl, rfl, rfl, rfl⟩ rfl ho h

namespace LbP

/-- The system takes two bytes, and then gives them. -/
def dev : Nat → Ans := fun t => if t = 0 then ⟨2, [], none, true⟩ else if t = 1 then ⟨0, [], none, true⟩ else ⟨0, [1, 2], none, true⟩

end LbP

example : (St.run LbP.dev 20 [.write [1, 2, 3], .read 1] (loop (.ok (4, 5)))).map (fun r => (r.2, r.1.outbuf, r.1.isok)) = some ([1], [3], true) := by
  decide +kernel
example : (St.run LbP.dev 20 [.write [1, 2, 3], .read 1] (loop (.ok (4, 5)))).map (fun r => decide (sent r.1.log = received r.1.log ++ [2])) = some true := by
  decide +kernel
example : ∀ o ∈ [Op.write [1, 2, 3], .read 1], Simple o := by simp [Simple]

end Props
