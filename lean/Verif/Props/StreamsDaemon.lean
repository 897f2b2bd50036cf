import Verif.Model.StreamsDaemon
/-!
C123: daemons that run streams.
-/
namespace Props
open Wv Wv.StreamsDaemon
open Spec.StreamsDaemon

namespace SdP

/-- `t` comes from `s` by closing and freeing: lists, `full` and the state of the loop are the same; if the daemon is to stop, it stays as it is. -/
structure Soft (s t : World) : Prop where
  pc : t.pc = s.pc
  full : t.full = s.full
  own : t.own = s.own
  glob : t.glob = s.glob
  die : s.die = true → t.die = true
  restart : s.restart = true → t.restart = true
  still : s.should = false → t.die = s.die ∧ t.restart = s.restart

theorem Soft.rfl' {s : World} : Soft s s := ⟨rfl, rfl, rfl, rfl, id, id, fun _ => ⟨rfl, rfl⟩⟩

theorem Soft.trans {s t u : World} (h : Soft s t) (g : Soft t u) : Soft s u := by
  refine ⟨g.pc.trans h.pc, g.full.trans h.full, g.own.trans h.own, g.glob.trans h.glob, fun x => g.die (h.die x), fun x => g.restart (h.restart x), fun x => ?_⟩
  obtain ⟨a, b⟩ := h.still x
  have : t.should = false := by unfold World.should at x ⊢; rw [a, b]; exact x
  obtain ⟨c, d⟩ := g.still this
  exact ⟨c.trans a, d.trans b⟩

theorem fire_soft (w : World) (k : Kind) : Soft w (w.fire k) ∧ (w.fire k).objs = w.objs := by
  unfold World.fire
  split
  · rename_i hs
    cases k with
    | plain => exact ⟨Soft.rfl', rfl⟩
    | restart => exact ⟨⟨rfl, rfl, rfl, rfl, id, fun _ => rfl, fun x => by rw [hs] at x; cases x⟩, rfl⟩
    | die => exact ⟨⟨rfl, rfl, rfl, rfl, fun _ => rfl, id, fun x => by rw [hs] at x; cases x⟩, rfl⟩
  · exact ⟨Soft.rfl', rfl⟩

theorem objs_soft (w : World) (o : Nat → Option Strm) : Soft w { w with objs := o } := ⟨rfl, rfl, rfl, rfl, id, id, fun _ => ⟨rfl, rfl⟩⟩

theorem close_soft (w : World) (a : Nat) : Soft w (w.close a) ∧ ∀ b, b ≠ a → (w.close a).objs b = w.objs b := by
  unfold World.close
  split
  · rename_i s hs
    dsimp only
    split
    · rename_i k hk
      obtain ⟨h1, h2⟩ := fire_soft { w with objs := upd w.objs a (some ⟨false, none⟩) } k
      refine ⟨(objs_soft w _).trans h1, fun b hb => ?_⟩
      rw [h2]; simp [upd, hb]
    · exact ⟨objs_soft w _, fun b hb => by simp [upd, hb]⟩
  · exact ⟨Soft.rfl', fun _ _ => rfl⟩

theorem free_soft (w : World) (a : Nat) : Soft w (w.free a) ∧ (∀ b, b ≠ a → (w.free a).objs b = w.objs b) ∧ (w.free a).objs a = none := by
  obtain ⟨h1, h2⟩ := close_soft w a
  refine ⟨h1.trans (objs_soft _ _), fun b hb => ?_, by simp [World.free, upd]⟩
  show (upd (w.close a).objs a none) b = _
  simp only [upd, hb, if_false]
  exact h2 b hb

theorem freeAll_soft : ∀ (l : List (Nat × Bool)) (w : World), Soft w (w.freeAll l) ∧ (∀ b, (b, true) ∉ l → (w.freeAll l).objs b = w.objs b) ∧ ∀ b, (b, true) ∈ l → (w.freeAll l).objs b = none := by
  intro l
  induction l with
  | nil => intro w; exact ⟨Soft.rfl', fun _ _ => rfl, fun b h => by cases h⟩
  | cons x l ih =>
    intro w
    obtain ⟨a, f⟩ := x
    show Soft w (World.freeAll (if f = true then w.free a else w) l) ∧ _
    cases f with
    | false =>
      obtain ⟨h1, h2, h3⟩ := ih w
      exact ⟨h1, fun b hb => h2 b (fun x => hb (List.mem_cons_of_mem _ x)), fun b hb => h3 b (by simpa using hb)⟩
    | true =>
      obtain ⟨h1, h2, h3⟩ := ih (w.free a)
      obtain ⟨g1, g2, g3⟩ := free_soft w a
      refine ⟨g1.trans h1, fun b hb => ?_, fun b hb => ?_⟩
      · have hb1 : b ≠ a := fun e => hb (by simp [e])
        exact (h2 b (fun x => hb (List.mem_cons_of_mem _ x))).trans (g2 b hb1)
      · by_cases hm : (b, true) ∈ l
        · exact h3 b hm
        · have hb1 : b = a := by simpa [hm] using hb
          subst hb1
          exact (h2 b hm).trans g3

/-- `unlink` removes one address. -/
theorem unlink_eq (w : World) (a : Nat) : Soft { w with glob := w.glob.filter fun x => x.1 != a } (w.unlink a) ∧ (∀ b, b ≠ a → (w.unlink a).objs b = w.objs b) ∧
    ((a, true) ∈ w.glob → (w.unlink a).objs a = none) := by
  unfold World.unlink
  dsimp only
  split
  · obtain ⟨h1, h2, h3⟩ := free_soft { w with glob := w.glob.filter fun x => x.1 != a } a
    exact ⟨h1, h2, fun _ => h3⟩
  · rename_i hn
    refine ⟨Soft.rfl', fun _ _ => rfl, fun h => ?_⟩
    exact absurd (List.any_eq_true.2 ⟨_, h, by simp⟩) hn

theorem unlinks_none : ∀ (l : List Nat) (w : World) (b : Nat), w.objs b = none → (l.foldl World.unlink w).objs b = none := by
  intro l
  induction l with
  | nil => intro w b h; exact h
  | cons a l ih =>
    intro w b h
    refine ih (w.unlink a) b ?_
    by_cases e : b = a
    · subst e
      unfold World.unlink
      dsimp only
      split
      · exact (free_soft _ b).2.2
      · exact h
    · rw [(unlink_eq w a).2.1 b e]; exact h

/-- Unlinking several. -/
theorem unlinks_eq : ∀ (l : List Nat) (w : World), Soft { w with glob := w.glob.filter fun x => !l.contains x.1 } (l.foldl World.unlink w) ∧
    (∀ b, b ∉ l → (l.foldl World.unlink w).objs b = w.objs b) ∧ ∀ b, b ∈ l → (b, true) ∈ w.glob → (l.foldl World.unlink w).objs b = none := by
  intro l
  induction l with
  | nil =>
    intro w
    refine ⟨?_, fun _ _ => rfl, fun b h => by cases h⟩
    have : (w.glob.filter fun x => !([] : List Nat).contains x.1) = w.glob := by simp
    rw [this]; exact Soft.rfl'
  | cons a l ih =>
    intro w
    obtain ⟨h1, h2, h3⟩ := ih (w.unlink a)
    obtain ⟨g1, g2, g3⟩ := unlink_eq w a
    have hg : (w.unlink a).glob = w.glob.filter fun x => x.1 != a := g1.glob
    rw [hg] at h1
    have hf : ((w.glob.filter fun x => x.1 != a).filter fun x => !l.contains x.1) = w.glob.filter fun x => !(a :: l).contains x.1 := by
      rw [List.filter_filter]
      congr 1
      funext x
      simp only [List.contains_cons, Bool.not_or]
      rw [Bool.and_comm]
      rfl
    rw [hf] at h1
    refine ⟨?_, fun b hb => ?_, fun b hb hm => ?_⟩
    · refine Soft.trans ?_ h1
      exact ⟨g1.pc, g1.full, g1.own, rfl, g1.die, g1.restart, g1.still⟩
    · exact (h2 b (fun x => hb (List.mem_cons_of_mem _ x))).trans (g2 b (fun e => hb (by simp [e])))
    · by_cases hl : b = a
      · subst hl
        by_cases hbl : b ∈ l
        · by_cases hn : (b, true) ∈ (w.unlink b).glob
          · exact h3 b hbl hn
          · exact unlinks_none l (w.unlink b) b (g3 hm)
        · exact (h2 b hbl).trans (g3 hm)
      · have hbl : b ∈ l := by simpa [hl] using hb
        exact h3 b hbl (by rw [hg]; simp [hm, hl])

theorem unlinks_spared : ∀ (l : List Nat) (w : World) (b : Nat), (b, true) ∉ w.glob → (l.foldl World.unlink w).objs b = w.objs b := by
  intro l
  induction l with
  | nil => intro w b _; rfl
  | cons a l ih =>
    intro w b h
    obtain ⟨g1, g2, _⟩ := unlink_eq w a
    have hg : (w.unlink a).glob = w.glob.filter fun x => x.1 != a := g1.glob
    refine (ih (w.unlink a) b (by rw [hg]; exact fun x => h (List.mem_filter.1 x).1)).trans ?_
    by_cases e : b = a
    · subst e
      unfold World.unlink
      dsimp only
      rw [if_neg]
      intro hx
      obtain ⟨x, hx1, hx2⟩ := List.any_eq_true.1 hx
      obtain ⟨c, f⟩ := x
      simp at hx2
      obtain ⟨rfl, rfl⟩ := hx2
      exact h hx1
    · exact g2 b e

/-- What `stop` does. -/
theorem stop_eq (w : World) (hs : w.should = false) :
    w.stop.own = [] ∧ w.stop.die = w.die ∧ w.stop.restart = w.restart ∧ w.stop.full = w.full ∧ w.stop.pc = w.pc ∧
    w.stop.glob = (if w.full || w.die then [] else w.glob.filter fun x => !w.own.contains x.1) ∧
    (∀ b, b ∉ w.own → (w.full || w.die) = false → w.stop.objs b = w.objs b) ∧
    (∀ b, (b, true) ∈ w.glob → b ∈ w.own ∨ (w.full || w.die) = true → w.stop.objs b = none) := by
  obtain ⟨h1, h2, h3⟩ := unlinks_eq w.own w
  obtain ⟨d1, d2⟩ := h1.still hs
  have hst : w.stop = if (w.own.foldl World.unlink w).full || (w.own.foldl World.unlink w).die then World.zap { (w.own.foldl World.unlink w) with own := [] }
      else { (w.own.foldl World.unlink w) with own := [] } := rfl
  generalize w.own.foldl World.unlink w = v at h1 h2 h3 d1 d2 hst
  have hf : v.full = w.full := h1.full
  have hd : v.die = w.die := d1
  have hr : v.restart = w.restart := d2
  have hg : v.glob = w.glob.filter fun x => !w.own.contains x.1 := h1.glob
  have hp : v.pc = w.pc := h1.pc
  have hcond : (v.full || v.die) = (w.full || w.die) := by rw [hf, hd]
  rw [hcond] at hst
  rw [hst]
  cases hc : (w.full || w.die) with
  | false =>
    simp only [Bool.false_eq_true, if_false]
    exact ⟨trivial, hd, hr, hf, hp, hg, fun b hb _ => h2 b hb, fun b hm ho => by
      rcases ho with ho | ho
      · exact h3 b ho hm
      · cases ho⟩
  | true =>
    simp only [if_true]
    obtain ⟨k1, k2, k3⟩ := freeAll_soft v.glob { v with own := [], glob := [] }
    have hsh : World.should { v with own := [], glob := [] } = false := by
      unfold World.should
      dsimp only
      rw [hd, hr]; exact hs
    obtain ⟨e1, e2⟩ := k1.still hsh
    refine ⟨k1.own, e1.trans hd, e2.trans hr, k1.full.trans hf, k1.pc.trans hp, k1.glob, fun _ _ x => (by cases x), fun b hm _ => ?_⟩
    by_cases ho : b ∈ w.own
    · have hn : v.objs b = none := h3 b ho hm
      by_cases hbm : (b, true) ∈ v.glob
      · exact k3 b hbm
      · exact (k2 b hbm).trans hn
    · exact k3 b (by rw [hg]; simp [hm, ho])

theorem prune_eq (w : World) : Soft { w with glob := w.glob.filter fun x => !w.bad x.1 } w.prune ∧ ∀ b, w.bad b = false → w.prune.objs b = w.objs b := by
  obtain ⟨h1, h2, _⟩ := freeAll_soft (w.glob.filter fun x => w.bad x.1) { w with glob := w.glob.filter fun x => !w.bad x.1 }
  refine ⟨h1, fun b hb => h2 b (fun hm => ?_)⟩
  have := (List.mem_filter.1 hm).2
  simp [hb] at this

/-- What an act does to the flags and the lists. -/
theorem act_soft (w : World) (o : Act) : (w.act o).pc = w.pc ∧ (w.die = true → (w.act o).die = true) ∧ (w.restart = true → (w.act o).restart = true) ∧ (w.full = true → (w.act o).full = true) ∧
    (∀ x, x ∈ w.glob → x ∈ (w.act o).glob) ∧ (∀ a, (∀ f k, o ≠ .add a f k) → a ∉ w.own → a ∉ (w.act o).own) ∧
    (∀ a s, w.objs a = some s → o ≠ .close a → (∀ f k, o ≠ .add a f k) → (w.act o).objs a = some s) := by
  cases o with
  | new b ok =>
    unfold World.act
    dsimp only
    split
    · rename_i hb
      refine ⟨rfl, id, id, id, fun _ => id, fun _ _ => id, fun a s hs _ _ => ?_⟩
      have : a ≠ b := by rintro rfl; rw [hs] at hb; cases hb
      simp [upd, this, hs]
    · exact ⟨rfl, id, id, id, fun _ => id, fun _ _ => id, fun _ _ h _ _ => h⟩
  | add b f k =>
    unfold World.act
    dsimp only
    split
    · unfold World.add
      have key : ∀ k', let w' : World := { w with own := w.own ++ [b], glob := w.glob ++ [(b, f)] }
          Soft w' (w'.onclose b k') ∧ ∀ a, a ≠ b → (w'.onclose b k').objs a = w.objs a := by
        intro k'
        dsimp only
        unfold World.onclose
        split
        · split
          · exact ⟨objs_soft _ _, fun a ha => by simp [upd, ha]⟩
          · refine ⟨(objs_soft _ _).trans (fire_soft _ _).1, fun a ha => ?_⟩
            rw [(fire_soft _ _).2]
            simp [upd, ha]
        · exact ⟨Soft.rfl', fun _ _ => rfl⟩
      have fin : ∀ t : World, Soft { w with own := w.own ++ [b], glob := w.glob ++ [(b, f)] } t → (∀ a, a ≠ b → t.objs a = w.objs a) →
          t.pc = w.pc ∧ (w.die = true → t.die = true) ∧ (w.restart = true → t.restart = true) ∧ (w.full = true → t.full = true) ∧
          (∀ x, x ∈ w.glob → x ∈ t.glob) ∧ (∀ a, (∀ f' k', Act.add b f k ≠ .add a f' k') → a ∉ w.own → a ∉ t.own) ∧
          (∀ a s, w.objs a = some s → Act.add b f k ≠ .close a → (∀ f' k', Act.add b f k ≠ .add a f' k') → t.objs a = some s) := by
        intro t h h'
        refine ⟨h.pc, h.die, h.restart, fun x => h.full.trans x, fun x hx => by rw [h.glob]; simp [hx], fun a ha hn => ?_, fun a s hs _ ha => ?_⟩
        · rw [h.own]
          have : a ≠ b := by rintro rfl; exact ha f k rfl
          simp [hn, this]
        · have : a ≠ b := by rintro rfl; exact ha f k rfl
          rw [h' a this, hs]
      cases k with
      | plain => exact fin _ Soft.rfl' (fun _ _ => rfl)
      | restart => exact fin _ (key .restart).1 (key .restart).2
      | die => exact fin _ (key .die).1 (key .die).2
    · exact ⟨rfl, id, id, id, fun _ => id, fun _ _ => id, fun _ _ h _ _ => h⟩
  | append b f =>
    unfold World.act
    dsimp only
    split
    · exact ⟨rfl, id, id, id, fun x hx => by simp [hx], fun _ _ => id, fun _ _ h _ _ => h⟩
    · exact ⟨rfl, id, id, id, fun _ => id, fun _ _ => id, fun _ _ h _ _ => h⟩
  | close b =>
    obtain ⟨h, h'⟩ := close_soft w b
    refine ⟨h.pc, h.die, h.restart, fun x => h.full.trans x, fun x hx => by show x ∈ (w.close b).glob; rw [h.glob]; exact hx, fun a _ hn => by show a ∉ (w.close b).own; rw [h.own]; exact hn, fun a s hs hc _ => ?_⟩
    have : a ≠ b := by rintro rfl; exact hc rfl
    exact (h' a this).trans hs
  | restart => exact ⟨rfl, id, fun _ => rfl, id, fun _ => id, fun _ _ => id, fun _ _ h _ _ => h⟩
  | die => exact ⟨rfl, fun _ => rfl, id, id, fun _ => id, fun _ _ => id, fun _ _ h _ _ => h⟩
  | full => exact ⟨rfl, id, id, fun _ => rfl, fun _ => id, fun _ _ => id, fun _ _ h _ _ => h⟩

theorem acts_soft : ∀ (l : List Act) (w : World), (l.foldl World.act w).pc = w.pc ∧ (w.die = true → (l.foldl World.act w).die = true) ∧ (w.restart = true → (l.foldl World.act w).restart = true) ∧
    (w.full = true → (l.foldl World.act w).full = true) ∧ (∀ x, x ∈ w.glob → x ∈ (l.foldl World.act w).glob) ∧
    (∀ a, (∀ f k, .add a f k ∉ l) → a ∉ w.own → a ∉ (l.foldl World.act w).own) ∧
    (∀ a s, w.objs a = some s → .close a ∉ l → (∀ f k, .add a f k ∉ l) → (l.foldl World.act w).objs a = some s) := by
  intro l
  induction l with
  | nil => intro w; exact ⟨rfl, id, id, id, fun _ => id, fun _ _ => id, fun _ _ h _ _ => h⟩
  | cons o l ih =>
    intro w
    obtain ⟨a1, a2, a3, a4, a5, a6, a7⟩ := act_soft w o
    obtain ⟨b1, b2, b3, b4, b5, b6, b7⟩ := ih (w.act o)
    refine ⟨b1.trans a1, fun x => b2 (a2 x), fun x => b3 (a3 x), fun x => b4 (a4 x), fun x hx => b5 x (a5 x hx), fun a ha hn => ?_, fun a s hs hc ha => ?_⟩
    · exact b6 a (fun f k h => ha f k (List.mem_cons_of_mem _ h)) (a6 a (fun f k h => ha f k (by simp [h])) hn)
    · exact b7 a s (a7 a s hs (fun h => hc (by simp [h])) (fun f k h => ha f k (by simp [h]))) (fun h => hc (List.mem_cons_of_mem _ h)) (fun f k h => ha f k (List.mem_cons_of_mem _ h))

/-- What is so after every history. -/
structure Inv (w : World) : Prop where
  own : w.pc ≠ .running → w.own = []
  gone : w.pc ≠ .running → w.die = true → w.glob = []
  ended : w.pc = .ended → w.die = true

theorem tick_inv {w : World} (h : Inv w) (acts : List Act) : Inv (w.tick acts) := by
  unfold World.tick
  split
  · rename_i hp
    split
    · rename_i hd
      exact ⟨fun _ => h.own (by rw [hp]; simp), fun _ x => h.gone (by rw [hp]; simp) x, fun _ => hd⟩
    · have := (acts_soft acts { w with restart := false, pc := .running }).1
      exact ⟨fun x => absurd this x, fun x => absurd this x, fun x => by rw [this] at x; cases x⟩
  · rename_i hp
    split
    · split
      · exact ⟨fun x => absurd hp x, fun x => absurd hp x, fun _ => rfl⟩
      · have : ((acts.foldl World.act w).prune).pc = .running := by
          rw [(prune_eq _).1.pc]
          exact (acts_soft acts w).1.trans hp
        exact ⟨fun x => absurd this x, fun x => absurd this x, fun x => by rw [this] at x; cases x⟩
    · rename_i hs
      obtain ⟨s1, s2, s3, s4, s5, s6, _⟩ := stop_eq w (by simpa using hs)
      refine ⟨fun _ => s1, fun _ hd => ?_, fun x => by cases x⟩
      have hd : w.stop.die = true := hd
      rw [s2] at hd
      show w.stop.glob = []
      rw [s6, hd]; simp
  · exact h

theorem run_inv : ∀ (l : List (List Act)) (w : World), Inv w → Inv (run w l) := by
  intro l
  induction l with
  | nil => intro w h; exact h
  | cons a l ih => intro w h; exact ih _ (tick_inv h a)

theorem begin_inv : Inv begin := ⟨fun _ => rfl, fun _ h => (by cases h), fun h => (by cases h)⟩

/-- `die` and `full` are for ever. -/
theorem tick_mono (w : World) (acts : List Act) : (w.die = true → (w.tick acts).die = true) ∧ (w.full = true → (w.tick acts).full = true) := by
  unfold World.tick
  split
  · split
    · exact ⟨id, id⟩
    · obtain ⟨_, h2, _, h4, _⟩ := acts_soft acts { w with restart := false, pc := .running }
      exact ⟨h2, h4⟩
  · split
    · split
      · exact ⟨fun _ => rfl, id⟩
      · obtain ⟨_, h2, _, h4, _⟩ := acts_soft acts w
        exact ⟨fun x => (prune_eq _).1.die (h2 x), fun x => (prune_eq _).1.full.trans (h4 x)⟩
    · rename_i hs
      obtain ⟨s1, s2, s3, s4, _⟩ := stop_eq w (by simpa using hs)
      exact ⟨fun x => s2.trans x, fun x => s4.trans x⟩
  · exact ⟨id, id⟩

theorem run_mono : ∀ (l : List (List Act)) (w : World), (w.die = true → (run w l).die = true) ∧ (w.full = true → (run w l).full = true) := by
  intro l
  induction l with
  | nil => intro w; exact ⟨id, id⟩
  | cons a l ih =>
    intro w
    obtain ⟨h1, h2⟩ := tick_mono w a
    obtain ⟨g1, g2⟩ := ih (w.tick a)
    exact ⟨fun x => g1 (h1 x), fun x => g2 (h2 x)⟩

/-- A connection that is not closed is kept. -/
theorem tick_keeps {w : World} {a : Nat} {f : Bool} {c : Option Kind} (acts : List Act) (h1 : (a, f) ∈ w.glob) (h2 : a ∉ w.own) (h3 : w.objs a = some ⟨true, c⟩) (hc : .close a ∉ acts)
    (ha : ∀ f k, .add a f k ∉ acts) (hd : w.die = false) (hf : w.full = false) :
    (a, f) ∈ (w.tick acts).glob ∧ a ∉ (w.tick acts).own ∧ (w.tick acts).objs a = some ⟨true, c⟩ := by
  unfold World.tick
  split
  · rw [if_neg (by simp [hd])]
    obtain ⟨_, _, _, _, g5, g6, g7⟩ := acts_soft acts { w with restart := false, pc := .running }
    exact ⟨g5 _ h1, g6 a ha h2, g7 a _ h3 hc ha⟩
  · split
    · split
      · exact ⟨h1, h2, h3⟩
      · obtain ⟨_, _, _, _, g5, g6, g7⟩ := acts_soft acts w
        obtain ⟨p1, p2⟩ := prune_eq (acts.foldl World.act w)
        have ho := g7 a _ h3 hc ha
        have hb : (acts.foldl World.act w).bad a = false := by unfold World.bad; rw [ho]; rfl
        refine ⟨?_, ?_, (p2 a hb).trans ho⟩
        · rw [p1.glob]
          exact List.mem_filter.2 ⟨g5 _ h1, by simp [hb]⟩
        · rw [p1.own]; exact g6 a ha h2
    · rename_i hs
      obtain ⟨s1, _, _, _, _, s6, s7, _⟩ := stop_eq w (by simpa using hs)
      refine ⟨?_, ?_, ?_⟩
      · show (a, f) ∈ w.stop.glob
        rw [s6, hd, hf]
        exact List.mem_filter.2 ⟨h1, by simp [h2]⟩
      · show a ∉ w.stop.own
        rw [s1]; simp
      · exact (s7 a h2 (by rw [hd, hf]; rfl)).trans h3
  · exact ⟨h1, h2, h3⟩

end SdP

/-- C123 (what is not freed): when the daemon stops, in whichever way, every stream that was not added to be freed is as it was. -/
theorem C123_spared (w : World) (acts : List Act) (hp : w.pc = .running) (hs : w.should = false) (a : Nat) (h : (a, true) ∉ w.glob) :
    (w.tick acts).objs a = w.objs a := by
  have ht : w.tick acts = { w.stop with pc := .idle } := by
    unfold World.tick
    rw [hp]
    dsimp only
    rw [hs]; rfl
  rw [ht]
  show w.stop.objs a = _
  have h1 := SdP.unlinks_spared w.own w a h
  have hg : (w.own.foldl World.unlink w).glob = w.glob.filter fun x => !w.own.contains x.1 := (SdP.unlinks_eq w.own w).1.glob
  have hst : w.stop = if (w.own.foldl World.unlink w).full || (w.own.foldl World.unlink w).die then World.zap { (w.own.foldl World.unlink w) with own := [] }
      else { (w.own.foldl World.unlink w) with own := [] } := rfl
  generalize w.own.foldl World.unlink w = v at h1 hg hst
  rw [hst]
  split
  · have k2 := (SdP.freeAll_soft v.glob { v with own := [], glob := [] }).2.1 a (by rw [hg]; exact fun x => h (List.mem_filter.1 x).1)
    exact k2.trans h1
  · exact h1

/-- A stream that belongs to somebody else is added twice over; it is there when the daemon has stopped, and the one beside it is not. -/
example : let w : World := ⟨.running, false, true, false, [1, 2], [(1, false), (2, true)], fun a => if a = 1 ∨ a = 2 then some ⟨true, none⟩ else none⟩
    (w.tick []).objs 1 = some ⟨true, none⟩ ∧ (w.tick []).objs 2 = none := by decide +kernel

/-- C123 (stopping): when the daemon stops, whether to restart or to die, none of its streams stays in the list of all streams, and those that were to be freed are; the other
    streams stay, in order and as they are, if it only restarts and was not asked to close all; else the list is emptied. -/
theorem C123_stop (w : World) (acts : List Act) (hp : w.pc = .running) (hs : w.should = false) :
    let t := w.tick acts
    t.pc = .idle ∧ t.own = [] ∧ t.die = w.die ∧ (∀ a f, a ∈ w.own → (a, f) ∉ t.glob) ∧
    (w.full = false → w.die = false → t.glob = w.glob.filter (fun x => !w.own.contains x.1) ∧ ∀ a, a ∉ w.own → t.objs a = w.objs a) ∧
    (w.full = true ∨ w.die = true → t.glob = []) ∧
    (∀ a, (a, true) ∈ w.glob → a ∈ w.own ∨ w.full = true ∨ w.die = true → t.objs a = none) := by
  obtain ⟨s1, s2, s3, s4, s5, s6, s7, s8⟩ := SdP.stop_eq w hs
  have ht : w.tick acts = { w.stop with pc := .idle } := by
    unfold World.tick
    rw [hp]
    dsimp only
    rw [hs]; rfl
  dsimp only
  rw [ht]
  refine ⟨rfl, s1, s2, fun a f ha hm => ?_, fun hf hd => ?_, fun h => ?_, fun a hm h => ?_⟩
  · have hm : (a, f) ∈ w.stop.glob := hm
    rw [s6] at hm
    split at hm
    · cases hm
    · have := (List.mem_filter.1 hm).2
      simp [ha] at this
  · refine ⟨?_, fun a ha => s7 a ha (by rw [hf, hd]; rfl)⟩
    show w.stop.glob = _
    rw [s6, hf, hd]; rfl
  · show w.stop.glob = []
    rw [s6, if_pos (by simpa using h)]
  · exact s8 a hm (by simpa using h)

/-- C123 (between): in every history, a daemon that does not run has no streams; and one that has ended was told to die, and has left no streams in the list of all streams. -/
theorem C123_idle (l : List (List Act)) : ((run begin l).pc ≠ .running → (run begin l).own = []) ∧ ((run begin l).pc = .ended → (run begin l).die = true ∧ (run begin l).glob = []) := by
  have h := SdP.run_inv l begin SdP.begin_inv
  exact ⟨h.own, fun x => ⟨h.ended x, h.gone (by rw [x]; simp) (h.ended x)⟩⟩

/-- C123 (adding): a stream that is added is in both lists; if it is ok, closing it will make the daemon restart or die, as asked for; if it is not, that happens now. -/
theorem C123_add (w : World) (a : Nat) (f : Bool) (k : Kind) (s : Strm) (hs : w.objs a = some s) :
    (w.act (.add a f k)).own = w.own ++ [a] ∧ (w.act (.add a f k)).glob = w.glob ++ [(a, f)] ∧
    (s.ok = true → k ≠ .plain → (w.act (.add a f k)).objs a = some ⟨true, some k⟩ ∧ (w.act (.add a f k)).die = w.die ∧ (w.act (.add a f k)).restart = w.restart) ∧
    (s.ok = false → w.should = true → (w.act (.add a f k)).die = decide (k = .die) ∧ (w.act (.add a f k)).restart = decide (k = .restart)) := by
  have hw : w.should = true → w.die = false ∧ w.restart = false := by
    intro h; simpa [World.should] using h
  cases k <;> cases ho : s.ok <;> cases hd : w.die <;> cases hr : w.restart <;>
    simp [World.act, World.add, World.onclose, World.fire, World.should, hs, ho, hd, hr, upd]

/-- C123 (closing): when such a stream is closed while the daemon runs, the daemon does not go on; and if it was to run up to then, it dies, or restarts, as was asked for. -/
theorem C123_close (w : World) (a : Nat) (k : Kind) (hk : k ≠ .plain) (pre post : List Act) (hp : w.pc = .running) (hs : w.should = true) (ho : w.own ≠ []) (ha : w.objs a = some ⟨true, some k⟩)
    (hc : .close a ∉ pre) (hadd : ∀ f k, .add a f k ∉ pre) :
    let t := w.tick (pre ++ .close a :: post)
    t.pc = .running ∧ t.should = false ∧ ((pre.foldl World.act w).should = true → (k = .die → t.die = true) ∧ (k = .restart → t.restart = true)) := by
  have ht : w.tick (pre ++ .close a :: post) = ((pre ++ .close a :: post).foldl World.act w).prune := by
    unfold World.tick
    rw [hp]
    dsimp only
    rw [hs, if_pos rfl, if_neg (by simpa using ho)]
  dsimp only
  rw [ht, List.foldl_append, List.foldl_cons]
  have hobj := (SdP.acts_soft pre w).2.2.2.2.2.2 a _ ha hc hadd
  have hpc := (SdP.acts_soft pre w).1
  generalize pre.foldl World.act w = v at hobj hpc
  obtain ⟨b1, b2, b3, _⟩ := SdP.acts_soft post (v.act (.close a))
  obtain ⟨p1, _⟩ := SdP.prune_eq (post.foldl World.act (v.act (.close a)))
  have hcl : v.act (.close a) = World.fire { v with objs := upd v.objs a (some ⟨false, none⟩) } k := by
    show v.close a = _
    unfold World.close
    rw [hobj]
  have hd : (v.act (.close a)).die = true → (post.foldl World.act (v.act (.close a))).prune.die = true := fun x => p1.die (b2 x)
  have hr : (v.act (.close a)).restart = true → (post.foldl World.act (v.act (.close a))).prune.restart = true := fun x => p1.restart (b3 x)
  have hpc2 : (v.act (.close a)).pc = .running := (SdP.act_soft v (.close a)).1.trans (hpc.trans hp)
  refine ⟨p1.pc.trans (b1.trans hpc2), ?_, fun hv => ?_⟩
  · have : (v.act (.close a)).should = false := by
      rw [hcl]
      cases k with
      | plain => exact absurd rfl hk
      | restart => cases h1 : v.die <;> cases h2 : v.restart <;> simp [World.fire, World.should, h1, h2]
      | die => cases h1 : v.die <;> cases h2 : v.restart <;> simp [World.fire, World.should, h1, h2]
    have h2 : (v.act (.close a)).die = true ∨ (v.act (.close a)).restart = true := by
      unfold World.should at this
      cases h1 : (v.act (.close a)).die
      · right; simpa [h1] using this
      · left; rfl
    unfold World.should
    rcases h2 with h2 | h2
    · rw [hd h2]; rfl
    · rw [hr h2]; simp
  · have hv' : v.die = false ∧ v.restart = false := by simpa [World.should] using hv
    refine ⟨fun e => hd ?_, fun e => hr ?_⟩
    · rw [hcl, e]; simp [World.fire, World.should, hv']
    · rw [hcl, e]; simp [World.fire, World.should, hv']

/-- C123 (next): after stopping, the daemon starts again if it is not to die, with nothing left of the wish to restart, and ends otherwise. A daemon without streams dies. -/
theorem C123_next (w : World) (acts : List Act) :
    (w.pc = .idle → w.die = false → w.tick acts = acts.foldl World.act { w with restart := false, pc := .running }) ∧
    (w.pc = .idle → w.die = true → (w.tick acts).pc = .ended) ∧
    (w.pc = .running → w.should = true → w.own = [] → ∀ b c, (run w [acts, b, c]).pc = .ended ∧ (run w [acts, b, c]).die = true) := by
  refine ⟨fun hp hd => ?_, fun hp hd => ?_, fun hp hs ho b c => ?_⟩
  · unfold World.tick; rw [hp]; dsimp only; rw [hd]; rfl
  · unfold World.tick; rw [hp]; dsimp only; rw [hd]; rfl
  · have h1 : w.tick acts = { w with die := true } := by
      unfold World.tick; rw [hp]; dsimp only; rw [hs, ho]; rfl
    have h2 := C123_stop { w with die := true } b hp (by simp [World.should])
    dsimp only at h2
    have h3 : (run w [acts, b, c]) = ((w.tick acts).tick b).tick c := rfl
    rw [h3, h1]
    generalize (World.tick { w with die := true } b) = v at h2
    obtain ⟨g1, _, g3, _⟩ := h2
    unfold World.tick
    rw [g1]
    dsimp only
    rw [g3]
    exact ⟨rfl, rfl⟩

/-- C123 (connections): a stream that somebody else put in the list of all streams, that is open and is not closed, stays there over all restarts, until the daemon dies or is asked to close all.
    Missing: streams whose address is that of an earlier stream of the daemon (`C123_reuse_fails`). -/
theorem C123_keeps_partial (a : Nat) (f : Bool) (c : Option Kind) : ∀ (l : List (List Act)) (w : World), (a, f) ∈ w.glob → a ∉ w.own → w.objs a = some ⟨true, c⟩ →
    (∀ acts ∈ l, .close a ∉ acts ∧ ∀ f k, .add a f k ∉ acts) → (run w l).die = false → (run w l).full = false →
    (a, f) ∈ (run w l).glob ∧ (run w l).objs a = some ⟨true, c⟩ := by
  intro l
  induction l with
  | nil => intro w h1 h2 h3 _ _ _; exact ⟨h1, h3⟩
  | cons acts l ih =>
    intro w h1 h2 h3 h4 hd hf
    have hm := SdP.run_mono (acts :: l) w
    have hd0 : w.die = false := by
      cases h : w.die
      · rfl
      · rw [hm.1 h] at hd; cases hd
    have hf0 : w.full = false := by
      cases h : w.full
      · rfl
      · rw [hm.2 h] at hf; cases hf
    obtain ⟨g1, g2, g3⟩ := SdP.tick_keeps acts h1 h2 h3 (h4 acts (by simp)).1 (h4 acts (by simp)).2 hd0 hf0
    exact ih (w.tick acts) g1 g2 g3 (fun x hx => h4 x (List.mem_cons_of_mem _ hx)) hd hf

/-- A listener at 1, for which the daemon restarts, and a connection at 2, which stays when the listener closes. -/
example : let w := run begin [[.new 1 true, .add 1 true .restart], [.new 2 true, .append 2 true], [.close 1], [], [.new 3 true, .add 3 true .die]]
    w.pc = .running ∧ w.glob = [(2, true), (3, true)] ∧ w.own = [3] ∧ w.objs 1 = none ∧ w.should = true := by decide +kernel
example : let w := run begin [[.new 1 true, .add 1 true .die], [.new 2 true, .append 2 true], [.close 1], [], []]
    w.pc = .ended ∧ w.glob = [] ∧ w.objs 2 = none := by decide +kernel

/-- C123: when a stream of the daemon has closed and was freed, and a connection gets its address, that connection is closed when the daemon restarts. -/
theorem C123_reuse_fails : ∃ l : List (List Act), let w := run begin l
    (2, true) ∈ w.glob ∧ (w.objs 2).map (·.ok) = some true ∧ w.die = false ∧ w.full = false ∧ ((w.tick [.restart]).tick []).glob = [] ∧ ((w.tick [.restart]).tick []).objs 2 = none :=
  ⟨[[.new 1 true, .add 1 true .die, .new 2 true, .add 2 true .plain], [.close 2], [.new 2 true, .append 2 true]], by decide +kernel⟩

end Props
