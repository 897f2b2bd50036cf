import Verif.Model.Encoder
import Verif.Spec.Chunks
/- Generic facts about `WvEncoder` driven in chunks. -/
namespace Wv
universe u
variable {σ : Type u}

@[simp] theorem flat_nil : flat [] = [] := rfl
@[simp] theorem flat_cons (c f) (cs : List (List Byte × Bool)) : flat ((c, f) :: cs) = c ++ flat cs := by
  simp [flat]

/-- An encoder whose `_encode` always consumes all its input, never fails permanently, and is a homomorphism. -/
structure EncImpl.Pure (I : EncImpl σ) (f : σ → List Byte → σ × List Byte) : Prop where
  enc : ∀ e io fl, ∃ r, I.encode' e io fl = ({ e with st := (f e.st io.inb).1 }, ⟨[], io.out ++ (f e.st io.inb).2⟩, r) ∧
    (fl = false → r = true)
  nil : ∀ s, f s [] = (s, [])
  app : ∀ s a b, f s (a ++ b) = ((f (f s a).1 b).1, (f s a).2 ++ (f (f s a).1 b).2)

theorem EncImpl.Pure.feed {I : EncImpl σ} {f} (h : I.Pure f) (cs : List (List Byte × Bool)) :
    ∀ (e : Enc σ) (o : List Byte), e.okay = true → e.finished = false →
    ∃ rs, I.feed e ⟨[], o⟩ cs = ({ e with st := (f e.st (flat cs)).1 }, ⟨[], o ++ (f e.st (flat cs)).2⟩, rs) ∧
      ((∀ c ∈ cs, c.1 ≠ [] ∧ c.2 = false) → ∀ r ∈ rs, r = true) := by
  induction cs with
  | nil => intro e o _ _; exact ⟨[], by simp [EncImpl.feed, h.nil]⟩
  | cons c cs ih =>
    obtain ⟨c, fl⟩ := c
    intro e o hok hfin
    simp only [EncImpl.feed, List.nil_append, flat_cons]
    by_cases hc : (!c.isEmpty || fl) = true
    · obtain ⟨r, hr, hrt⟩ := h.enc e ⟨c, o⟩ fl
      have henc : I.encode e ⟨c, o⟩ fl false = I.encode' e ⟨c, o⟩ fl := by
        simp [EncImpl.encode, hok, hfin, hc]
      rw [henc, hr]
      obtain ⟨rs, hrs, hall⟩ := ih { e with st := (f e.st c).1 } (o ++ (f e.st c).2) hok hfin
      refine ⟨r :: rs, ?_, ?_⟩
      · simp only [hrs, h.app e.st c (flat cs), List.append_assoc]
      · intro hcs x hx
        have := hcs (c, fl) (by simp)
        simp only [List.mem_cons] at hx
        rcases hx with rfl | hx
        · exact hrt this.2
        · exact hall (fun c hc => hcs c (by simp [hc])) x hx
    · have hc' : c = [] ∧ fl = false := by simpa using hc
      obtain ⟨rfl, rfl⟩ := hc'
      have henc : I.encode e ⟨[], o⟩ false false = (e, ⟨[], o⟩, false) := by
        simp [EncImpl.encode, hok, hfin]
      rw [henc]
      obtain ⟨rs, hrs, hall⟩ := ih e o hok hfin
      refine ⟨false :: rs, ?_, ?_⟩
      · simp only [hrs, List.nil_append]
      · intro hcs
        have := hcs ([], false) (by simp)
        simp at this

end Wv

namespace Wv
universe u
variable {σ : Type u}

/-- Like `Pure`, for calls without flush and states satisfying an invariant. -/
structure EncImpl.PureOn (I : EncImpl σ) (Inv : σ → Prop) (f : σ → List Byte → σ × List Byte) : Prop where
  enc : ∀ e io, Inv e.st →
    I.encode' e io false = ({ e with st := (f e.st io.inb).1 }, ⟨[], io.out ++ (f e.st io.inb).2⟩, true)
  inv : ∀ s l, Inv s → Inv (f s l).1
  nil : ∀ s, f s [] = (s, [])
  app : ∀ s a b, f s (a ++ b) = ((f (f s a).1 b).1, (f s a).2 ++ (f (f s a).1 b).2)

theorem EncImpl.PureOn.feed {I : EncImpl σ} {Inv} {f} (h : I.PureOn Inv f) (cs : List (List Byte × Bool)) :
    ∀ (e : Enc σ) (o : List Byte), (∀ c ∈ cs, c.2 = false) → e.okay = true → e.finished = false → Inv e.st →
    ∃ rs, I.feed e ⟨[], o⟩ cs = ({ e with st := (f e.st (flat cs)).1 }, ⟨[], o ++ (f e.st (flat cs)).2⟩, rs) := by
  induction cs with
  | nil => intro e o _ _ _ _; exact ⟨[], by simp [EncImpl.feed, h.nil]⟩
  | cons c cs ih =>
    obtain ⟨c, fl⟩ := c
    intro e o hfl hok hfin hinv
    have hfl0 : fl = false := hfl (c, fl) (by simp)
    subst hfl0
    have hfl' : ∀ c ∈ cs, c.2 = false := fun c hc => hfl c (by simp [hc])
    simp only [EncImpl.feed, List.nil_append, flat_cons]
    cases c with
    | nil =>
      have henc : I.encode e ⟨[], o⟩ false false = (e, ⟨[], o⟩, false) := by
        simp [EncImpl.encode, hok, hfin]
      rw [henc]
      obtain ⟨rs, hrs⟩ := ih e o hfl' hok hfin hinv
      exact ⟨false :: rs, by simp only [hrs, List.nil_append]⟩
    | cons x c =>
      have henc : I.encode e ⟨x :: c, o⟩ false false = I.encode' e ⟨x :: c, o⟩ false := by
        simp [EncImpl.encode, hok, hfin]
      rw [henc, h.enc _ _ hinv]
      obtain ⟨rs, hrs⟩ := ih { e with st := (f e.st (x :: c)).1 } (o ++ (f e.st (x :: c)).2) hfl' hok hfin (h.inv _ _ hinv)
      exact ⟨true :: rs, by simp only [hrs, h.app e.st (x :: c) (flat cs), List.append_assoc]⟩

/-- An encoder that is in error or finished ignores what follows. -/
theorem feed_append (I : EncImpl σ) (as bs : List (List Byte × Bool)) : ∀ (e : Enc σ) (io : Io),
    I.feed e io (as ++ bs) =
      (let r := I.feed e io as
       let r' := I.feed r.1 r.2.1 bs
       (r'.1, r'.2.1, r.2.2 ++ r'.2.2)) := by
  induction as with
  | nil => intro e io; rfl
  | cons a as ih =>
    intro e io
    obtain ⟨c, f⟩ := a
    simp only [List.cons_append, EncImpl.feed, ih]

theorem feed_inactive (I : EncImpl σ) (cs : List (List Byte × Bool)) : ∀ (e : Enc σ) (io : Io),
    (e.okay = false ∨ e.finished = true) →
    (I.feed e io cs).1 = e ∧ (I.feed e io cs).2.1.out = io.out := by
  induction cs with
  | nil => intro e io _; simp [EncImpl.feed]
  | cons c cs ih =>
    obtain ⟨c, fl⟩ := c
    intro e io h
    have henc : I.encode e { io with inb := io.inb ++ c } fl false = (e, { io with inb := io.inb ++ c }, false) := by
      rcases h with h | h <;> simp [EncImpl.encode, h]
    simp only [EncImpl.feed, henc]
    exact ih e { io with inb := io.inb ++ c } h

end Wv
