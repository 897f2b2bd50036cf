import Verif.Spec.Chain
import Verif.Lemmas.Encoder
namespace Wv.Chain
open Spec.Chain
universe u
variable {σ : Type u}

theorem encode_frame {I : EncImpl σ} (h : AppendOnly I) (e : Enc σ) (inb out : List Byte) (fl : Bool) :
    I.encode e ⟨inb, out⟩ fl false =
      ((I.encode e ⟨inb, []⟩ fl false).1, ⟨(I.encode e ⟨inb, []⟩ fl false).2.1.inb,
        out ++ (I.encode e ⟨inb, []⟩ fl false).2.1.out⟩, (I.encode e ⟨inb, []⟩ fl false).2.2) := by
  simp only [EncImpl.encode, Bool.false_eq_true, if_false]
  split
  · exact h.encode e inb out fl
  · simp

theorem finish_frame {I : EncImpl σ} (h : AppendOnly I) (e : Enc σ) (inb out : List Byte) :
    I.finish e ⟨inb, out⟩ =
      ((I.finish e ⟨inb, []⟩).1, ⟨(I.finish e ⟨inb, []⟩).2.1.inb, out ++ (I.finish e ⟨inb, []⟩).2.1.out⟩,
        (I.finish e ⟨inb, []⟩).2.2) := by
  simp only [EncImpl.finish]
  split
  · rw [h.finish e inb out]
  · simp

theorem finish_out {I : EncImpl σ} (h : AppendOnly I) (e : Enc σ) (io : Io) :
    (I.finish e io).2.1.out = io.out ++ (I.finish e ⟨io.inb, []⟩).2.1.out := by
  rw [show io = ⟨io.inb, io.out⟩ from rfl, finish_frame h]

/-- Bytes put out in each call: one call per piece, then the last piece with flush and finish. -/
def session (I : EncImpl σ) (e : Enc σ) (inb : List Byte) :
    List (List Byte × Bool) → List Byte → List (List Byte × Bool) × List Byte
  | [], last =>
    let r := I.encode e ⟨inb ++ last, []⟩ true false
    ([], (I.finish r.1 r.2.1).2.1.out)
  | (c, fl) :: cs, last =>
    let r := I.encode e ⟨inb ++ c, []⟩ fl false
    let s := session I r.1 r.2.1.inb cs last
    ((r.2.1.out, fl) :: s.1, s.2)

theorem session_run {I : EncImpl σ} (h : AppendOnly I) (cs : List (List Byte × Bool)) (last : List Byte) :
    ∀ (e : Enc σ) (inb o : List Byte),
    let f := I.feed e ⟨inb, o⟩ (cs ++ [(last, true)])
    (I.finish f.1 f.2.1).2.1.out = o ++ flat (session I e inb cs last).1 ++ (session I e inb cs last).2 := by
  induction cs with
  | nil =>
    intro e inb o
    simp only [List.nil_append, EncImpl.feed, session]
    rw [encode_frame h, finish_out h]
    rw [finish_out h (I.encode e ⟨inb ++ last, []⟩ true false).1 (I.encode e ⟨inb ++ last, []⟩ true false).2.1]
    simp
  | cons c cs ih =>
    obtain ⟨c, fl⟩ := c
    intro e inb o
    simp only [List.cons_append, EncImpl.feed, session]
    rw [encode_frame h]
    simp only [flat_cons]
    rw [ih]
    simp

theorem session_flags (I : EncImpl σ) (cs : List (List Byte × Bool)) (last : List Byte) :
    ∀ (e : Enc σ) (inb : List Byte), (session I e inb cs last).1.map Prod.snd = cs.map Prod.snd := by
  induction cs with
  | nil => intro e inb; rfl
  | cons c cs ih => intro e inb; simp [session, ih]

/-- The pieces coming out of a whole chain. `inb` is what the first element still has to read. -/
def chainS (inb : List Byte) : List Elem → List (List Byte × Bool) → List Byte → List (List Byte × Bool) × List Byte
  | [], (c, fl) :: cs, last => ((inb ++ c, fl) :: cs, last)
  | [], [], last => ([], inb ++ last)
  | x :: xs, cs, last =>
    let s := session x.I x.e inb cs last
    chainS x.out xs s.1 s.2

def allFrame (xs : List Elem) : Prop := ∀ x ∈ xs, AppendOnly x.I

theorem go_step (xs : List Elem) : ∀ (_ : allFrame xs) (inb c : List Byte) (fl : Bool) (cs : List (List Byte × Bool))
    (last : List Byte),
    let r := go fl false xs (inb ++ c)
    chainS inb xs ((c, fl) :: cs) last =
      ((r.2.2.1, fl) :: (chainS r.2.1 r.1 cs last).1, (chainS r.2.1 r.1 cs last).2) ∧ allFrame r.1 := by
  induction xs with
  | nil =>
    intro _ inb c fl cs last
    refine ⟨?_, by simp [go, allFrame]⟩
    cases cs <;> simp [chainS, go]
  | cons x xs ih =>
    intro hf inb c fl cs last
    have hx : AppendOnly x.I := hf x (by simp)
    have hxs : allFrame xs := fun y hy => hf y (by simp [hy])
    simp only [chainS, session, go, Bool.false_eq_true, if_false]
    rw [encode_frame hx x.e (inb ++ c) x.out]
    have := ih hxs x.out (x.I.encode x.e ⟨inb ++ c, []⟩ fl false).2.1.out fl
      (session x.I (x.I.encode x.e ⟨inb ++ c, []⟩ fl false).1 (x.I.encode x.e ⟨inb ++ c, []⟩ fl false).2.1.inb cs last).1
      (session x.I (x.I.encode x.e ⟨inb ++ c, []⟩ fl false).1 (x.I.encode x.e ⟨inb ++ c, []⟩ fl false).2.1.inb cs last).2
    refine ⟨this.1, ?_⟩
    intro y hy
    simp only [List.mem_cons] at hy
    rcases hy with rfl | hy
    · exact hx
    · exact this.2 y hy

theorem go_last (xs : List Elem) : ∀ (_ : allFrame xs) (inb last : List Byte),
    chainS inb xs [] last = ([], (go true true xs (inb ++ last)).2.2.1) := by
  induction xs with
  | nil => intro _ inb last; simp [chainS, go]
  | cons x xs ih =>
    intro hf inb last
    have hx : AppendOnly x.I := hf x (by simp)
    have hxs : allFrame xs := fun y hy => hf y (by simp [hy])
    simp only [chainS, session, go, if_true]
    rw [encode_frame hx x.e (inb ++ last) x.out, ih hxs, finish_out hx]
    simp only
    rw [finish_out hx _ ⟨(x.I.encode x.e ⟨inb ++ last, []⟩ true false).2.1.inb,
      x.out ++ (x.I.encode x.e ⟨inb ++ last, []⟩ true false).2.1.out⟩]
    simp

/-- The chain as an encoder, fed pieces and finished. -/
theorem chain_run (cs : List (List Byte × Bool)) : ∀ (_ : ∀ c ∈ cs, c.1 ≠ [] ∨ c.2 = true)
    (e : Enc (List Elem)) (inb o : List Byte),
    allFrame e.st → e.okay = true → e.finished = false →
    (chain.feed e ⟨inb, o⟩ cs).2.1.inb = [] →
    (chain.finish (chain.feed e ⟨inb, o⟩ cs).1 (chain.feed e ⟨inb, o⟩ cs).2.1).2.1.out =
      o ++ flat (chainS inb e.st cs []).1 ++ (chainS inb e.st cs []).2 := by
  induction cs with
  | nil =>
    intro _ e inb o hf hok hfin hin
    simp only [EncImpl.feed] at hin ⊢
    subst hin
    rw [go_last _ hf]
    simp [EncImpl.finish, hok, hfin, chain]
  | cons c cs ih =>
    obtain ⟨c, fl⟩ := c
    intro hne e inb o hf hok hfin hin
    simp only [EncImpl.feed] at hin ⊢
    have hc : (!(inb ++ c).isEmpty || fl) = true := by
      have := hne (c, fl) (by simp)
      rcases this with h | h <;> simp at h <;> simp [h]
    have henc : chain.encode e ⟨inb ++ c, o⟩ fl false = chain.encode' e ⟨inb ++ c, o⟩ fl := by
      simp only [EncImpl.encode, hok, hfin, Bool.not_false, Bool.true_and, hc, if_true, Bool.false_eq_true, if_false]
    rw [henc] at hin ⊢
    simp only [chain] at hin ⊢
    have hs := go_step e.st hf inb c fl cs []
    simp only at hs
    rw [hs.1]
    have := ih (fun c hc => hne c (by simp [hc])) { e with st := (go fl false e.st (inb ++ c)).1 }
      (go fl false e.st (inb ++ c)).2.1 (o ++ (go fl false e.st (inb ++ c)).2.2.1) hs.2 hok hfin hin
    simp only [chain] at this
    rw [this]
    simp

theorem stages_frame {P xs D Fs} (h : Stages P xs D Fs) : allFrame xs := by
  induction h with
  | nil => simp [allFrame]
  | cons x xs D D' F Fs _ hf _ _ _ ih =>
    intro y hy
    simp only [List.mem_cons] at hy
    rcases hy with rfl | hy
    · exact hf
    · exact ih y hy

theorem chainS_stages {P xs D Fs} (h : Stages P xs D Fs) : ∀ (cs : List (List Byte × Bool)) (last : List Byte),
    P (cs.map Prod.snd ++ [true]) → D (flat cs ++ last) →
    flat (chainS [] xs cs last).1 ++ (chainS [] xs cs last).2 = composed Fs (flat cs ++ last) := by
  induction h with
  | nil D =>
    intro cs last _ _
    cases cs with
    | nil => simp [chainS, composed]
    | cons c cs => obtain ⟨c, f⟩ := c; simp [chainS, composed]
  | cons x xs D D' F Fs hout hf hc hD _ ih =>
    intro cs last hP hd
    simp only [chainS, hout, composed]
    have hr := session_run hf cs last x.e [] []
    have hcc := hc (cs ++ [(last, true)]) (by simpa using hP) (by simpa [flat] using hd)
    simp only [EncImpl.run] at hcc
    simp only [List.nil_append] at hr
    have hfl : flat (cs ++ [(last, true)]) = flat cs ++ last := by simp [flat]
    rw [hfl] at hcc
    have heq : flat (session x.I x.e [] cs last).1 ++ (session x.I x.e [] cs last).2 = F (flat cs ++ last) :=
      hr.symm.trans hcc
    have := ih (session x.I x.e [] cs last).1 (session x.I x.e [] cs last).2
      (by rw [session_flags]; exact hP) (by rw [heq]; exact hD _ hd)
    rw [this, heq]

end Wv.Chain
