import Verif.Model.Wrap
/- C141: generators around others. -/
namespace Props
open Wv Wv.Wrap
open Spec.Wrap (Req Ans Ev persistence flushing waits nothing reqs sinceReset)

namespace WrP

theorem ask_filter {σ : Type} (I : IGen σ) (s : σ) (r : Req) : ask (IGen.filter I some) s r = ask I s r := by cases r <;> rfl

theorem bachelor_ask {σ : Type} (I : IGen σ) (s : σ) (r : Req) (h : persistence r = false) : ask (bachelor I) s r = ask I s r := by
  cases r <;> first | rfl | cases h

theorem bachelor_after {σ : Type} (I : IGen σ) (l : List Req) : ∀ s : σ, after (bachelor I) s l = after I s (l.filter fun r => !persistence r) := by
  induction l with
  | nil => intro s; rfl
  | cons r l ih =>
    intro s
    show after (bachelor I) (ask (bachelor I) s r).1 l = _
    rw [ih, List.filter_cons]
    cases h : persistence r with
    | false =>
      rw [bachelor_ask I s r h]; rfl
    | true =>
      have : (ask (bachelor I) s r).1 = s := by cases r <;> first | rfl | cases h
      rw [this]; rfl

theorem slow_inner {σ : Type} (I : IGen σ) (s : Slow σ) (r : Req) (h : flushing r = false) : (askSlow I s r).1.inner = (ask I s.inner r).1 ∧
    (askSlow I s r).2 = (ask I s.inner r).2 := by
  cases r <;> first | exact ⟨rfl, rfl⟩ | cases h

theorem slow_after {σ : Type} (I : IGen σ) (l : List Ev) : ∀ s : Slow σ,
    (afterSlow I s l).inner = after I s.inner ((reqs l).filter fun r => !flushing r) := by
  induction l with
  | nil => intro s; rfl
  | cons e l ih =>
    intro s
    show (afterSlow I (stepSlow I s e) l).inner = _
    rw [ih]
    cases e with
    | reset => rfl
    | req r =>
      show after I (askSlow I s r).1.inner _ = after I s.inner ((r :: reqs l).filter _)
      rw [List.filter_cons]
      cases h : flushing r with
      | false => rw [(slow_inner I s r h).1]; rfl
      | true =>
        have : (askSlow I s r).1.inner = s.inner := by cases r <;> first | rfl | cases h
        rw [this]; rfl

theorem slow_count {σ : Type} (I : IGen σ) (s : Slow σ) (r : Req) : (askSlow I s r).1.slowcount = s.slowcount + (if waits r then 1 else 0) := by
  cases r <;> rfl

theorem reqs_append (a b : List Ev) : reqs (a ++ b) = reqs a ++ reqs b := by
  induction a with
  | nil => rfl
  | cons e a ih => cases e <;> simp [reqs, ih]

theorem after_snoc {σ : Type} (I : IGen σ) (s : Slow σ) (l : List Ev) (e : Ev) : afterSlow I s (l ++ [e]) = stepSlow I (afterSlow I s l) e := by
  unfold afterSlow
  rw [List.foldl_append]; rfl

end WrP

/-- C141: a generator behind a bachelor is as if it had never been asked to commit or refresh; all else is asked of it and answered as it answers. -/
theorem C141_bachelor {σ : Type} (I : IGen σ) (s : σ) (l : List Req) :
    after (bachelor I) s l = after I s (l.filter fun r => !persistence r) ∧
    (∀ r, persistence r = false → (ask (bachelor I) (after (bachelor I) s l) r).2 = (ask I (after I s (l.filter fun r => !persistence r)) r).2) ∧
    (ask (bachelor I) (after (bachelor I) s l) .refresh).2 = .truth false := by
  refine ⟨WrP.bachelor_after I l s, fun r h => ?_, rfl⟩
  rw [WrP.bachelor_after, WrP.bachelor_ask I _ r h]

/-- C141: whatever is asked of it before, the null generator answers as a configuration that has nothing. -/
theorem C141_null (l : List Req) (r : Req) : (ask null (after null () l) r).2 = nothing r := by cases r <;> rfl

/-- C141: one that counts answers as its inner generator does, which sees all requests other than for flushing. -/
theorem C141_slow_partial {σ : Type} (I : IGen σ) (s : σ) (l : List Ev) :
    (afterSlow I (newSlow s) l).inner = after I s ((reqs l).filter fun r => !flushing r) ∧
    ∀ r, flushing r = false → (askSlow I (afterSlow I (newSlow s) l) r).2 = (ask I (after I s ((reqs l).filter fun r => !flushing r)) r).2 := by
  have h := WrP.slow_after I l (newSlow s)
  refine ⟨h, fun r hr => ?_⟩
  rw [(WrP.slow_inner I _ r hr).2, h]; rfl

/-- C141: its count is that of the requests that may have to wait, since the count was last reset. -/
theorem C141_count {σ : Type} (I : IGen σ) (s : σ) (l : List Ev) : (afterSlow I (newSlow s) l).slowcount = ((sinceReset l).filter waits).length := by
  suffices h : ∀ r : List Ev, (afterSlow I (newSlow s) r.reverse).slowcount = ((sinceReset r.reverse).filter waits).length by
    have := h l.reverse
    rwa [List.reverse_reverse] at this
  intro r
  induction r with
  | nil => rfl
  | cons e r ih =>
    rw [List.reverse_cons, WrP.after_snoc]
    unfold sinceReset at ih ⊢
    rw [List.reverse_reverse] at ih
    rw [List.reverse_append, List.reverse_reverse]
    cases e with
    | reset => rfl
    | req q =>
      show (askSlow I _ q).1.slowcount = _
      rw [WrP.slow_count, ih]
      show _ = ((q :: reqs (r.takeWhile _)).filter waits).length
      rw [List.filter_cons]
      cases waits q <;> rfl

namespace WrP

/-- A generator that remembers how often it was asked to commit and to flush. -/
def toy : IGen (Nat × Nat) :=
  ⟨fun s _ => some (List.replicate s.1 65), fun _ _ => true, fun _ _ => false, fun _ _ => none, fun s _ _ => s, fun s _ => s, fun s => (s.1 + 1, s.2), fun s => ((0, s.2), true),
    fun s _ _ => s, fun s => (s.1, s.2 + 1)⟩

end WrP

example : after (bachelor WrP.toy) (0, 0) [.commit, .flush, .refresh, .flush, .get (Key.parse [])] = (0, 2) := by decide +kernel
example : (afterSlow WrP.toy (newSlow (0, 0)) [.req .commit, .reset, .req (.get (Key.parse [])), .req .flush, .req .commit]).slowcount = 2 := by decide +kernel
example : (afterSlow WrP.toy (newSlow (0, 0)) [.req .commit, .reset, .req (.get (Key.parse [])), .req .flush, .req .commit]).inner = (2, 0) := by decide +kernel

/-- C141 fails for flushing: a generator that counts does not ask its inner one to send on what was written. -/
theorem C141_flush_fails : ¬ ∀ (σ : Type) (I : IGen σ) (s : σ) (l : List Ev), (afterSlow I (newSlow s) l).inner = after I s (reqs l) := by
  intro h
  have := h _ WrP.toy (0, 0) [.req .flush]
  revert this
  decide +kernel

end Props
