import Verif.Model.IGen
import Verif.Spec.Wrap
/-!
`UniBachelorGen` (uniconf/unibachelorgen.cc), `UniSlowGen` (uniconf/unislowgen.cc, include/unislowgen.h) and `UniNullGen` (include/uninullgen.h), over the interface of Model/IGen. Recursive iterators, `isok`, notifications and what is
printed are left out; the inner generator is there.
-/
namespace Wv.Wrap
open Wv
open Spec.Wrap (Req Ans Ev)

/-- A request to a generator (include/uniconfgen.h:39-231). -/
def ask {σ : Type} (I : IGen σ) (s : σ) : Req → σ × Ans
  | .get k => (s, .value (I.get s k))
  | .exists k => (s, .truth (I.exists s k))
  | .haschildren k => (s, .truth (I.haschildren s k))
  | .iterator k => (s, .items (I.iterator s k))
  | .set k v => (I.set s k v, .done)
  | .setv l => (I.setv s l, .done)
  | .commit => (I.commit s, .done)
  | .refresh => ((I.refresh s).1, .truth (I.refresh s).2)
  | .prefetch k r => (I.prefetch s k r, .done)
  | .flush => (I.flush s, .done)

/-- The state after some requests. -/
def after {σ : Type} (I : IGen σ) (s : σ) (l : List Req) : σ := l.foldl (fun s r => (ask I s r).1) s

/-- UniBachelorGen: `commit` and `refresh` (uniconf/unibachelorgen.cc:31-39). -/
def bachelor {σ : Type} (I : IGen σ) : IGen σ :=
  { IGen.filter I some with commit := fun s => s, refresh := fun s => (s, false) }

/-- UniNullGen (include/uninullgen.h:18-32); `exists`, `commit`, `refresh` and `prefetch` are those of UniConfGen (uniconf/uniconfgen.cc:120-123, include/uniconfgen.h:322-324). -/
def null : IGen Unit where
  get := fun _ _ => none
  «exists» := fun _ _ => (none : Option (List UInt8)).isSome
  haschildren := fun _ _ => false
  iterator := fun _ _ => some []
  set := fun s _ _ => s
  setv := fun s _ => s
  commit := fun s => s
  refresh := fun s => (s, true)
  prefetch := fun s _ _ => s
  flush := fun s => s

/-- UniSlowGen: the inner generator and `slowcount`, which does not overflow here. -/
structure Slow (σ : Type) where
  inner : σ
  slowcount : Nat

/-- The constructor (uniconf/unislowgen.cc:21-24). -/
def newSlow {σ : Type} (s : σ) : Slow σ := ⟨s, 0⟩

/-- `be_slow` (uniconf/unislowgen.cc:83-89). -/
def beSlow {σ : Type} (s : Slow σ) : Slow σ := { s with slowcount := s.slowcount + 1 }

/-- Passing a request on to UniFilterGen. -/
def pass {σ : Type} (I : IGen σ) (s : Slow σ) (r : Req) : Slow σ × Ans :=
  let a := ask (IGen.filter I some) s.inner r
  ({ s with inner := a.1 }, a.2)

/-- The operations of UniSlowGen (uniconf/unislowgen.cc:34-80); `flush_buffers` does nothing (include/unislowgen.h:35); `set`, `setv` and `prefetch` are those of UniFilterGen. -/
def askSlow {σ : Type} (I : IGen σ) (s : Slow σ) : Req → Slow σ × Ans
  | .commit => pass I (beSlow s) .commit
  | .refresh => pass I (beSlow s) .refresh
  | .get k => pass I (beSlow s) (.get k)
  | .exists k => pass I (beSlow s) (.exists k)
  | .haschildren k => pass I (beSlow s) (.haschildren k)
  | .iterator k => pass I (beSlow s) (.iterator k)
  | .flush => (s, .done)
  | .set k v => pass I s (.set k v)
  | .setv l => pass I s (.setv l)
  | .prefetch k r => pass I s (.prefetch k r)

/-- A request, or `reset_slow` (include/unislowgen.h:45-46). -/
def stepSlow {σ : Type} (I : IGen σ) (s : Slow σ) : Ev → Slow σ
  | .req r => (askSlow I s r).1
  | .reset => { s with slowcount := 0 }

def afterSlow {σ : Type} (I : IGen σ) (s : Slow σ) (l : List Ev) : Slow σ := l.foldl (stepSlow I) s

end Wv.Wrap
