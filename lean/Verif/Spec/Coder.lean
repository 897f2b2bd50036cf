import Verif.Model.Basic
/-!
What is expected of a stream that encodes (C70). An encoder is a machine that is given bytes and gives out bytes.
-/
namespace Spec.Coder
open Wv

/-- An encoder, or a chain of them. `encode` is offered bytes, with or without a request to flush: the number of bytes it takes, and
    what it gives out. `finish` is what it gives out at the end. -/
structure Coder (σ : Type) where
  encode : σ → Bool → List Byte → σ × Nat × List Byte
  finish : σ → σ × List Byte
  ok : σ → Bool
  finished : σ → Bool

variable {σ : Type}

/-- An encoder that began in `a` was given the bytes `i`, in any pieces and with any requests to flush and to finish, gave out `o`,
    and is now in `b`. -/
inductive Runs (C : Coder σ) (a : σ) : (i o : List Byte) → (b : σ) → Prop
  | start : Runs C a [] [] a
  | encode {i o : List Byte} {b : σ} (flush : Bool) (t : List Byte) : Runs C a i o b →
      Runs C a (i ++ t.take (C.encode b flush t).2.1) (o ++ (C.encode b flush t).2.2) (C.encode b flush t).1
  | finish {i o : List Byte} {b : σ} : Runs C a i o b → Runs C a i (o ++ (C.finish b).2) (C.finish b).1

/-- The same, and after the last byte it was asked to finish. -/
inductive Ended (C : Coder σ) (a : σ) : (i o : List Byte) → (b : σ) → Prop
  | finish {i o : List Byte} {b : σ} : Runs C a i o b → Ended C a i (o ++ (C.finish b).2) (C.finish b).1
  | again {i o : List Byte} {b : σ} : Ended C a i o b → Ended C a i (o ++ (C.finish b).2) (C.finish b).1
  | nothing {i o : List Byte} {b : σ} (flush : Bool) : Ended C a i o b →
      Ended C a i (o ++ (C.encode b flush []).2.2) (C.encode b flush []).1

/-- An encoder that takes all that it is offered when it is asked to flush. -/
def TakesAll (C : Coder σ) : Prop := ∀ s t, t.length ≤ (C.encode s true t).2.1

end Spec.Coder
