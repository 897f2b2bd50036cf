import Verif.Spec.Addr
/- Looking up the addresses of names in the background. -/
namespace Spec.Resolver
open Wv Spec.Addr

/-- A lookup: the name, and when it was started. -/
structure Lookup where
  name : List Byte
  time : Int
  deriving DecidableEq

/-- What the lookups find. `forked k`: there is a process for the lookup number `k`. `answer k`: the addresses it prints, or `none` if it ends
    without having found any. -/
structure World where
  forked : Nat → Bool
  answer : Nat → Option (List Addr)

/-- What the lookup `k` finds. -/
def World.finds (w : World) (k : Nat) : List Addr := if w.forked k then (w.answer k).getD [] else []

/-- The lookup `k` is of the name, was started at `t`, and is the last one of the name. -/
def Last (l : List Lookup) (name : List Byte) (k : Nat) (t : Int) : Prop :=
  l[k]? = some ⟨name, t⟩ ∧ ∀ j s, k < j → l[j]? = some s → s.name ≠ name

end Spec.Resolver
