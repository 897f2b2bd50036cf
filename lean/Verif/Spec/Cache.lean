import Verif.Spec.Conf
/- What a generator that keeps a copy of another one is to show, independent of the model. -/
namespace Spec.Cache
open Spec.Conf

/-- What happens: a value is set or removed through the cache, or in the inner generator without it, or the cache is refreshed. -/
inductive Act where
  | set (k : Text) (v : Option Text)
  | direct (k : Text) (v : Option Text)
  | refresh
  deriving DecidableEq

/-- What the inner generator holds afterwards. -/
def conf (m : State) : List Act → State
  | [] => m
  | .set k v :: r => conf (Spec.Conf.set m k v) r
  | .direct k v :: r => conf (Spec.Conf.set m k v) r
  | .refresh :: r => conf m r

/-- The root has no value but an empty one, and keys have an empty value only if there is something below them that has another. -/
def Filled (m : State) : Prop :=
  (∀ v, m [] = some v → v = []) ∧ ∀ q, m q = some [] → ∃ r v, m (q ++ r) = some v ∧ v ≠ []

/-- What happens with a generator that remembers what it was asked: it is asked for a value or whether a key exists, or a value is set or
    removed through it, or in the inner generator without it. -/
inductive Use where
  | get (k : Text)
  | «exists» (k : Text)
  | set (k : Text) (v : Option Text)
  | direct (k : Text) (v : Option Text)
  deriving DecidableEq

/-- What the inner generator holds afterwards. -/
def used (m : State) : List Use → State
  | [] => m
  | .set k v :: r => used (Spec.Conf.set m k v) r
  | .direct k v :: r => used (Spec.Conf.set m k v) r
  | _ :: r => used m r

end Spec.Cache
