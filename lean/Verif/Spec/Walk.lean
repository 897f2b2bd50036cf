import Verif.Spec.Conf
/- A walk over a configuration, independent of the model. -/
namespace Spec.Walk
open Spec.Conf

/-- A walk in preorder over all that is below a place, which is `p` and from there `q`: each name that is there once, in any order, with
    its value, and after each name what is below that, in the same way. `l` has the names with what comes after each. Paths are given
    from `p` on. -/
inductive Preorder (m : State) (p : Place) : Place → List (Place × Option Text) → Prop
  | mk (q : Place) (l : List (Text × List (Place × Option Text))) :
      (l.map Prod.fst).Nodup → (∀ n, n ∈ l.map Prod.fst ↔ m (p ++ q ++ [n]) ≠ none) → (∀ x ∈ l, Preorder m p (q ++ [x.1]) x.2) →
      Preorder m p q (l.flatMap fun x => (q ++ [x.1], m (p ++ q ++ [x.1])) :: x.2)

/-- No path is longer than some number. -/
def Bounded (m : State) : Prop := ∃ d, ∀ q, m q ≠ none → q.length ≤ d

/-- A path exists only if the paths it is below of do. -/
def Closed (m : State) : Prop := ∀ q r, m (q ++ r) ≠ none → m q ≠ none

end Spec.Walk
