import Verif.Spec.Conf
/- What a configuration with defaults answers, independent of the model. -/
namespace Spec.Default
open Spec.Conf Spec.Path

/-- The names that are asked for by a path. After a slash at the end an empty name is asked for, which is in no configuration; the root is
    such an empty name too. -/
def asked (k : Text) : List Text := if names k = [] ∨ dir k then names k ++ [[]] else names k

/-- Without regard to case. -/
def low (l : List Text) : Place := l.map (List.map lower)

/-- `d` stands for `k`: each of its names is that of `k`, or a star. -/
def Covers : Place → Place → Prop
  | [], [] => True
  | a :: d, b :: k => (a = star ∨ a = b) ∧ Covers d k
  | _, _ => False

/-- It is there. -/
def There (m : State) (d : Place) : Prop := [] ∉ d ∧ m d ≠ none

/-- `d` goes before `e` for `k`: where they first differ, `d` has the name of `k`. -/
def Before : Place → Place → Place → Prop
  | a :: d, b :: e, n :: k => (a = b ∧ Before d e k) ∨ (a ≠ b ∧ a = n)
  | _, _, _ => False

/-- `d` is what answers for `k`. -/
def Best (m : State) (k d : Place) : Prop :=
  Covers d k ∧ There m d ∧ ∀ e, Covers e k → There m e → e = d ∨ Before d e k

/-- The names of `k` that a wildcard of `d` stands for. -/
def wilds (k : List Text) (d : Place) : List Text := ((k.zip d).filter fun x => wild x.2).map (·.1)

end Spec.Default
