/-
What sorting means.
-/
namespace Spec.Sorter

/-- A comparison makes sense: it says the opposite for the opposite order, and it is transitive. -/
structure Consistent (f : Nat → Nat → Int) : Prop where
  opposite : ∀ a b, f a b < 0 ↔ 0 < f b a
  trans : ∀ a b c, f a b ≤ 0 → f b c ≤ 0 → f a c ≤ 0

/-- Each is at most every one after it. -/
def Sorted (f : Nat → Nat → Int) (l : List Nat) : Prop := l.Pairwise fun a b => f a b ≤ 0

/-- `v` is `l`, sorted: the same things, each as often. -/
def IsSort (f : Nat → Nat → Int) (l v : List Nat) : Prop := v.Perm l ∧ Sorted f v

end Spec.Sorter
