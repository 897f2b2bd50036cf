/- Matrices. Independent of the model. -/
namespace Spec.Matrix

/-- The entry of a product, from the first `n` of the summands. -/
def dot (f g : Nat → Nat → Int) (i j : Nat) : Nat → Int
  | 0 => 0
  | n + 1 => dot f g i j n + f i n * g n j

/-- An `int` can hold it. -/
def Fits (x : Int) : Prop := -2147483648 ≤ x ∧ x ≤ 2147483647

end Spec.Matrix
