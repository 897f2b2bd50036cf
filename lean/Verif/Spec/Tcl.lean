/- Tcl words, independent of the model. -/
namespace Spec.Tcl

/-- `split` are separators that the set `nasties` of characters to protect covers, none of them `{ } \ "`. -/
def Separators (nasties split : List UInt8) : Prop :=
  ∀ c ∈ split, c ∈ nasties ∧ c ≠ 123 ∧ c ≠ 125 ∧ c ≠ 92 ∧ c ≠ 34

/-- Braces match and no backslash is left without the character it protects. `d` is the number of open braces, `esc`
    says whether the character before was an active backslash. -/
def balanced : Nat → Bool → List UInt8 → Bool
  | d, esc, [] => d == 0 && !esc
  | d, true, _ :: cs => balanced d false cs
  | d, false, c :: cs =>
    if c = 92 then balanced d true cs
    else if c = 123 then balanced (d + 1) false cs
    else if c = 125 then (match d with | 0 => false | d + 1 => balanced d false cs)
    else balanced d false cs

/-- The words for which a list that ends with them is not read back: unmatched braces and a newline at the end. -/
def badEnd (nasties : List UInt8) (w : List UInt8) : Prop :=
  balanced 0 false w = false ∧ w.getLast? = some 10 ∧ 10 ∈ nasties

end Spec.Tcl
