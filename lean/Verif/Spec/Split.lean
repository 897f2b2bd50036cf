/- Splitting and joining strings, independent of the model. -/
namespace Spec.Split

/-- All the pieces between separators, empty ones included: "a::b" is "a", "", "b". -/
def pieces (sep : UInt8 → Bool) (s : List UInt8) : List (List UInt8) :=
  s.foldr (fun c acc => if sep c then [] :: acc else (c :: acc.headD []) :: acc.tail) [[]]

/-- The maximal separator-free pieces that are not empty. -/
def words (sep : UInt8 → Bool) (s : List UInt8) : List (List UInt8) := (pieces sep s).filter (· ≠ [])

/-- The strings with `j` in between. -/
def join (j : List UInt8) : List (List UInt8) → List UInt8
  | [] => []
  | [s] => s
  | s :: ss => s ++ (j ++ join j ss)

end Spec.Split
