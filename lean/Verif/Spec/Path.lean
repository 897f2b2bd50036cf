import Verif.Spec.Split
/- Slash-separated paths, as texts, independent of the model. -/
namespace Spec.Path

def slash : UInt8 := 47

/-- The names in a path: the maximal non-empty stretches without a slash. -/
def names (s : List UInt8) : List (List UInt8) := Spec.Split.words (· == slash) s

/-- A path with a name may be written with a slash at its end. -/
def dir (s : List UInt8) : Bool := !(names s).isEmpty && s.getLast? == some slash

/-- The usual way to write a path: no slash at the start, no double slashes. -/
def write (ns : List (List UInt8)) (d : Bool) : List UInt8 := Spec.Split.join [slash] ns ++ (if d then [slash] else [])

/-- The letters A to Z in lower case. -/
def lower (c : UInt8) : UInt8 := if 65 ≤ c && c ≤ 90 then c + 32 else c

/-- What paths are compared by: their names without regard to case, and then the slash at the end, as an empty name. -/
def order (s : List UInt8) : List (List UInt8) := (names s).map (List.map lower) ++ (if dir s then [[]] else [])

/-- The `i`th to the `j`th name (not included), the slash at the end counting as one; with no name but the slash, nothing. -/
def slice (s : List UInt8) (i j : Int) : List (List UInt8) × Bool :=
  let n : Int := (names s).length
  ((names s).take j.toNat |>.drop i.toNat, decide (dir s ∧ i < n ∧ n < j))

def star : List UInt8 := [42]
def dots : List UInt8 := [46, 46, 46]
def wild (p : List UInt8) : Bool := p == star || p == dots

/-- What a pattern stands for: "*" for any name, "..." for any number of names, another name for itself, without regard to
    case. -/
inductive Matches : List (List UInt8) → List (List UInt8) → Prop
  | nil : Matches [] []
  | star {x ks ps} : Matches ks ps → Matches (x :: ks) (star :: ps)
  | dots {xs ks ps} : Matches ks ps → Matches (xs ++ ks) (dots :: ps)
  | name {x p ks ps} : wild p = false → x.map lower = p.map lower → Matches ks ps → Matches (x :: ks) (p :: ps)

/-- All the wildcards come before all the other names. -/
def WildFirst (ps : List (List UInt8)) : Prop := ∃ w l, ps = w ++ l ∧ (∀ p ∈ w, wild p = true) ∧ ∀ p ∈ l, wild p = false

end Spec.Path
