import Verif.Spec.Ere
/-
Patterns for file names, as in glob(7) and with braces as in the shell, independent of the model. The bracket expressions are those
of regular expressions, as POSIX has it, with `!` for `^`.
-/
namespace Spec.Glob

mutual
/-- A pattern: one element, and the pattern that follows it. -/
inductive G where
  | done
  /-- an ordinary character -/
  | lit (c : UInt8) (g : G)
  /-- backslash and a character -/
  | esc (c : UInt8) (g : G)
  /-- `?` -/
  | any (g : G)
  /-- `*` -/
  | star (g : G)
  /-- `[t]` -/
  | set (t : List UInt8) (g : G)
  /-- `[!t]` -/
  | notSet (t : List UInt8) (g : G)
  /-- `[^t]`, where `^` is itself one of the characters -/
  | caretSet (t : List UInt8) (g : G)
  /-- `{a,b,...}` -/
  | alt (a : A) (g : G)
/-- The alternatives in a pair of braces. -/
inductive A where
  | one (g : G)
  | more (g : G) (a : A)
end

mutual
/-- How a pattern is written. -/
def G.text : G → List UInt8
  | .done => []
  | .lit c g => c :: g.text
  | .esc c g => 92 :: c :: g.text
  | .any g => 63 :: g.text
  | .star g => 42 :: g.text
  | .set t g => 91 :: t ++ 93 :: g.text
  | .notSet t g => 91 :: 33 :: t ++ 93 :: g.text
  | .caretSet t g => 91 :: 94 :: t ++ 93 :: g.text
  | .alt a g => 123 :: a.text ++ 125 :: g.text
def A.text : A → List UInt8
  | .one g => g.text
  | .more g a => g.text ++ 44 :: a.text
end

mutual
/-- Each element is written as what it is: the special characters `\ [ * ? {` are not ordinary, nor `,` and `}` inside of braces. A set
    has no slash in it, and `]` only as the first character after `[`. -/
def G.Ok (brace : Bool) : G → Prop
  | .done => True
  | .lit c g => c ≠ 92 ∧ c ≠ 91 ∧ c ≠ 42 ∧ c ≠ 63 ∧ c ≠ 123 ∧ (brace = true → c ≠ 44 ∧ c ≠ 125) ∧ g.Ok brace
  | .esc _ g => g.Ok brace
  | .any g => g.Ok brace
  | .star g => g.Ok brace
  | .set t g => (∃ c r, t = c :: r ∧ c ≠ 33 ∧ c ≠ 94 ∧ 93 ∉ r) ∧ 47 ∉ t ∧ g.Ok brace
  | .notSet t g => 93 ∉ t ∧ 47 ∉ t ∧ g.Ok brace
  | .caretSet t g => 93 ∉ t ∧ 47 ∉ t ∧ g.Ok brace
  | .alt a g => a.Ok ∧ g.Ok brace
def A.Ok : A → Prop
  | .one g => g.Ok true
  | .more g a => g.Ok true ∧ a.Ok
end

/-- The character is in the set that is written so. -/
def inSet (t : List UInt8) (c : UInt8) : Prop := ∃ is, Ere.items true t = some is ∧ is.any (·.has c) = true

mutual
/-- The strings a pattern matches: `?`, `*` and sets match no slash; if not `strict`, sets do. -/
def G.Matches (strict : Bool) : G → List UInt8 → Prop
  | .done, s => s = []
  | .lit c g, s => ∃ r, s = c :: r ∧ g.Matches strict r
  | .esc c g, s => ∃ r, s = c :: r ∧ g.Matches strict r
  | .any g, s => ∃ c r, s = c :: r ∧ c ≠ 47 ∧ g.Matches strict r
  | .star g, s => ∃ w r, s = w ++ r ∧ 47 ∉ w ∧ g.Matches strict r
  | .set t g, s => ∃ c r, s = c :: r ∧ inSet t c ∧ (strict = true → c ≠ 47) ∧ g.Matches strict r
  | .notSet t g, s => ∃ c r, s = c :: r ∧ ¬ inSet t c ∧ (strict = true → c ≠ 47) ∧ g.Matches strict r
  | .caretSet t g, s => ∃ c r, s = c :: r ∧ (c = 94 ∨ inSet t c) ∧ (strict = true → c ≠ 47) ∧ g.Matches strict r
  | .alt a g, s => ∃ w r, s = w ++ r ∧ a.Matches strict w ∧ g.Matches strict r
def A.Matches (strict : Bool) : A → List UInt8 → Prop
  | .one g, s => g.Matches strict s
  | .more g a, s => g.Matches strict s ∨ a.Matches strict s
end

mutual
/-- The sets mean something (no range is reversed, no character classes), `[!` does not close at once, and `[^` is not followed by
    another `^`. -/
def G.Sound : G → Prop
  | .done => True
  | .lit _ g => g.Sound
  | .esc _ g => g.Sound
  | .any g => g.Sound
  | .star g => g.Sound
  | .set t g => Ere.items true t ≠ none ∧ g.Sound
  | .notSet t g => t ≠ [] ∧ Ere.items true t ≠ none ∧ g.Sound
  | .caretSet t g => t.head? ≠ some 94 ∧ Ere.items true t ≠ none ∧ g.Sound
  | .alt a g => a.Sound ∧ g.Sound
def A.Sound : A → Prop
  | .one g => g.Sound
  | .more g a => g.Sound ∧ a.Sound
end

mutual
/-- No set has the slash among its characters: it is in no range, and every `[!...]` has a range over it. -/
def G.NoSlash : G → Prop
  | .done => True
  | .lit _ g => g.NoSlash
  | .esc _ g => g.NoSlash
  | .any g => g.NoSlash
  | .star g => g.NoSlash
  | .set t g => ¬ inSet t 47 ∧ g.NoSlash
  | .notSet t g => inSet t 47 ∧ g.NoSlash
  | .caretSet t g => ¬ inSet t 47 ∧ g.NoSlash
  | .alt a g => a.NoSlash ∧ g.NoSlash
def A.NoSlash : A → Prop
  | .one g => g.NoSlash
  | .more g a => g.NoSlash ∧ a.NoSlash
end

end Spec.Glob
