/-
POSIX extended regular expressions, as regcomp and regexec of the C library have them in the "C" locale, independent of the model.
Of the syntax there is what the translation of a pattern needs: ordinary characters, backslash before a special one, bracket
expressions without character classes, `^`, `$`, grouping, alternatives (which may be empty, as in glibc) and `*`.
-/
namespace Spec.Ere

/-- An item of a bracket expression. -/
inductive Item where
  | one (c : UInt8)
  | range (a b : UInt8)

/-- The characters an item stands for. -/
def Item.has (x : UInt8) : Item → Bool
  | .one c => x == c
  | .range a b => a ≤ x && x ≤ b

/-- `[` before one of these begins a class, which there is none of. -/
def classStart (c : UInt8) (r : List UInt8) : Bool := c == 91 && (r.head? == some 58 || r.head? == some 46 || r.head? == some 61)

/-- The items of a bracket expression from its text: a minus sign between two characters makes a range, and otherwise may stand at
    the start (`first`) or at the end only. `none` if it is wrong. -/
def items (first : Bool) : List UInt8 → Option (List Item)
  | [] => some []
  | [c] => some [.one c]
  | [a, b] => if (a == 45 && !first) || classStart a [b] then none else some [.one a, .one b]
  | a :: b :: c :: r =>
    if (a == 45 && !first) || classStart a (b :: c :: r) then none
    else if b = 45 then
      if classStart c r || c < a then none else (items false r).map (.range a c :: ·)
    else (items false (b :: c :: r)).map (.one a :: ·)

/-- A regular expression. -/
inductive RE where
  | eps
  | set (p : UInt8 → Bool)
  | seq (a b : RE)
  | alt (a b : RE)
  | star (a : RE)
  | bol
  | eol

/-- `Mat r a w b`: the expression matches `w` where `a` is before it in the string and `b` after it. -/
inductive Mat : RE → List UInt8 → List UInt8 → List UInt8 → Prop
  | eps {a b} : Mat .eps a [] b
  | set {p c a b} : p c = true → Mat (.set p) a [c] b
  | seq {r q a u v b} : Mat r a u (v ++ b) → Mat q (a ++ u) v b → Mat (.seq r q) a (u ++ v) b
  | altL {r q a w b} : Mat r a w b → Mat (.alt r q) a w b
  | altR {r q a w b} : Mat q a w b → Mat (.alt r q) a w b
  | starNil {r a b} : Mat (.star r) a [] b
  | starCons {r a u v b} : Mat r a u (v ++ b) → Mat (.star r) (a ++ u) v b → Mat (.star r) a (u ++ v) b
  | bol {b} : Mat .bol [] [] b
  | eol {a} : Mat .eol a [] []

/-- regexec: some part of the string matches. -/
def Found (r : RE) (s : List UInt8) : Prop := ∃ a w b, s = a ++ w ++ b ∧ Mat r a w b

/-- A group that is being read: the alternatives before, and the pieces of the last one, the newest first. -/
structure Frame where
  alts : List RE
  cur : List RE

/-- The pieces one after the other. -/
def Frame.branch (f : Frame) : RE := f.cur.foldl (fun acc p => .seq p acc) .eps

/-- The expression of a group. -/
def Frame.close (f : Frame) : RE := f.alts.foldl (fun acc p => .alt p acc) f.branch

/-- Adds a piece. -/
def Frame.push (f : Frame) (p : RE) : Frame := { f with cur := p :: f.cur }

/-- Where the reader is: in the text, behind a backslash, behind `[`, behind `[^`, or in a bracket expression. -/
inductive Mode where
  | text
  | esc
  | opened
  | negated
  | body (neg : Bool) (t : List UInt8)

structure St where
  mode : Mode
  outer : List Frame
  top : Frame

/-- The special characters. -/
def special (c : UInt8) : Bool := [94, 46, 91, 36, 40, 41, 124, 42, 43, 63, 123, 92].contains c

/-- Reads a character; `none` if the expression is wrong, or uses what is not covered. -/
def St.step (s : St) (c : UInt8) : Option St :=
  match s.mode with
  | .text =>
    if c = 92 then some { s with mode := .esc }
    else if c = 91 then some { s with mode := .opened }
    else if c = 40 then some ⟨.text, s.top :: s.outer, ⟨[], []⟩⟩
    else if c = 41 then
      match s.outer with
      | [] => none
      | f :: o => some ⟨.text, o, f.push s.top.close⟩
    else if c = 124 then some { s with top := ⟨s.top.branch :: s.top.alts, []⟩ }
    else if c = 42 then
      match s.top.cur with
      | [] => none
      | p :: ps => some { s with top := ⟨s.top.alts, .star p :: ps⟩ }
    else if c = 94 then some { s with top := s.top.push .bol }
    else if c = 36 then some { s with top := s.top.push .eol }
    else if special c then none
    else some { s with top := s.top.push (.set (· == c)) }
  | .esc => if special c then some ⟨.text, s.outer, s.top.push (.set (· == c))⟩ else none
  | .opened => if c = 94 then some { s with mode := .negated } else some { s with mode := .body false [c] }
  | .negated => some { s with mode := .body true [c] }
  | .body neg t =>
    if c = 93 then (items true t).map fun is => ⟨.text, s.outer, s.top.push (.set fun x => is.any (·.has x) != neg)⟩
    else some { s with mode := .body neg (t ++ [c]) }

/-- Reads a text. -/
def St.run : St → List UInt8 → Option St
  | s, [] => some s
  | s, c :: r => (s.step c).bind fun s => s.run r

/-- regcomp: `none` if the expression is wrong, or uses what is not covered. -/
def parse (t : List UInt8) : Option RE :=
  (St.run ⟨.text, [], ⟨[], []⟩⟩ t).bind fun s =>
    match s.mode, s.outer with
    | .text, [] => some s.top.close
    | _, _ => none

end Spec.Ere
