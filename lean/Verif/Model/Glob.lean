import Verif.Model.Basic
/-
Model of WvGlob::glob_to_regex (utils/wvglob.cc): the translation of a file name pattern to a regular expression. What regcomp and
regexec of the C library do with the expression is in Spec/Ere. A pattern is the list of its bytes before the NUL. The text of an
error is not modelled.
-/
namespace Wv.Glob

/-- The states of the loop (utils/wvglob.cc:110); `alts` is not one of them but the loop of a brace expression (lines 180-201). -/
inductive St where
  | normal
  | backslash
  | bracketFirst
  | bracket
  | alts
  deriving DecidableEq

/-- brace_quit_chars; the table of `normal_quit_chars` has none (utils/wvglob.cc:30-96). -/
def quits (brace : Bool) (c : Byte) : Bool := brace && (c == ch ',' || c == ch '}')

/-- The characters that get a backslash in the state NORMAL (utils/wvglob.cc:207-217). -/
def quoted (c : Byte) : Bool :=
  c == ch '^' || c == ch '.' || c == ch '$' || c == ch '(' || c == ch ')' || c == ch '|' || c == ch '+'

/-- The characters that keep their backslash in the state BACKSLASH (utils/wvglob.cc:226-242). -/
def kept (c : Byte) : Bool := quoted c || c == ch '[' || c == ch '{' || c == ch '*' || c == ch '?' || c == ch '\\'

/-- Puts text before the output. -/
def put (o : List Byte) (r : Option (List Byte × List Byte)) : Option (List Byte × List Byte) := r.map fun r => (o ++ r.1, r.2)

/-- `glob_to_regex(src, src_used, dst, dst_used, quit_chars)` (utils/wvglob.cc:105-310): the output and what is left of the source
    where it stops, or `none` for an error. `brace` says which table of quit characters it has. The two passes over the pattern,
    without and with a destination, differ in nothing else, so that the room the first counts is what the second fills. The first
    argument bounds the number of steps; there is one for each character and one more for each alternative of a brace expression
    (Props.C64_enough_steps). -/
def conv : Nat → Bool → St → List Byte → Option (List Byte × List Byte)
  | 0, _, _, _ => none
  | _ + 1, _, .normal, [] => some ([], [])
  | _ + 1, _, _, [] => none
  | n + 1, brace, .normal, c :: r =>
    if quits brace c then some ([], c :: r)
    else if c = ch '\\' then conv n brace .backslash r
    else if c = ch '[' then
      if r.head? = some (ch '^') ∧ r.tail.head? = some (ch ']') then put [ch '\\', ch '^'] (conv n brace .normal r.tail.tail)
      else put [ch '('] (conv n brace .bracketFirst r)
    else if c = ch '*' then put [ch '(', ch '[', ch '^', ch '/', ch ']', ch '*', ch ')'] (conv n brace .normal r)
    else if c = ch '?' then put [ch '(', ch '[', ch '^', ch '/', ch ']', ch ')'] (conv n brace .normal r)
    else if c = ch '{' then
      (conv n brace .alts r).bind fun q => put (ch '(' :: q.1 ++ [ch ')']) (conv n brace .normal q.2)
    else if quoted c then put [ch '\\', c] (conv n brace .normal r)
    else put [c] (conv n brace .normal r)
  | n + 1, brace, .backslash, c :: r =>
    if kept c then put [ch '\\', c] (conv n brace .normal r) else put [c] (conv n brace .normal r)
  | n + 1, brace, .bracketFirst, c :: r =>
    if c = ch '!' then put [ch '[', ch '^'] (conv n brace .bracket r)
    else if c = ch '^' then put [ch '\\', ch '^', ch '|', ch '['] (conv n brace .bracket r)
    else if c = ch '/' then none
    else put [ch '[', c] (conv n brace .bracket r)
  | n + 1, brace, .bracket, c :: r =>
    if c = ch ']' then put [ch ']', ch ')'] (conv n brace .normal r)
    else if c = ch '/' then none
    else put [c] (conv n brace .bracket r)
  | n + 1, brace, .alts, c :: r =>
    (conv n true .normal (c :: r)).bind fun q =>
      match q.2 with
      | [] => none
      | d :: rest =>
        if d = ch '}' then some (q.1, rest)
        else if d = ch ',' then put (q.1 ++ [ch '|']) (conv n brace .alts rest)
        else none

/-- `glob_to_regex(glob, errstr)` (utils/wvglob.cc:312-345), of a string that is not null: the expression, or `none` if there is an
    error. -/
def toRegex (glob : List Byte) : Option (List Byte) :=
  (conv (2 * glob.length + 1) false .normal glob).map fun r => ch '^' :: r.1 ++ [ch '$']

end Wv.Glob
