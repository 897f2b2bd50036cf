import Verif.Model.Split
import Verif.Model.Hash
/-
Model of UniConfKey (include/uniconfkey.h, uniconf/uniconfkey.cc) as a value: a key is the list of its segments
`store->segments[left..right-1]`. That keys sharing a store do not see each other's changes is the subject of Model/KeyStore.
-/
namespace Wv

/-- A segment. -/
abbrev Seg := List Byte
/-- The segments of a key, from `left` to `right`. -/
abbrev Key := List Seg

namespace Key

/-- `collapse` (uniconf/uniconfkey.cc:71-83). -/
def collapse (k : Key) : Key := if k = [[]] ∨ k = [] then [] else k

/-- The constructors from a string (uniconf/uniconfkey.cc:47-68, include/uniconfkey.h:192-213). A null string is like an empty
    one. -/
def parse (s : List Byte) : Key :=
  if s = [] then []
  else
    let segments := (Split.split [ch '/'] 0 s).filter (· ≠ [])
    if s.getLast? = some (ch '/') ∧ 0 < segments.length then segments ++ [[]] else segments

/-- `isempty` (include/uniconfkey.h:264-267). -/
def isempty (k : Key) : Bool := k.length == 0
/-- `hastrailingslash` (include/uniconfkey.h:273-276). -/
def hastrailingslash (k : Key) : Bool := k.getLast? == some []
/-- `numsegments` (include/uniconfkey.h:287-290). -/
def numsegments (k : Key) : Int := k.length

/-- `UniConfKey(path, key)` (uniconf/uniconfkey.cc:99-127). -/
def join (path key : Key) : Key :=
  collapse (path.filter (· ≠ []) ++ key.filter (· ≠ []) ++ (if isempty key || hastrailingslash key then [[]] else []))

/-- `append` (uniconf/uniconfkey.cc:130-149). -/
def append (this key : Key) : Key :=
  collapse (this ++ key.filter (· ≠ []) ++ (if isempty key || hastrailingslash key then [[]] else []))

/-- `prepend` (uniconf/uniconfkey.cc:152-171), of a key whose segments but the last are not empty (Props.C63_prepend_empty_segment_fails
    has another). -/
def prepend (this key : Key) : Key := collapse (key.filter (· ≠ []) ++ this)

/-- `iswild` of a segment (include/uniconfkey.h:56-59). -/
def segIswild (s : Seg) : Bool := s == str ['*'] || s == str ['.', '.', '.']
/-- `iswild` (uniconf/uniconfkey.cc:174-180). -/
def iswild (k : Key) : Bool := k.any segIswild

/-- `pop(n)` (uniconf/uniconfkey.cc:183-197): the key returned, and this key afterwards. -/
def pop (k : Key) (n : Int) : Key × Key :=
  if n = 0 then ([], k)
  else
    let n := if n > k.length then (k.length : Int) else n
    let n := if n < 0 then 0 else n
    (collapse (k.take n.toNat), collapse (k.drop n.toNat))

/-- `range(i, j)` (uniconf/uniconfkey.cc:200-209). -/
def range (k : Key) (i j : Int) : Key :=
  let j := if j > k.length then (k.length : Int) else j
  let i := if i < 0 then 0 else i
  let j := if j < i then i else j
  collapse ((k.take j.toNat).drop i.toNat)

/-- `segment(n)` (include/uniconfkey.h:297-300). -/
def segment (k : Key) (n : Int) : Key := range k n (n + 1)
/-- INT_MAX, or anything that is not less than the number of segments. -/
def intMax : Int := 2147483647
/-- `first(n)` (include/uniconfkey.h:314-317). -/
def first (k : Key) (n : Int) : Key := range k 0 n
/-- `last(n)` (include/uniconfkey.h:324-327). Keys have less than 2^31 segments, so that `range(i, INT_MAX)` is
    `range(i, numsegments())`. -/
def last (k : Key) (n : Int) : Key := range k (numsegments k - n) (numsegments k)
/-- `removefirst(n)` (include/uniconfkey.h:335-338). -/
def removefirst (k : Key) (n : Int) : Key := range k n (numsegments k)
/-- `removelast(n)` (include/uniconfkey.h:346-349). -/
def removelast (k : Key) (n : Int) : Key := range k 0 (numsegments k - n)

/-- The loop of `printable` (uniconf/uniconfkey.cc:223-228). -/
def printLoop : Key → List Byte
  | [] => []
  | [s] => s
  | s :: t => s ++ ch '/' :: printLoop t

/-- `printable` (uniconf/uniconfkey.cc:212-232). -/
def printable (k : Key) : List Byte :=
  match k with
  | [] => []
  | [s] => s
  | _ => printLoop k

/-- `strcasecmp` in the "C" locale, as the difference of the first characters that differ; at the end of one of the strings as -1
    or 1 (C specifies only the sign). -/
def strcasecmp : List Byte → List Byte → Int
  | [], [] => 0
  | [], _ :: _ => -1
  | _ :: _, [] => 1
  | c :: a, d :: b =>
    if tolower c = tolower d then strcasecmp a b else ((tolower c).toNat : Int) - (tolower d).toNat

/-- `compareto` (uniconf/uniconfkey.cc:235-253). -/
def compareto : Key → Key → Int
  | [], [] => 0
  | [], _ :: _ => -1
  | _ :: _, [] => 1
  | s :: a, t :: b => if strcasecmp s t ≠ 0 then strcasecmp s t else compareto a b

/-- `operator==` (include/uniconfkey.h:434-435). -/
def eq (a b : Key) : Bool := compareto a b == 0

/-- `WvHash(const UniConfKey &)` (uniconf/uniconfkey.cc:15-34). -/
def hash (k : Key) : UInt32 :=
  match k with
  | [] => 0
  | [s] => wvHash (some s)
  | s :: t => wvHash (some s) ^^^ wvHash (some (t.getLast?.getD [])) ^^^ UInt32.ofNat k.length

/-- ANY (uniconf/uniconfkey.cc:39, 43). -/
def ANY : Key := [str ['*']]
/-- RECURSIVE_ANY (uniconf/uniconfkey.cc:40, 44). -/
def RECURSIVE_ANY : Key := [str ['.', '.', '.']]

/-- The loop of `matches` over the tails of the key (uniconf/uniconfkey.cc:278-286), from `n` on; `f part` is
    `part.matches(tail)`. -/
def anyPart (f : Key → Bool) (k : Key) (n : Nat) : Bool :=
  if f (removefirst k n) then true
  else if h : isempty (removefirst k n) then false
  else anyPart f k (n + 1)
termination_by k.length + 1 - n
decreasing_by
  rcases Nat.lt_or_ge n (k.length + 1) with h' | h'
  · omega
  · exfalso; apply h
    have : List.drop n (List.take n k) = [] := List.drop_eq_nil_of_le (by simp; omega)
    have h2 : ¬ ((n : Int) < 0) := by omega
    have h3 : ((k.length : Int) < n) := by omega
    simp [removefirst, range, isempty, numsegments, h2, h3, this, collapse]

/-- A range is not longer than the key. -/
theorem removefirst_lt (k : Key) (h : k ≠ []) : (removefirst k 1).length < k.length := by
  have h3 : 0 < k.length := List.length_pos_iff.mpr h
  unfold removefirst range collapse numsegments
  have h1 : ¬ ((k.length : Int) < 1) := by omega
  simp [h1]
  split
  · simpa using h3
  · simp; omega

/-- `matches(pattern)` (uniconf/uniconfkey.cc:256-291). -/
def «matches» (k pattern : Key) : Bool :=
  if eq k pattern then true
  else
    if h : eq (first pattern 1) ANY then
      if isempty k then false
      else «matches» (removefirst k 1) (removefirst pattern 1)
    else if h' : eq (first pattern 1) RECURSIVE_ANY then
      if isempty (removefirst pattern 1) then true
      else anyPart (fun part => «matches» part (removefirst pattern 1)) k 0
    else false
termination_by pattern.length
decreasing_by
  · apply removefirst_lt; rintro rfl; revert h; decide
  · apply removefirst_lt; rintro rfl; revert h'; decide

/-- `suborsame(key)` (uniconf/uniconfkey.cc:294-303). -/
def suborsame (this key : Key) : Bool :=
  let n := if hastrailingslash this then numsegments this - 1 else numsegments this
  eq (first key n) (first this n)

/-- `suborsame(key, subkey)` (uniconf/uniconfkey.cc:306-321): the subkey if the result is true. -/
def suborsameKey (this key : Key) : Option Key :=
  let n := if hastrailingslash this then numsegments this - 1 else numsegments this
  if eq (first key n) (first this n) then some (removefirst key n) else none

/-- `subkey` (uniconf/uniconfkey.cc:324-330). -/
def subkey (this key : Key) : Option Key := suborsameKey this key

end Key
end Wv
