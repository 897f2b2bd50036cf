import Verif.Spec.Sorter
/-
Model of the sorted iterators: include/wvsorter.h, utils/wvsorter.cc. Pointers to elements are numbers, 0 is NULL. `qsort` of the C library is a parameter: a
program that asks for comparisons and gives a list. A comparison function may itself sort something. What reads outside of an array is `none`.
-/
namespace Wv.Sorter

/-- What `qsort` does: compare two elements and go on with the answer, or end with the sorted array. -/
inductive Prog where
  | ret (l : List Nat)
  | ask (a b : Nat) (k : Int → Prog)

/-- A comparison function: it answers, or it sorts a list with another comparison function first (with a sorter of its own). -/
inductive Cmp where
  | fn (f : Nat → Nat → Int)
  | nest (f : Nat → Nat → Int) (c : Cmp) (l : List Nat)

/-- The static `actual_compare` (include/wvsorter.h:44, utils/wvsorter.cc:12); `none` is NULL. -/
abbrev Global := Option Cmp

/-- Running `qsort`: it calls `magic_compare` (utils/wvsorter.cc:14-18), which calls what `actual_compare` is at that time. -/
def runProg (invoke : Global → Nat → Nat → Option (Int × Global)) : Prog → Global → Option (List Nat × Global)
  | .ret l, g => some (l, g)
  | .ask a b k, g => (invoke g a b).bind fun r => runProg invoke (k r.1) r.2

/-- The last lines of `rewind` (include/wvsorter.h:111-114). -/
def sortWith (invoke : Global → Nat → Nat → Option (Int × Global)) (qsort : List Nat → Prog) (c : Cmp) (l : List Nat) (g : Global) :
    Option (List Nat × Global) :=
  let old := g
  (runProg invoke (qsort l) (some c)).map fun r => (r.1, old)

/-- Calling a comparison function; the first argument limits how deep. -/
def invoke (qsort : List Nat → Prog) : Nat → Global → Nat → Nat → Option (Int × Global)
  | 0, _, _, _ => none
  | _ + 1, none, _, _ => none
  | _ + 1, some (.fn f), a, b => some (f a b, some (.fn f))
  | n + 1, some (.nest f c l), a, b => (sortWith (invoke qsort n) qsort c l (some (.nest f c l))).map fun r => (f a b, r.2)

/-- `array` and `lptr` (as an index); NULL before the first `rewind`. -/
structure State where
  array : Option (List Nat)
  pos : Nat

/-- The loop that fills the array (include/wvsorter.h:97-101): what it wrote, and `remaining`. -/
def fill : Nat → List Nat → List Nat × Nat
  | n, [] => ([], n)
  | 0, _ :: _ => ([], 0)
  | n + 1, a :: l => let r := fill n l; (a :: r.1, r.2)

/-- `rewind` (include/wvsorter.h:79-117). `l1` is what the iterator finds when the elements are counted, `l2` when they are copied. `junk` is what is in cells
    that are not written. -/
def rewind (qsort : List Nat → Prog) (depth : Nat) (junk : Nat) (c : Cmp) (l1 l2 : List Nat) (g : Global) : Option (State × Global) :=
  let n := l1.length
  let r := fill n l2
  (sortWith (invoke qsort depth) qsort c r.1 g).map fun s => (⟨some (0 :: s.1 ++ [0] ++ List.replicate r.2 junk), 0⟩, s.2)

/-- `next` (include/wvsorter.h:35-36): `none` if that is not in the array. -/
def next (s : State) : Option (State × Bool) :=
  match s.array with
  | none => none
  | some a =>
    match a[s.pos + 1]? with
    | none => none
    | some x => some (⟨some a, s.pos + 1⟩, x != 0)

/-- `cur` (include/wvsorter.h:37-38). -/
def cur (s : State) : Option Bool := (s.array.bind fun a => a[s.pos]?).map fun x => x != 0

/-- `ptr` (include/wvsorter.h:65-66). -/
def ptr (s : State) : Option Nat := s.array.bind fun a => a[s.pos]?

/-- `while (i.next()) visit(i.ptr());` and the state afterwards; the first argument limits how often. -/
def walk : Nat → State → Option (List Nat × State)
  | 0, _ => none
  | n + 1, s =>
    (next s).bind fun r =>
      if r.2 then (ptr r.1).bind fun p => (walk n r.1).map fun w => (p :: w.1, w.2)
      else some ([], r.1)

end Wv.Sorter
