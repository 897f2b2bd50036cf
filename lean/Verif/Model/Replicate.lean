import Verif.Model.Caches
/-
UniReplicateGen (uniconf/unireplicategen.cc): several generators that are kept the same.

Whether an inner generator is ok is part of the state and changes between calls, or while it is asked for a value. What is notified is
told before the call that causes it returns (C23). A generator that is not ok notifies nothing. The notifications that UniReplicateGen
makes itself are left out, as are `setv`, and `iterator` but for which generator it asks.
-/
namespace Wv
open TempGen (Value Delta)

/-- A generator with notifications, and what a loop over its `recursiveiterator("/")` visits. -/
structure WGen (σ : Type) extends NGen σ where
  walk : σ → List (Key × Option Value)

namespace TempGen

mutual
/-- The number of nodes of a tree. -/
def Tree.size : Tree → Nat
  | .node _ _ c => 1 + sizeAll c
/-- The number of nodes of some trees. -/
def sizeAll : List Tree → Nat
  | [] => 0
  | t :: r => t.size + sizeAll r
end

/-- The same for a generator, which may be empty. -/
def Gen.size (g : Gen) : Nat :=
  match g.root with
  | none => 0
  | some t => t.size

end TempGen

/-- UniTempGen; its recursive iterator is the one of UniConfGen (uniconf/uniconfgen.cc:260-263). -/
def WGen.temp (ord : List TempGen.Tree → List TempGen.Tree) : WGen TempGen.Gen :=
  { NGen.temp ord with walk := fun g => (RecIter.recursive (IGen.temp ord) g (g.size + 1) []).1 }

namespace Replicate

/-- `Gen` (include/unireplicategen.h:31-43): an inner generator, and `was_ok`; `up` is what `isok()` of the inner generator is. -/
structure Copy (σ : Type) where
  gen : σ
  wasOk : Bool
  up : Bool

/-- The constructor of `Gen` (include/unireplicategen.h:37-38). -/
def Copy.new {σ : Type} (gen : σ) (up : Bool) : Copy σ := ⟨gen, up, up⟩

/-- What `isok` of `Gen` changes (include/unireplicategen.h:41). -/
def Copy.isok {σ : Type} (c : Copy σ) : Copy σ := { c with wasOk := c.up }

/-- `gens` (include/unireplicategen.h:45). -/
abbrev State (σ : Type) := List (Copy σ)

section
variable {σ : Type} (I : WGen σ)

/-- `first_ok` (uniconf/unireplicategen.cc:255-265): the generators, as asking them leaves them, and the number of the first that is ok. -/
def firstOk : State σ → State σ × Option Nat
  | [] => ([], none)
  | c :: r => if c.up then (c.isok :: r, some 0) else (c.isok :: (firstOk r).1, (firstOk r).2.map (· + 1))

/-- `isok` (uniconf/unireplicategen.cc:112-115). -/
def isok (s : State σ) : State σ × Bool := ((firstOk s).1, (firstOk s).2.isSome)

/-- `deltacallback` (uniconf/unireplicategen.cc:147-181), where no other call of it is under way. The notifications of the calls of `set`
    it makes do nothing, as one is then. -/
def deltacallback (src : Nat) (s : State σ) (x : Delta) : State σ :=
  s.mapIdx fun j c => if c.up && j != src then { c.isok with gen := I.set c.gen x.1 x.2 } else c.isok

/-- A call of `set` of inner generator number `i`, by anyone, where that is ok. -/
def setOn (s : State σ) (i : Nat) (k : Key) (v : Option Value) : State σ :=
  match s[i]? with
  | none => s
  | some c => (I.notes c.gen k v).foldl (deltacallback I i) (s.set i { c with gen := I.set c.gen k v })

/-- The body of the inner loop of `replicate` (uniconf/unireplicategen.cc:292-317). -/
def visit (first j : Nat) (s : State σ) (x : Key × Option Value) : State σ :=
  if j == first then deltacallback I first s x
  else
    match s[first]? with
    | none => s
    | some f => if I.exists f.gen x.1 then s else setOn I s first x.1 x.2

/-- The body of the outer loop of `replicate` (uniconf/unireplicategen.cc:276-320). The recursive iterator of UniConfGen asks for one level
    at a time; here it visits what the generator holds when the loop starts. In the loop it holds the same, apart from the root (shown with
    the proofs). -/
def replicateOne (first : Nat) (s : State σ) (j : Nat) : State σ :=
  match s[j]? with
  | none => s
  | some c => if c.up then (I.walk c.gen).foldl (visit I first j) (s.set j c.isok) else s.set j c.isok

/-- `replicate` (uniconf/unireplicategen.cc:268-325). -/
def replicate (s : State σ) : State σ :=
  match (firstOk s).2 with
  | none => (firstOk s).1
  | some f => (List.range s.length).foldl (replicateOne I f) (firstOk s).1

/-- `replicate_if_any_have_become_ok` (uniconf/unireplicategen.cc:327-348). -/
def check (s : State σ) : State σ :=
  if s.any fun c => !c.wasOk && c.up then replicate I (s.map fun c => if !c.wasOk && c.up then { c with wasOk := true } else c) else s

/-- The constructor with some generators (uniconf/unireplicategen.cc:56-75). -/
def new (l : List (σ × Bool)) : State σ := replicate I (l.map fun x => Copy.new x.1 x.2)

/-- `append` (uniconf/unireplicategen.cc:98-109). -/
def append (s : State σ) (gen : σ) (up : Bool) : State σ := replicate I (s ++ [Copy.new gen up])

/-- `prepend` (uniconf/unireplicategen.cc:84-95). -/
def prepend (s : State σ) (gen : σ) (up : Bool) : State σ := replicate I (Copy.new gen up :: s)

/-- `set` (uniconf/unireplicategen.cc:184-196). -/
def set (s : State σ) (k : Key) (v : Option Value) : State σ :=
  match (firstOk (check I s)).2 with
  | none => (firstOk (check I s)).1
  | some f => setOn I (firstOk (check I s)).1 f k v

/-- `get` (uniconf/unireplicategen.cc:213-239). `lost` says of each time an inner generator is asked whether it stops being ok then, in which
    case it returns null. `n` is the number of times after which the loop is given up. -/
def get : Nat → List Bool → State σ → Key → Option Value × State σ
  | 0, _, s, _ => (none, s)
  | n + 1, lost, s, k =>
    match (firstOk (check I s)).2 with
    | none => (none, (firstOk (check I s)).1)
    | some f =>
      match (firstOk (check I s)).1[f]? with
      | none => (none, (firstOk (check I s)).1)
      | some c =>
        if lost.headD false then
          get n lost.tail (firstOk ((firstOk (check I s)).1.set f { c with up := false, wasOk := false })).1 k
        else (I.get c.gen k, (firstOk (check I s)).1)

/-- `iterator` (uniconf/unireplicategen.cc:242-252). -/
def iterator (s : State σ) (k : Key) : Option (List (Key × Option Value)) × State σ :=
  match (firstOk (check I s)).2 with
  | none => (none, (firstOk (check I s)).1)
  | some f => ((firstOk (check I s)).1[f]?.bind fun c => I.iterator c.gen k, (firstOk (check I s)).1)

/-- `commit` (uniconf/unireplicategen.cc:135-144). -/
def commit (s : State σ) : State σ := (check I s).map fun c => { c with gen := I.commit c.gen }

/-- `refresh` (uniconf/unireplicategen.cc:118-132). -/
def refresh (s : State σ) : State σ × Bool :=
  ((check I s).map fun c => { c with gen := (I.refresh c.gen).1 }, (check I s).all fun c => (I.refresh c.gen).2)

/-- Someone else changes what inner generator number `i` holds; nothing is told if it is not ok. -/
def change (s : State σ) (i : Nat) (k : Key) (v : Option Value) : State σ :=
  match s[i]? with
  | none => s
  | some c => if c.up then setOn I s i k v else s.set i { c with gen := I.set c.gen k v }

/-- An inner generator stops being ok. -/
def lose (s : State σ) (i : Nat) : State σ := s.modify i fun c => { c with up := false }

/-- An inner generator is ok again. -/
def back (s : State σ) (i : Nat) : State σ := s.modify i fun c => { c with up := true }

end
end Replicate
end Wv
