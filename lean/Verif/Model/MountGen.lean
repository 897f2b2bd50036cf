import Verif.Model.IGen
import Verif.Model.CStr
/-
Model of UniMountGen (uniconf/unimountgen.cc, include/unimountgen.h). Generators are known by numbers, so that one may be mounted
twice. Notifications are left out, except for the key `gencallback` gives them.
-/
namespace Wv.MountGen
open TempGen (Value)

/-- The list of mounts, `mounts`, newest first, as mount keys and generators; and the states of all generators. -/
structure State (σ : Type) where
  mounts : List (Key × Nat)
  gens : Nat → σ

/-- The state of one generator replaced. -/
def State.update {σ : Type} (s : State σ) (i : Nat) (g : σ) : State σ := ⟨s.mounts, fun j => if j = i then g else s.gens j⟩

/-- `findmount` (uniconf/unimountgen.cc:361-372). -/
def findmount {σ : Type} (s : State σ) (key : Key) : Option (Key × Nat) := s.mounts.find? fun m => Key.suborsame m.1 key

/-- `trimkey` (include/unimountgen.h:117-118). -/
def trimkey (foundkey key : Key) : Key := Key.removefirst key (Key.numsegments foundkey)

/-- `has_subkey` (uniconf/unimountgen.cc:127-147). -/
def hasSubkey (key : Key) (found : Option Nat) : List (Key × Nat) → Bool
  | [] => false
  | m :: r =>
    if Key.suborsame key m.1 && decide (Key.compareto key m.1 < 0) then true
    else if found = some m.2 then false
    else hasSubkey key found r

section
variable {σ : Type} (I : IGen σ)

/-- `get` (uniconf/unimountgen.cc:29-43). -/
def get (s : State σ) (key : Key) : Option Value :=
  match findmount s key with
  | none => if hasSubkey key none s.mounts then some [] else none
  | some m => I.get (s.gens m.2) (trimkey m.1 key)

/-- `set` (uniconf/unimountgen.cc:46-52). -/
def set (s : State σ) (key : Key) (value : Option Value) : State σ :=
  match findmount s key with
  | none => s
  | some m => s.update m.2 (I.set (s.gens m.2) (trimkey m.1 key) value)

/-- What `setv` gives to the `i`th mount (uniconf/unimountgen.cc:80-92): the pairs whose key it finds this mount for. Mounts that have
    the same key share a slot of the hash table, in which the lookup finds the one added first, which is the newest, as
    `findmount` does. -/
def pairsFor (mounts : List (Key × Nat)) (i : Nat) (pairs : List (Key × Option Value)) : List (Key × Option Value) :=
  pairs.filterMap fun p =>
    match mounts.findIdx? fun m => Key.suborsame m.1 p.1 with
    | none => none
    | some j => if j = i then some (trimkey ((mounts.map Prod.fst).getD j []) p.1, p.2) else none

/-- `setv` (uniconf/unimountgen.cc:70-97). `order` is the order of the mounts in the hash table, by their places in the list. -/
def setv (order : List Nat) (s : State σ) (pairs : List (Key × Option Value)) : State σ :=
  order.foldl (fun s i =>
    match s.mounts[i]? with
    | none => s
    | some m => s.update m.2 (I.setv (s.gens m.2) (pairsFor s.mounts i pairs))) s

/-- `exists` (uniconf/unimountgen.cc:100-110). -/
def «exists» (s : State σ) (key : Key) : Bool :=
  match findmount s key with
  | none => hasSubkey key none s.mounts
  | some m => if I.exists (s.gens m.2) (trimkey m.1 key) then true else hasSubkey key (some m.2) s.mounts

/-- `haschildren` (uniconf/unimountgen.cc:113-124). -/
def haschildren (s : State σ) (key : Key) : Bool :=
  match findmount s key with
  | none => hasSubkey key none s.mounts
  | some m => if I.haschildren (s.gens m.2) (trimkey m.1 key) then true else hasSubkey key (some m.2) s.mounts

/-- The loop of `refresh` (uniconf/unimountgen.cc:149-161): generators after one that fails are not refreshed. -/
def refreshLoop (s : State σ) : List (Key × Nat) → State σ × Bool
  | [] => (s, true)
  | m :: r =>
    let x := I.refresh (s.gens m.2)
    let s := s.update m.2 x.1
    if x.2 then refreshLoop s r else (s, false)

/-- `refresh`. -/
def refresh (s : State σ) : State σ × Bool := refreshLoop I s s.mounts

/-- `commit` (uniconf/unimountgen.cc:164-173). -/
def commit (s : State σ) : State σ := s.mounts.foldl (fun s m => s.update m.2 (I.commit (s.gens m.2))) s

/-- The loop of `makemount` (uniconf/unimountgen.cc:415-423): from `points` on. -/
def makeLoop (s : State σ) (points : Key) : List Key → State σ × Key
  | [] => (s, points)
  | k :: r =>
    let points := Key.append points k
    let s := if (get I s points).isNone then set I s points (some []) else s
    makeLoop s points r

/-- `makemount` (uniconf/unimountgen.cc:411-434). -/
def makemount (s : State σ) (key : Key) : State σ :=
  let r := makeLoop I s [] (TempGen.segments key)
  match findmount r.1 (Key.removelast r.2 1) with
  | none => r.1
  | some m =>
    let k := trimkey m.1 key
    if (I.get (r.1.gens m.2) k).isNone then r.1.update m.2 (I.set (r.1.gens m.2) k (some [])) else r.1

/-- `mountgen` (uniconf/unimountgen.cc:194-219) of a generator that is not NULL. -/
def mountgen (s : State σ) (key : Key) (gen : Nat) (refresh : Bool) : State σ :=
  let s := makemount I s key
  let s := if refresh then s.update gen (I.refresh (s.gens gen)).1 else s
  let s : State σ := ⟨(key, gen) :: s.mounts, s.gens⟩
  let root := Key.parse [ch '/']
  if I.exists (s.gens gen) root then s else s.update gen (I.set (s.gens gen) root (some []))

/-- `unmount` (uniconf/unimountgen.cc:222-264) of a generator that is not NULL: `none` where an iterator at the end of the list is
    used, if the generator is not mounted. -/
def unmount (s : State σ) (gen : Nat) (commit : Bool) : Option (State σ) :=
  match s.mounts.findIdx? fun m => m.2 = gen with
  | none => none
  | some i =>
    let key := (s.mounts.map Prod.fst).getD i []
    let s := if commit then s.update gen (I.commit (s.gens gen)) else s
    let next := (s.mounts[i + 1]?).map Prod.snd
    let s : State σ := ⟨s.mounts.eraseIdx i, s.gens⟩
    let newer := s.mounts.takeWhile fun m => some m.2 ≠ next
    some (newer.foldl (fun s m => if Key.suborsame key m.1 && !Key.eq key m.1 then makemount I s m.1 else s) s)

/-- Put a string into a sorted list (uniconf/unimountgen.cc:306-309, 339). -/
def insert (x : List Byte) : List (List Byte) → List (List Byte)
  | [] => [x]
  | y :: r => if x ≤ y then x :: y :: r else y :: insert x r

/-- The keys `iterator` lists when no mount is found (uniconf/unimountgen.cc:323-341): the segments after the key in the keys of
    mounts below it. The table has each string once, with regard to case. -/
def nextSegments (key : Key) (mounts : List (Key × Nat)) : List (List Byte) :=
  let l := mounts.filterMap fun m =>
    if Key.numsegments key < Key.numsegments m.1 && Key.suborsame key m.1 then
      some (Key.printable (Key.last (Key.first m.1 (Key.numsegments key + 1)) 1))
    else none
  l.foldl (fun r x => if r.contains x then r else insert x r) []

/-- `iterator` (uniconf/unimountgen.cc:311-345). The values of UniListIter to which none were added are read from this generator
    with the key listed (uniconf/unilistiter.cc:55-61). -/
def iterator (s : State σ) (key : Key) : Option (List (Key × Option Value)) :=
  match findmount s key with
  | some m => I.iterator (s.gens m.2) (trimkey m.1 key)
  | none => some ((nextSegments key s.mounts).map fun x => (Key.parse x, get I s (Key.parse x)))

/-- `whichmount` (uniconf/unimountgen.cc:274-290), with the mount point. -/
def whichmount (s : State σ) (key : Key) : Option (Key × Nat) := s.mounts.find? fun m => Key.suborsame m.1 key

/-- `ismountpoint` (uniconf/unimountgen.cc:293-304). -/
def ismountpoint (s : State σ) (key : Key) : Bool := s.mounts.any fun m => Key.eq m.1 key

/-- The key `gencallback` notifies with (uniconf/unimountgen.cc:404-408). -/
def callbackKey (base key : Key) : Key := Key.join base key

/-- The generator. -/
def gen (order : List Nat) : IGen (State σ) where
  get := get I
  «exists» := «exists» I
  haschildren := haschildren I
  iterator := iterator I
  set := set I
  setv := setv I order
  commit := commit I
  refresh := refresh I
  prefetch := fun s _ _ => s
  flush := fun s => s

end
end Wv.MountGen
