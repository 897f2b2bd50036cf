import Verif.Model.Basic
import Verif.Spec.Dict
/-
Model of WvHashTableBase and WvHashTable (utils/wvhashtable.cc, include/wvhashtable.h).

The slots are WvLists, modelled as sequences of elements with their autofree flag; that WvList behaves like a sequence is C51.
The key of an element and the hash of a key are parameters; two keys are equal when the comparator says so. Not modelled:
get_autofree and set_autofree by element, which pass a hash where a key is expected.
-/
namespace Wv.HashTable
open Spec.Dict (Call Out)
variable {α κ : Type} [DecidableEq κ]

/-- What the template parameters provide: the key of an element and WvHash of a key. -/
structure Kind (α κ : Type) where
  key : α → κ
  hash : κ → UInt32

/-- The fields (include/wvhashtable.h:107-108). -/
structure Table (α : Type) where
  numslots : Nat
  slots : Nat → List (α × Bool)

/-- The loop of the constructor (utils/wvhashtable.cc:15-17). -/
def slides (numslots : Nat) (n : Nat) : Nat :=
  if h : numslots / 2 = 0 then n else slides (numslots / 2) (n + 1)
termination_by numslots
decreasing_by omega

/-- The constructor (utils/wvhashtable.cc:13-19, include/wvhashtable.h:188-189). `none`: `1 << slides` overflows an int. -/
def new (numslots : Nat) : Option (Table α) :=
  if slides numslots 1 ≤ 30 then some ⟨2 ^ slides numslots 1 - 1, fun _ => []⟩ else none

/-- The loop of `prevlink` in a slot (utils/wvhashtable.cc:30-36): how many links come before the first one that matches, or
    before the end. -/
def prevlink (k : Kind α κ) (key : κ) : List (α × Bool) → Nat
  | [] => 0
  | p :: l => if key = k.key p.1 then 0 else prevlink k key l + 1

/-- The slot of a key. -/
def slotOf (k : Kind α κ) (t : Table α) (key : κ) : Nat := (k.hash key).toNat % t.numslots

/-- Change a slot. -/
def Table.set (t : Table α) (i : Nat) (l : List (α × Bool)) : Table α := { t with slots := fun j => if j = i then l else t.slots j }

/-- `genfind` (utils/wvhashtable.cc:40-48), `operator[]` (include/wvhashtable.h:203-204). -/
def find (k : Kind α κ) (t : Table α) (key : κ) : Option α :=
  let l := t.slots (slotOf k t key)
  l[prevlink k key l]?.map Prod.fst

/-- `add(data, autofree)` (include/wvhashtable.h:197-198). -/
def add (k : Kind α κ) (t : Table α) (x : α) (a : Bool) : Table α :=
  let i := slotOf k t (k.key x)
  t.set i (t.slots i ++ [(x, a)])

/-- `remove(data)` (include/wvhashtable.h:237-242), and what it deletes. -/
def remove (k : Kind α κ) (t : Table α) (x : α) : Table α × List α :=
  let i := slotOf k t (k.key x)
  let l := t.slots i
  let n := prevlink k (k.key x) l
  match l[n]? with
  | none => (t, [])
  | some p => (t.set i (l.eraseIdx n), if p.2 then [p.1] else [])

/-- `set_autofree(key, autofree)` (include/wvhashtable.h:225-230). -/
def setAutofree (k : Kind α κ) (t : Table α) (key : κ) (a : Bool) : Table α :=
  let i := slotOf k t key
  let l := t.slots i
  t.set i (l.modify (prevlink k key l) fun p => (p.1, a))

/-- `get_autofree(key)` (include/wvhashtable.h:209-215). -/
def getAutofree (k : Kind α κ) (t : Table α) (key : κ) : Bool :=
  let l := t.slots (slotOf k t key)
  match l[prevlink k key l]? with
  | some p => p.2
  | none => false

/-- `zap()` (include/wvhashtable.h:244-248), and what it deletes, slot by slot (the order of the slots is that of the array;
    C++ destroys them from the last to the first). -/
def zap (t : Table α) : Table α × List α :=
  (⟨t.numslots, fun _ => []⟩,
    (List.range t.numslots).reverse.flatMap fun i => ((t.slots i).filter Prod.snd).map Prod.fst)

/-- The loop of `count()` (utils/wvhashtable.cc:51-58), from slot `i` on. -/
def countFrom (t : Table α) (i : Nat) : Nat :=
  if h : i < t.numslots then (t.slots i).length + countFrom t (i + 1) else 0
termination_by t.numslots - i

/-- The loop of `isempty()` (utils/wvhashtable.cc:61-67), from slot `i` on. -/
def isemptyFrom (t : Table α) (i : Nat) : Bool :=
  if h : i < t.numslots then if (t.slots i).isEmpty then isemptyFrom t (i + 1) else false else true
termination_by t.numslots - i

/-- The loop of `IterBase::next()` (utils/wvhashtable.cc:86-92): the slot it stops at, and whether it has a link. -/
def nextSlot (t : Table α) (cur : Nat) : Nat × Bool :=
  if h : cur < t.numslots - 1 then
    if (t.slots (cur + 1)).isEmpty then nextSlot t (cur + 1) else (cur + 1, true)
  else (cur, false)
termination_by t.numslots - cur

/-- `IterBase::next()` (utils/wvhashtable.cc:70-97). The link is given by its number in its slot, 0 for the slot's own. -/
def next (t : Table α) (tblindex link : Nat) : Option (Nat × Nat) :=
  if link < (t.slots tblindex).length then some (tblindex, link + 1)
  else
    match nextSlot t tblindex with
    | (i, true) => some (i, 1)
    | (_, false) => none

/-- What `for (i.rewind(); i.next(); )` visits, from the given iterator on. The bound on the number of turns is never reached
    (`iterate_flat`, Lemmas/HashTable). -/
def iterate (t : Table α) (tblindex link : Nat) : Nat → Option (List (α × Bool))
  | 0 => none
  | fuel + 1 =>
    match next t tblindex link with
    | none => some []
    | some (i, n) => ((t.slots i)[n - 1]?).bind fun p => (iterate t i n fuel).map (p :: ·)

/-- A call. -/
def exec (k : Kind α κ) (t : Table α) : Call α κ → Table α × Out α
  | .add x a => (add k t x a, .freed [])
  | .remove x => ((remove k t x).1, .freed (remove k t x).2)
  | .setAutofree key a => (setAutofree k t key a, .freed [])
  | .getAutofree key => (t, .flag (getAutofree k t key))
  | .find key => (t, .found (find k t key))
  | .count => (t, .num (countFrom t 0))
  | .isempty => (t, .flag (isemptyFrom t 0))

/-- A history of calls. -/
def run (k : Kind α κ) : Table α → List (Call α κ) → Table α × List (Out α)
  | t, [] => (t, [])
  | t, op :: ops => ((run k (exec k t op).1 ops).1, (exec k t op).2 :: (run k (exec k t op).1 ops).2)

end Wv.HashTable
