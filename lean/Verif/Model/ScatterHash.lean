import Verif.Model.Basic
import Verif.Spec.Bag
/-
Model of WvScatterHashBase and WvScatterHash (utils/wvscatterhash.cc, include/wvscatterhash.h).

`unsigned` is 32 bits wide. The element type, the key of an element and the hash of a key are parameters; two keys are equal
when the comparator says so. `none` is an endless loop or a read past the table of primes. The allocation of memory is assumed
to succeed. The pointer left behind in a slot that is not occupied is never looked at, and is not kept here.
-/
namespace Wv.Scatter

/-- `prime_numbers` (utils/wvscatterhash.cc:12-20). -/
def primes : List Nat :=
  [2, 5, 11, 17, 31, 67, 127, 251, 509, 1021, 2039, 4093, 8191, 16381, 32749, 65521, 131071, 262139, 524287, 1048573,
   2097143, 4194301, 8388593, 16777213, 33554393, 67108859, 134217689, 268435399, 536870909, 1073741789, 2147483647,
   4294967281]

/-- A slot with its status (include/wvscatterhash.h:18-20): 0, 1, and 2 or 3. -/
inductive Slot (α : Type)
  | empty
  | deleted
  | full (x : α) (autofree : Bool)
deriving DecidableEq, Repr

/-- IS_OCCUPIED. -/
def Slot.occupied {α : Type} : Slot α → Bool
  | full _ _ => true
  | _ => false

/-- The status is 0. -/
def Slot.isEmpty {α : Type} : Slot α → Bool
  | empty => true
  | _ => false

/-- The fields of WvScatterHashBase (include/wvscatterhash.h:89-92, 114-115). -/
structure Table (α : Type) where
  slots : Nat → Slot α
  prime_index : Nat
  numslots : Nat
  used : Nat
  num : Nat

/-- What the template parameters provide: the key of an element and WvHash of a key. -/
structure Kind (α κ : Type) where
  key : α → κ
  hash : κ → UInt32

variable {α κ : Type} [DecidableEq κ]

/-- The loop of the constructor (utils/wvscatterhash.cc:34-36). -/
def primeIndex (numslots : Nat) (index : Nat) : Nat :=
  if h : numslots / 2 = 0 then index else primeIndex (numslots / 2) (index + 1)
termination_by numslots
decreasing_by omega

/-- The constructor (utils/wvscatterhash.cc:25-44). -/
def new (numslots : Nat) : Option (Table α) :=
  let index := if numslots = 0 then 0 else primeIndex numslots 1
  primes[index]?.map fun n => ⟨fun _ => .empty, index, n, 0, 0⟩

/-- `second_hash` (include/wvscatterhash.h:108-109). -/
def secondHash (n hash : Nat) : Nat := hash % (n - 1) + 1

/-- `curhash` (include/wvscatterhash.h:110-112). -/
def curhash (n hash hash2 attempt : Nat) : Nat := (hash + attempt * hash2) % 2 ^ 32 % n

/-- How often a loop may run: `attempt` is 32 bits wide, so that a loop which ran that often starts over again and never
    ends. -/
def turns : Nat := 2 ^ 32

/-- The loop of `_add` (utils/wvscatterhash.cc:101-102). -/
def addLoop (t : Table α) (hash hash2 : Nat) (slot attempt : Nat) : Nat → Option Nat
  | 0 => none
  | fuel + 1 =>
    if (t.slots slot).occupied then addLoop t hash hash2 (curhash t.numslots hash hash2 (attempt + 1)) (attempt + 1) fuel
    else some slot

/-- `_add(data, hash, auto_free)` after its call of `rebuild` (utils/wvscatterhash.cc:94-110). -/
def insert (t : Table α) (hash : Nat) (x : α) (autofree : Bool) : Option (Table α) :=
  let slot := hash % t.numslots
  (addLoop t hash (secondHash t.numslots hash) slot 0 turns).map fun slot =>
    { t with
      num := t.num + 1
      used := if (t.slots slot).isEmpty then t.used + 1 else t.used
      slots := fun i => if i = slot then .full x autofree else t.slots i }

/-- `numslots * REBUILD_LOAD_FACTOR <= used + 1` (utils/wvscatterhash.cc:60). The code computes in double; 0.45 * n is no
    integer for any n of the table, and is off by much less than its distance to the next integer. -/
def crowded (t : Table α) : Bool := decide (9 * t.numslots ≤ 20 * (t.used + 1))

/-- `numslots * RESIZE_LOAD_FACTOR <= num + 1` (utils/wvscatterhash.cc:65). In double, 0.4 * 5 is 2.0; for every other n of
    the table 0.4 * n is no integer. -/
def tooSmall (t : Table α) : Bool := decide (2 * t.numslots ≤ 5 * (t.num + 1))

/-- What the `_add`s of the loop of `rebuild` do (utils/wvscatterhash.cc:76-80). Each calls `rebuild` again, which does
    nothing unless the table is crowded; `none` if it should be, which `reinsert_spec` (Lemmas/ScatterHash) excludes for the
    tables that occur. -/
def reinsert (k : Kind α κ) (t : Table α) : List (Slot α) → Option (Table α)
  | [] => some t
  | .full x a :: r =>
    if crowded t then none else (insert t (k.hash (k.key x)).toNat x a).bind fun t => reinsert k t r
  | _ :: r => reinsert k t r

/-- `rebuild` (utils/wvscatterhash.cc:58-84). -/
def rebuild (k : Kind α κ) (t : Table α) : Option (Table α) :=
  if crowded t then
    let old := (List.range t.numslots).map t.slots
    (if tooSmall t then (primes[t.prime_index + 1]?).map fun n => (t.prime_index + 1, n) else some (t.prime_index, t.numslots)).bind
      fun p => reinsert k ⟨fun _ => .empty, p.1, p.2, 0, 0⟩ old
  else some t

/-- `add(data, autofree)` (include/wvscatterhash.h:150-151, utils/wvscatterhash.cc:91-111). -/
def add (k : Kind α κ) (t : Table α) (x : α) (autofree : Bool) : Option (Table α) :=
  (rebuild k t).bind fun t => insert t (k.hash (k.key x)).toNat x autofree

/-- `compare(data, xslots[slot])` of an occupied slot (include/wvscatterhash.h:130-132). -/
def matchesSlot (k : Kind α κ) (key : κ) : Slot α → Bool
  | .full x _ => decide (key = k.key x)
  | _ => false

/-- The loop of `genfind` (utils/wvscatterhash.cc:169-175). The outer `none` is no result after `turns` turns, the inner one
    null_idx. -/
def findLoop (k : Kind α κ) (t : Table α) (key : κ) (hash hash2 : Nat) (slot attempt : Nat) : Nat → Option (Option Nat)
  | 0 => none
  | fuel + 1 =>
    if (t.slots slot).isEmpty then some none
    else
      let slot := curhash t.numslots hash hash2 (attempt + 1)
      if matchesSlot k key (t.slots slot) then some (some slot) else findLoop k t key hash hash2 slot (attempt + 1) fuel

/-- `genfind(data, hash)` (utils/wvscatterhash.cc:159-178). -/
def genfind (k : Kind α κ) (t : Table α) (key : κ) : Option (Option Nat) :=
  let hash := (k.hash key).toNat
  let slot := hash % t.numslots
  if matchesSlot k key (t.slots slot) then some (some slot)
  else findLoop k t key hash (secondHash t.numslots hash) slot 0 turns

/-- `operator[](key)` (include/wvscatterhash.h:147-148, utils/wvscatterhash.cc:181-188). -/
def find (k : Kind α κ) (t : Table α) (key : κ) : Option (Option α) :=
  (genfind k t key).map fun r => r.bind fun slot =>
    match t.slots slot with
    | .full x _ => some x
    | _ => none

/-- `remove(data)` (include/wvscatterhash.h:153-154, utils/wvscatterhash.cc:113-124), and what it deletes. -/
def remove (k : Kind α κ) (t : Table α) (x : α) : Option (List α × Table α) :=
  (genfind k t (k.key x)).map fun r =>
    match r with
    | none => ([], t)
    | some slot =>
      (match t.slots slot with | .full y true => [y] | _ => [],
        { t with num := t.num - 1, slots := fun i => if i = slot then .deleted else t.slots i })

/-- `zap()` (utils/wvscatterhash.cc:126-137), and what it deletes. -/
def zap (t : Table α) : List α × Table α :=
  ((List.range t.numslots).filterMap fun i => match t.slots i with | .full y true => some y | _ => none,
    { t with slots := fun i => if i < t.numslots then .empty else t.slots i, used := 0, num := 0 })

/-- `set_autofree(data, autofree)` (include/wvscatterhash.h:161-164, utils/wvscatterhash.cc:139-146). -/
def setAutofree (k : Kind α κ) (t : Table α) (x : α) (autofree : Bool) : Option (Table α) :=
  (genfind k t (k.key x)).map fun r =>
    match r with
    | none => t
    | some slot =>
      match t.slots slot with
      | .full y _ => { t with slots := fun i => if i = slot then .full y autofree else t.slots i }
      | _ => t

/-- `IterBase::next()` (include/wvscatterhash.h:50-60), from the given `index`; the new index. -/
def next (t : Table α) (index : Nat) : Nat :=
  let index := index + 1
  if index ≤ t.numslots ∧ !(t.slots (index - 1)).occupied then next t index else index
termination_by t.numslots - index
decreasing_by omega

theorem lt_next (t : Table α) (index : Nat) : index < next t index := by
  generalize hd : t.numslots - index = d
  induction d using Nat.strongRecOn generalizing index with
  | ind d ih =>
    rw [next]
    split
    · rename_i h
      have := ih (t.numslots - (index + 1)) (by omega) (index + 1) rfl
      omega
    · omega

/-- What `for (i.rewind(); i.next(); )` visits, from the given `index`. -/
def iterate (t : Table α) (index : Nat) : List (α × Bool) :=
  let i := next t index
  if i ≤ t.numslots then
    (match t.slots (i - 1) with | .full x a => [(x, a)] | _ => []) ++ iterate t i
  else []
termination_by t.numslots - index
decreasing_by have := lt_next t index; omega

open Spec.Bag in
/-- A call. -/
def exec (k : Kind α κ) (t : Table α) : Call α κ → Option (Table α × Out α)
  | .add x a => (add k t x a).map fun t => (t, .freed [])
  | .remove x => (remove k t x).map fun r => (r.2, .freed r.1)
  | .setAutofree x a => (setAutofree k t x a).map fun t => (t, .freed [])
  | .zap => some ((zap t).2, .freed (zap t).1)
  | .find key => (find k t key).map fun r => (t, .found r)

open Spec.Bag in
/-- A history of calls. -/
def run (k : Kind α κ) : Table α → List (Call α κ) → Option (Table α × List (Out α))
  | t, [] => some (t, [])
  | t, op :: ops => (exec k t op).bind fun r => (run k r.1 ops).map fun q => (q.1, r.2 :: q.2)

end Wv.Scatter
