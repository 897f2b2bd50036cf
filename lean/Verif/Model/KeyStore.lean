import Verif.Model.Key
/-
Model of how UniConfKey objects share their segments (include/uniconfkey.h:62-249, 384-393, uniconf/uniconfkey.cc:36-171,
183-209). Model/Key has what the operations do to a key as a value; here a key is a range of a counted store.

Memory is the list of stores in the order of their allocation; a deleted one stays in the list as `none`, so that its use is
an error. Store 0 is EMPTY_store. `none` as a result is undefined behaviour: an index outside of a vector, use of a deleted
store. Allocation does not fail, and ints do not overflow (keys have less than 2^31 segments). The segments are strings as
values (Model/Strings shows that they are).
-/
namespace Wv.KeyStore

/-- A Store with its SegmentVector (include/uniconfkey.h:62-71, 143-149): `vec` has `_size` elements. -/
structure Store where
  vec : List Seg
  used : Nat
  refs : Nat
  deriving DecidableEq, Repr

/-- A UniConfKey: `store`, `left`, `right` (include/uniconfkey.h:151-152). -/
structure K where
  store : Nat
  left : Nat
  right : Nat
  deriving DecidableEq, Repr

/-- The stores. -/
abbrev Mem := List (Option Store)

/-- EMPTY_store, with the reference that keeps it and the one of the static key EMPTY (uniconf/uniconfkey.cc:36-42). -/
def Mem.new : Mem := [some ⟨[[]], 0, 2⟩]

/-- A store that has not been deleted. -/
def fetch (m : Mem) (id : Nat) : Option Store := (m[id]?).join

/-- Stores a store; `none` deletes it. -/
def put (m : Mem) (id : Nat) (s : Option Store) : Mem := m.set id s

/-- A new SegmentVector in a new Store (include/uniconfkey.h:67-72). -/
def Store.new (size refs : Nat) : Store := ⟨List.replicate size [], 0, refs⟩

/-- `segments.append(segment)` (include/uniconfkey.h:119-122). -/
def Store.append (s : Store) (x : Seg) : Option Store :=
  if s.used < s.vec.length then some { s with vec := s.vec.set s.used x, used := s.used + 1 } else none

/-- A loop of `segments.append` over the segments that are not empty (uniconf/uniconfkey.cc:60-65, 105-120). -/
def Store.appendAll : Store → List Seg → Option Store
  | s, [] => some s
  | s, x :: r => if x = [] then s.appendAll r else (s.append x).bind fun s => s.appendAll r

/-- `segments.replace(index, segment)` (include/uniconfkey.h:127-132). -/
def Store.replace (s : Store) (i : Nat) (x : Seg) : Option Store :=
  if i < s.vec.length then some { s with vec := s.vec.set i x, used := if s.used ≤ i then i + 1 else s.used } else none

/-- `segments.resize(size, shift)` (include/uniconfkey.h:78-105), with the loops as what they do: the first one moves
    `_used` elements up by `shift`, the second one copies `limit` elements to `shift`. -/
def Store.resize (s : Store) (size shift : Nat) : Option Store :=
  if size ≤ s.vec.length then
    if 0 < shift then
      if s.used = 0 then some { s with used := shift }
      else if s.used + shift ≤ s.vec.length then
        some { s with vec := s.vec.take shift ++ s.vec.take s.used ++ s.vec.drop (shift + s.used), used := s.used + shift }
      else none
    else some s
  else
    let limit := min (min (size - shift) s.vec.length) s.used
    some { s with vec := List.replicate shift [] ++ s.vec.take limit ++ List.replicate (size - shift - limit) [],
                  used := s.used + shift }

/-- `store->ref_count++`. -/
def link (m : Mem) (id : Nat) : Option Mem := (fetch m id).map fun s => put m id (some { s with refs := s.refs + 1 })

/-- `if (--store->ref_count == 0) delete store;` (include/uniconfkey.h:244-245). -/
def release (m : Mem) (id : Nat) : Option Mem :=
  (fetch m id).bind fun s =>
    if s.refs = 0 then none
    else if s.refs = 1 then some (put m id none)
    else some (put m id (some { s with refs := s.refs - 1 }))

/-- `segments[i]` (include/uniconfkey.h:137-140). -/
def segment (m : Mem) (id i : Nat) : Option Seg := (fetch m id).bind fun s => s.vec[i]?

/-- The segments of a key. -/
def value (m : Mem) (k : K) : Option Key :=
  (fetch m k.store).bind fun s => if k.right ≤ s.vec.length then some ((s.vec.take k.right).drop k.left) else none

/-- `hastrailingslash()` (include/uniconfkey.h:273-276). -/
def hastrailingslash (m : Mem) (k : K) : Option Bool :=
  if k.right > k.left then (segment m k.store (k.right - 1)).map (· == []) else some false

/-- The copy constructor (include/uniconfkey.h:227-233). -/
def copy (m : Mem) (k : K) : Option (Mem × K) := (link m k.store).map fun m => (m, k)

/-- `UniConfKey()` (include/uniconfkey.h:176-182). -/
def empty (m : Mem) : Option (Mem × K) := (link m 0).map fun m => (m, ⟨0, 0, 0⟩)

/-- The condition of `collapse` (uniconf/uniconfkey.cc:73-74). -/
def isroot (m : Mem) (k : K) : Option Bool :=
  if k.right - k.left = 1 then (segment m k.store (k.right - 1)).map (· == []) else some (k.right == k.left)

/-- `collapse()` (uniconf/uniconfkey.cc:71-83). -/
def collapse (m : Mem) (k : K) : Option (Mem × K) :=
  (isroot m k).bind fun b => if b then (release m k.store).bind fun m => empty m else some (m, k)

/-- `unique()` (uniconf/uniconfkey.cc:86-97). -/
def unique (m : Mem) (k : K) : Option (Mem × K) :=
  (fetch m k.store).bind fun s =>
    if s.refs = 1 then some (m, k)
    else if s.refs = 0 then none
    else (value m k).map fun x =>
      (put m k.store (some { s with refs := s.refs - 1 }) ++ [some ⟨x, x.length, 1⟩], ⟨m.length, 0, k.right - k.left⟩)

/-- The constructors from a string: Store(4, 1, key) (uniconf/uniconfkey.cc:47-68, include/uniconfkey.h:192-213). A null string
    is like an empty one. -/
def make (m : Mem) (t : List Byte) : Option (Mem × K) :=
  (if t = [] then some (Store.new 4 1)
   else
    let parts := Split.split [ch '/'] 0 t
    ((Store.new 4 1).resize parts.length 0).bind fun s => (s.appendAll parts).bind fun s =>
      if t.getLast? = some (ch '/') ∧ 0 < s.used then s.append [] else some s).map
  fun s => (m ++ [some s], ⟨m.length, 0, s.used⟩)

/-- The constructor that concatenates two keys (uniconf/uniconfkey.cc:99-127). -/
def concat (m : Mem) (a b : K) : Option (Mem × K) :=
  (hastrailingslash m b).bind fun t => (value m a).bind fun x => (value m b).bind fun y =>
    ((Store.new (a.right - a.left + (b.right - b.left) + 1) 1).appendAll x).bind fun s => (s.appendAll y).bind fun s =>
      (if b.right == b.left || t then s.append [] else some s).bind fun s =>
        collapse (m ++ [some s]) ⟨m.length, 0, s.used⟩

/-- The loop of `append` (uniconf/uniconfkey.cc:135-142), from `j`: the memory, and `right` at its end. `_key.right` changes with
    our `right` if `_key` is this key (`self`). The first argument bounds the number of turns, none of which is outside of the
    vector. -/
def appendLoop (self : Bool) : Nat → Mem → K → K → Nat → Option (Mem × K)
  | 0, m, this, key, j => if j < (if self then this.right else key.right) then none else some (m, this)
  | n + 1, m, this, key, j =>
    if j < (if self then this.right else key.right) then
      (segment m (if self then this.store else key.store) j).bind fun x =>
        if x = [] then appendLoop self n m this key (j + 1)
        else (fetch m this.store).bind fun s => (s.replace this.right x).bind fun s =>
          appendLoop self n (put m this.store (some s)) { this with right := this.right + 1 } key (j + 1)
    else some (m, this)

/-- `append(_key)` (uniconf/uniconfkey.cc:130-149); `self` if `_key` is this key. -/
def append (m : Mem) (this key : K) (self : Bool) : Option (Mem × K) :=
  (hastrailingslash m key).bind fun t => (unique m this).bind fun r =>
    let m := r.1
    let this := r.2
    let key := if self then this else key
    (fetch m this.store).bind fun s => (s.resize (this.right - this.left + (key.right - key.left) + 1) 0).bind fun s =>
      (fetch (put m this.store (some s)) key.store).bind fun s' =>
        (appendLoop self s'.vec.length (put m this.store (some s)) this key key.left).bind fun r =>
          (if key.right == key.left || t then
            (fetch r.1 r.2.store).bind fun s => (s.replace r.2.right []).map fun s =>
              (put r.1 r.2.store (some s), { r.2 with right := r.2.right + 1 })
           else some r).bind fun r => collapse r.1 r.2

/-- The second loop of `prepend` (uniconf/uniconfkey.cc:162-169), like that of `append`. -/
def prependLoop (self : Bool) : Nat → Mem → K → K → Nat → Option (Mem × K)
  | 0, m, this, key, j => if j < (if self then this.right else key.right) then none else some (m, this)
  | n + 1, m, this, key, j =>
    if j < (if self then this.right else key.right) then
      (segment m (if self then this.store else key.store) j).bind fun x =>
        if x = [] then prependLoop self n m this key (j + 1)
        else (fetch m this.store).bind fun s => (s.replace (this.left + j - key.left) x).bind fun s =>
          prependLoop self n (put m this.store (some s)) { this with right := this.right + 1 } key (j + 1)
    else some (m, this)

/-- `prepend(_key)` (uniconf/uniconfkey.cc:152-171); `self` if `_key` is this key. -/
def prepend (m : Mem) (this key : K) (self : Bool) : Option (Mem × K) :=
  (unique m this).bind fun r =>
    let m := r.1
    let this := r.2
    let key := if self then this else key
    (value m key).bind fun y =>
      let shift := (y.filter (· ≠ [])).length
      (fetch m this.store).bind fun s => (s.resize (shift + (this.right - this.left)) shift).bind fun s =>
        (fetch (put m this.store (some s)) key.store).bind fun s' =>
          (prependLoop self s'.vec.length (put m this.store (some s)) this key key.left).bind fun r => collapse r.1 r.2

/-- A temporary key is collapsed, copied to the result and destroyed: `return UniConfKey(...).collapse();`
    (uniconf/uniconfkey.cc:196, 208). -/
def give (m : Mem) (k : K) : Option (Mem × K) :=
  (collapse m k).bind fun r => (copy r.1 r.2).bind fun q => (release q.1 r.2.store).map fun m => (m, q.2)

/-- `pop(n)` (uniconf/uniconfkey.cc:183-197): this key afterwards and the key returned. -/
def pop (m : Mem) (this : K) (n : Int) : Option (Mem × K × K) :=
  if n = 0 then (empty m).map fun r => (r.1, this, r.2)
  else (unique m this).bind fun r =>
    let this := r.2
    let n := if n > ((this.right - this.left : Nat) : Int) then ((this.right - this.left : Nat) : Int) else n
    let n := if n < 0 then 0 else n
    (link r.1 this.store).bind fun m =>
      (collapse m { this with left := this.left + n.toNat }).bind fun q =>
        (give q.1 ⟨this.store, this.left, this.left + n.toNat⟩).map fun p => (p.1, q.2, p.2)

/-- `range(i, j)` (uniconf/uniconfkey.cc:200-209). -/
def range (m : Mem) (this : K) (i j : Int) : Option (Mem × K) :=
  let j := if j > ((this.right - this.left : Nat) : Int) then ((this.right - this.left : Nat) : Int) else j
  let i := if i < 0 then 0 else i
  let j := if j < i then i else j
  (link m this.store).bind fun m => give m ⟨this.store, this.left + i.toNat, this.left + j.toNat⟩

/-- `operator=` (include/uniconfkey.h:384-393). -/
def assign (m : Mem) (this other : K) : Option (Mem × K) :=
  (release m this.store).bind fun m => (link m other.store).map fun m => (m, other)

/-- What a program does with its UniConfKey variables. -/
inductive Op where
  /-- `UniConfKey v;` -/
  | declare (v : Nat)
  /-- `UniConfKey v(text);` -/
  | make (v : Nat) (t : List Byte)
  /-- `UniConfKey v(w);` -/
  | copy (v w : Nat)
  /-- `UniConfKey v(w, u);` -/
  | concat (v w u : Nat)
  /-- `UniConfKey v(w.range(i, j));`, and with it first, last, removefirst, removelast and segment -/
  | range (v w : Nat) (i j : Int)
  /-- `UniConfKey v(w.pop(n));` -/
  | pop (v w : Nat) (n : Int)
  /-- `v = w;` -/
  | assign (v w : Nat)
  /-- `v = w.range(i, j);` -/
  | assignRange (v w : Nat) (i j : Int)
  /-- `v.append(w);` -/
  | append (v w : Nat)
  /-- `v.prepend(w);` -/
  | prepend (v w : Nat)
  /-- the destructor -/
  | destroy (v : Nat)

/-- The memory and the variables. -/
structure State where
  mem : Mem
  vars : List (Option K)
  deriving DecidableEq, Repr

/-- No variable out of `n` exists. -/
def State.new (n : Nat) : State := ⟨Mem.new, List.replicate n none⟩

/-- A variable. -/
def State.get (st : State) (v : Nat) : Option K := (st.vars[v]?).join

/-- Puts a result into a variable. -/
def State.put (st : State) (v : Nat) (r : Option (Mem × K)) : Option State :=
  r.map fun r => ⟨r.1, st.vars.set v (some r.2)⟩

/-- One statement of the program. -/
def step (st : State) : Op → Option State
  | .declare v => st.put v (empty st.mem)
  | .make v t => st.put v (make st.mem t)
  | .copy v w => (st.get w).bind fun k => st.put v (copy st.mem k)
  | .concat v w u => (st.get w).bind fun a => (st.get u).bind fun b => st.put v (concat st.mem a b)
  | .range v w i j => (st.get w).bind fun k => st.put v (range st.mem k i j)
  | .pop v w n => (st.get w).bind fun k => (pop st.mem k n).map fun r =>
      ⟨r.1, (st.vars.set w (some r.2.1)).set v (some r.2.2)⟩
  | .assign v w => (st.get v).bind fun k => (st.get w).bind fun k2 => st.put v (assign st.mem k k2)
  | .assignRange v w i j => (st.get v).bind fun k => (st.get w).bind fun k2 => (range st.mem k2 i j).bind fun r =>
      st.put v ((assign r.1 k r.2).bind fun q => (release q.1 r.2.store).map fun m => (m, q.2))
  | .append v w => (st.get v).bind fun k => (st.get w).bind fun k2 => st.put v (append st.mem k k2 (v == w))
  | .prepend v w => (st.get v).bind fun k => (st.get w).bind fun k2 => st.put v (prepend st.mem k k2 (v == w))
  | .destroy v => (st.get v).bind fun k => (release st.mem k.store).map fun m => ⟨m, st.vars.set v none⟩

/-- A program. -/
def run : State → List Op → Option State
  | st, [] => some st
  | st, o :: r => (step st o).bind fun st => run st r

/-- The key in a variable. -/
def State.value (st : State) (v : Nat) : Option Key := (st.get v).bind (KeyStore.value st.mem)

end Wv.KeyStore
