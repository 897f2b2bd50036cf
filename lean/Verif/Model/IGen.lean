import Verif.Model.TempGen
/-
The interface of configuration generators, IUniConfGen (include/uniconfgen.h:39-231), as operations on a state. Notifications and
recursive iterators are left out here. Reading does not change the state: `get`, `exists`, `haschildren` and `iterator` of the
generators modelled do not. An iterator is the list of what it visits, as keys and values; `none` is NULL.
-/
namespace Wv
open TempGen (Value)

/-- The operations. -/
structure IGen (σ : Type) where
  get : σ → Key → Option Value
  «exists» : σ → Key → Bool
  haschildren : σ → Key → Bool
  iterator : σ → Key → Option (List (Key × Option Value))
  set : σ → Key → Option Value → σ
  setv : σ → List (Key × Option Value) → σ
  commit : σ → σ
  refresh : σ → σ × Bool
  prefetch : σ → Key → Bool → σ
  flush : σ → σ

namespace IGen

/-- The calls that may change something. -/
inductive Call where
  | set (k : Key) (v : Option Value)
  | setv (l : List (Key × Option Value))
  | commit
  | refresh
  | prefetch (k : Key) (recursive : Bool)
  | flush

/-- Making one of them. -/
def call {σ : Type} (I : IGen σ) (s : σ) : Call → σ
  | .set k v => I.set s k v
  | .setv l => I.setv s l
  | .commit => I.commit s
  | .refresh => (I.refresh s).1
  | .prefetch k r => I.prefetch s k r
  | .flush => I.flush s

/-- Making some. -/
def calls {σ : Type} (I : IGen σ) (s : σ) : List Call → σ
  | [] => s
  | c :: r => calls I (call I s c) r

/-- `setv_naive` (uniconf/uniconfgen.cc:93-98). -/
def setvNaive {σ : Type} (set : σ → Key → Option Value → σ) (s : σ) : List (Key × Option Value) → σ
  | [] => s
  | (k, v) :: r => setvNaive set (set s k v) r

/-- UniTempGen (uniconf/unitempgen.cc; commit and refresh: 185-194; prefetch: include/uniconfgen.h:324; flush_buffers:
    include/unitempgen.h:36), with the order of children given by a permutation. Notifications are left out. -/
def temp (ord : List TempGen.Tree → List TempGen.Tree) : IGen TempGen.Gen where
  get := TempGen.get
  «exists» := TempGen.exists
  haschildren := TempGen.haschildren
  iterator := fun g k => (TempGen.iterator g k).map fun l => l.map fun x => (x.1, some x.2)
  set := fun g k v => (TempGen.set ord g k v).1
  setv := setvNaive fun g k v => (TempGen.set ord g k v).1
  commit := fun g => g
  refresh := fun g => (g, true)
  prefetch := fun g _ _ => g
  flush := fun g => g

/-- UniFilterGen with an inner generator (uniconf/unifiltergen.cc:52-154); `keymap` is `none` where it returns false. -/
def filter {σ : Type} (I : IGen σ) (keymap : Key → Option Key) : IGen σ where
  get := fun s k => match keymap k with | some k => I.get s k | none => none
  «exists» := fun s k => match keymap k with | some k => I.exists s k | none => false
  haschildren := fun s k => match keymap k with | some k => I.haschildren s k | none => false
  iterator := fun s k => match keymap k with | some k => I.iterator s k | none => none
  set := fun s k v => match keymap k with | some k => I.set s k v | none => s
  setv := fun s l => I.setv s l
  commit := I.commit
  refresh := I.refresh
  prefetch := fun s k r => match keymap k with | some k => I.prefetch s k r | none => s
  flush := I.flush

/-- UniReadOnlyGen (include/unireadonlygen.h:19-28). -/
def readonly {σ : Type} (I : IGen σ) : IGen σ :=
  { filter I some with set := fun s _ _ => s, flush := fun s => s }

/-- `UniSubtreeGen::keymap` (uniconf/unisubtreegen.cc:37-44). -/
def subtreeKeymap (subkey k : Key) : Option Key := if Key.isempty k then some subkey else some (Key.join subkey k)

/-- `UniSubtreeGen::reversekeymap` (uniconf/unisubtreegen.cc:46-53). -/
def subtreeReverse (subkey k : Key) : Option Key := Key.suborsameKey subkey k

/-- UniSubtreeGen (uniconf/unisubtreegen.cc). -/
def subtree {σ : Type} (I : IGen σ) (subkey : Key) : IGen σ := filter I (subtreeKeymap subkey)

/-- The iterator of UniListGen (uniconf/unilistgen.cc:174-236): it visits what those of the generators that are not NULL visit,
    without keys visited before. -/
def listIter : List Key → List (Key × Option Value) → List (Key × Option Value)
  | _, [] => []
  | d, (k, v) :: r => if d.any fun x => Key.eq k x then listIter d r else (k, v) :: listIter (k :: d) r

/-- UniListGen (uniconf/unilistgen.cc:80-147, 168-171). The state is the list of the states of its generators. `refresh` of all generators is called, whatever the others return. -/
def list {σ : Type} (I : IGen σ) : IGen (List σ) where
  get := fun l k => match l.find? fun s => I.exists s k with | some s => I.get s k | none => none
  «exists» := fun l k => l.any fun s => I.exists s k
  haschildren := fun l k => l.any fun s => I.haschildren s k
  iterator := fun l k => some (listIter [] (l.filterMap fun s => I.iterator s k).flatten)
  set := fun l k v => l.map fun s => I.set s k v
  setv := fun l p => l.map fun s => I.setv s p
  commit := fun l => l.map I.commit
  refresh := fun l => (l.map fun s => (I.refresh s).1, l.all fun s => (I.refresh s).2)
  prefetch := fun l _ _ => l
  flush := fun l => l

end IGen

/-! ### Permissions -/
namespace Perm

inductive Level where
  | user
  | group
  | world

inductive Kind where
  | read
  | write
  | exec

/-- Who asks (include/unipermgen.h:38-45). -/
structure Cred where
  user : Option (List Byte)
  groups : List (List Byte)

/-- `level2str` (uniconf/unipermgen.cc:151-161). -/
def level2str : Level → List Byte
  | .user => str ['u', 's', 'e', 'r']
  | .group => str ['g', 'r', 'o', 'u', 'p']
  | .world => str ['w', 'o', 'r', 'l', 'd']

/-- `type2str` (uniconf/unipermgen.cc:164-174). -/
def type2str : Kind → List Byte
  | .read => str ['r', 'e', 'a', 'd']
  | .write => str ['w', 'r', 'i', 't', 'e']
  | .exec => str ['e', 'x', 'e', 'c']

/-- The key of an attribute of a path: `WvString("%s/owner", path)` as a key. -/
def attr (path : Key) (name : List Byte) : Key := Key.parse (Key.printable path ++ ch '/' :: name)

theorem removelast_length (k : Key) (h : Key.isempty k = false) : (Key.removelast k 1).length < k.length := by
  have hl : 0 < k.length := by cases k <;> simp_all [Key.isempty]
  unfold Key.removelast Key.range Key.numsegments Key.collapse
  have h1 : ¬ ((k.length : Int) - 1 > k.length) := by omega
  have h2 : ¬ ((k.length : Int) - 1 < 0) := by omega
  simp only [h1, h2, if_false, Int.lt_irrefl]
  split
  · exact hl
  · simp; omega

/-- `getowner` and `getgroup` (uniconf/unipermgen.cc:41-48, 57-63), by the name of the attribute; `get` is that of the inner
    generator. -/
def getname (get : Key → Option Value) (name : List Byte) (path : Key) : Option Value :=
  let v := get (attr path name)
  if h : v.getD [] = [] ∧ Key.isempty path = false then getname get name (Key.removelast path 1) else v
termination_by path.length
decreasing_by exact removelast_length path h.2

/-- `getoneperm` (uniconf/unipermgen.cc:96-116). `num` is what `str2int` makes of a value that is not null; -1 is its default. -/
def getoneperm (num : Value → Int) (get : Key → Option Value) (level : Level) (type : Kind) (path : Key) : Bool :=
  let val := match get (attr path (level2str level ++ ch '-' :: type2str type)) with
    | none => -1
    | some v => num v
  if val = -1 then
    if h : Key.isempty path then false
    else getoneperm num get level type (Key.removelast path 1)
  else val ≠ 0
termination_by path.length
decreasing_by exact removelast_length path (by simpa using h)

/-- `getperm` (uniconf/unipermgen.cc:74-90). -/
def getperm (num : Value → Int) (get : Key → Option Value) (path : Key) (cred : Cred) (type : Kind) : Bool :=
  let owner := getname get (str ['o', 'w', 'n', 'e', 'r']) path
  let group := getname get (str ['g', 'r', 'o', 'u', 'p']) path
  let level : Level :=
    if owner.getD [] ≠ [] ∧ cred.user = owner then .user
    else if group.getD [] ≠ [] ∧ group.getD [] ∈ cred.groups then .group
    else .world
  getoneperm num get level type path

/-- The loop of `drilldown` (uniconf/unisecuregen.cc:205-224); `fuel` is at least the number of segments left. -/
def drillLoop (exec : Key → Bool) : Nat → Key → Key → Bool
  | 0, _, _ => true
  | n + 1, check, left =>
    if Key.isempty left then true
    else if exec check then drillLoop exec n (Key.append check (Key.first left 1)) (Key.removefirst left 1)
    else false

/-- `drilldown`. -/
def drilldown (exec : Key → Bool) (key : Key) : Bool := drillLoop exec key.length [] key

/-- `findperm` (uniconf/unisecuregen.cc:196-202); `perm` is `getperm` with the credentials. -/
def findperm (perm : Key → Kind → Bool) (key : Key) (type : Kind) : Bool :=
  drilldown (fun k => perm k .exec) key && perm key type

end Perm

namespace IGen
open Perm

/-- UniSecureGen over an inner generator (uniconf/unisecuregen.cc:78-143, 160-170). The state of the permissions does not change
    in the calls modelled, except in `refresh` and `commit`, which are not modelled for it. The iterator is NULL without
    permission; with an inner one that is NULL the real one crashes, here it is NULL too. -/
def secure {σ : Type} (I : IGen σ) (perm : Key → Kind → Bool) : IGen σ :=
  let get := fun s k => if findperm perm k .read then (filter I some).get s k else none
  { filter I some with
    get := get
    «exists» := fun s k => if findperm perm (Key.removelast k 1) .exec then (filter I some).exists s k else false
    set := fun s k v => if findperm perm k .write then (filter I some).set s k v else s
    haschildren := fun s k => if findperm perm k .exec then (filter I some).haschildren s k else false
    iterator := fun s k =>
      if findperm perm k .exec then
        ((filter I some).iterator s k).map fun l => l.map fun x => (x.1, get s (Key.prepend x.1 k))
      else none }

end IGen
end Wv
