import Verif.Model.TempGen
import Verif.Spec.CallbackGen
/-!
`UniCallbackGen` (include/unicallbackgen.h), on `UniTempGen` (C22). The functions of the program do not call the generator. Notifications are those of
`UniTempGen::set` (C23) and are left out here.
-/
namespace Wv.CallbackGen
open Wv
open Spec.CallbackGen (Op Ans)

/-- `GetCallbackMap` and `SetCallbackMap` (unicallbackgen.h:29-32): a `std::map` by the order of keys; two keys are the same entry if neither is less than the other. -/
abbrev Map := List (Key × Nat)

/-- `find` of the map (unicallbackgen.h:65, 81). -/
def Map.find (m : Map) (k : Key) : Option Nat := (m.find? fun e => Key.compareto k e.1 == 0).map Prod.snd

/-- `m[key] = f` and `m.erase(key)` (unicallbackgen.h:48-51, 56-59). -/
def Map.store (m : Map) (k : Key) : Option Nat → Map
  | some f => (k, f) :: m.filter fun e => Key.compareto k e.1 != 0
  | none => m.filter fun e => Key.compareto k e.1 != 0

/-- The functions of the program, called with a key. -/
structure Funs (W : Type) where
  compute : Nat → W → Key → W × Option TempGen.Value
  told : Nat → W → Key → Option TempGen.Value → W

structure Gen (W : Type) where
  temp : TempGen.Gen
  world : W
  gets : Map
  sets : Map
  before : Bool
  after : Bool

/-- `UniCallbackGen::UniCallbackGen` (unicallbackgen.h:40-42). -/
def new {W : Type} (w : W) : Gen W := ⟨TempGen.new, w, [], [], false, true⟩

/-- The order in which the hash table has the children after a change (see Model/TempGen). -/
abbrev Order := List TempGen.Tree → List TempGen.Tree

variable {W : Type}

/-- `UniCallbackGen::update` (unicallbackgen.h:62-70). -/
def update (F : Funs W) (ord : Order) (g : Gen W) (key : Key) (value : Option TempGen.Value) : Gen W :=
  match g.gets.find key with
  | some i =>
    let r := F.compute i g.world key
    { g with world := r.1, temp := (TempGen.set ord g.temp key r.2).1 }
  | none => { g with temp := (TempGen.set ord g.temp key value).1 }

/-- `UniCallbackGen::get` (unicallbackgen.h:73-78). -/
def get (F : Funs W) (ord : Order) (g : Gen W) (key : Key) : Option TempGen.Value × Gen W :=
  let g := if g.before then update F ord g key none else g
  (TempGen.get g.temp key, g)

/-- `UniCallbackGen::set` (unicallbackgen.h:79-87). -/
def put (F : Funs W) (ord : Order) (g : Gen W) (key : Key) (value : Option TempGen.Value) : Gen W :=
  let g := match g.sets.find key with
    | some i => { g with world := F.told i g.world key value }
    | none => g
  if g.after then update F ord g key value else g

/-- A call; keys are given as text. `exists` is the inherited one, that calls `get` (uniconf/uniconfgen.cc:120-123). -/
def step (F : Funs W) (ord : Order) (g : Gen W) : Op → Ans × Gen W
  | .setGet s f => (.unit, { g with gets := g.gets.store (Key.parse s) f })
  | .setSet s f => (.unit, { g with sets := g.sets.store (Key.parse s) f })
  | .before b => (.unit, { g with before := b })
  | .after b => (.unit, { g with after := b })
  | .update s v => (.unit, update F ord g (Key.parse s) v)
  | .put s v => (.unit, put F ord g (Key.parse s) v)
  | .get s => let r := get F ord g (Key.parse s); (.value r.1, r.2)
  | .exists_ s => let r := get F ord g (Key.parse s); (.bool r.1.isSome, r.2)

def run (F : Funs W) (g : Gen W) : List (Op × Order) → List Ans × Gen W
  | [] => ([], g)
  | (o, ord) :: l => let r := step F ord g o; let q := run F r.2 l; (r.1 :: q.1, q.2)

/-- `iterator`, which is not overridden (uniconf/unitempgen.cc). -/
def iterator (g : Gen W) (key : Key) : Option (List (Key × TempGen.Value)) := TempGen.iterator g.temp key

end Wv.CallbackGen
