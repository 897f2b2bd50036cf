import Verif.Model.RecIter
/-
Model of UniUnwrapGen (uniconf/uniunwrapgen.cc), which makes a generator of a handle of a configuration, and of the choice that the moniker
"auto:" makes (uniconf/uniautogen.cc).

`I` is the generator at the root of the handle, `base` the key of the handle. That `commit` and `refresh` do nothing while they are running is
left out: nothing here calls them from inside.
-/
namespace Wv.Unwrap
open TempGen (Value)

/-- `_sub(key)` (uniconf/uniunwrapgen.cc:46-52, include/uniconf.h:119-120), as its full key. -/
def sub (base key : Key) : Key := if Key.isempty key then base else Key.join base key

section
variable {σ : Type} (I : IGen σ)

/-- What an iterator over a handle is at, when the one of the generator is at `x`: `i->key()` and `i->getme()`
    (uniconf/uniunwrapgen.cc:138-139, 157-158, include/uniconf.h:111-112, 449-452, 479-482). -/
def visit (s : σ) (top : Key) (x : Key × Option Value) : Key × Option Value :=
  let current := Key.join top x.1
  (Key.last current 1, I.get s current)

/-- The generator (uniconf/uniunwrapgen.cc:55-114, 124-140, 162-165). A null iterator is one that visits nothing (uniconf/uniconf.cc:233-234). -/
def gen (base : Key) : IGen σ where
  get := fun s k => I.get s (sub base k)
  «exists» := fun s k => I.exists s (sub base k)
  haschildren := fun s k => I.haschildren s (sub base k)
  iterator := fun s k => some (((I.iterator s (sub base k)).getD []).map (visit I s (sub base k)))
  set := fun s k v => I.set s (sub base k) v
  setv := fun s l => I.setv s l
  commit := I.commit
  refresh := I.refresh
  prefetch := fun s k r => I.prefetch s (sub base k) r
  flush := fun s => s

/-- `recursiveiterator` (uniconf/uniunwrapgen.cc:143-159, 168-171), for a root that has the default one. -/
def recursive (base : Key) (s : σ) (n : Nat) (key : Key) : List (Key × Option Value) :=
  (RecIter.recursive I s n (sub base key)).1.map (visit I s (sub base key))

end

/-- `gencallback` (uniconf/uniunwrapgen.cc:174-179): what is passed on. -/
def told (base : Key) (d : TempGen.Delta) : Option TempGen.Delta := (Key.suborsameKey base d.1).map fun k => (k, d.2)

/-- A round of the loop of the creator of "auto:" (uniconf/uniautogen.cc:50-56); `get` reads the configuration of monikers. The moniker, and the key
    that is taken below it. -/
def autoTry (get : Key → Option Value) (app : Key) (i : Nat) : Option (Value × Key) :=
  let v := (get (Key.join [] (Key.first app i))).getD []
  if v ≠ [] then some (v, Key.removefirst app i) else none

/-- The loop (uniconf/uniautogen.cc:48-57), from `i` on. -/
def autoLoop (get : Key → Option Value) (app : Key) : Nat → Option (Value × Key)
  | 0 => autoTry get app 0
  | i + 1 => match autoTry get app (i + 1) with
    | some r => some r
    | none => autoLoop get app i

/-- The creator (uniconf/uniautogen.cc:40-60): `none` for "null:". -/
def auto (get : Key → Option Value) (app : Key) : Option (Value × Key) := autoLoop get app app.length

end Wv.Unwrap
