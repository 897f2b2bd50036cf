import Verif.Model.IGen
/- What a generator that reconnects must do, independent of the model. -/
namespace Spec.Retry
open Wv
open TempGen (Value)

/-- What may be asked of a generator. -/
inductive Op where
  | get (k : Key)
  | «exists» (k : Key)
  | haschildren (k : Key)
  | iterator (k : Key)
  | recursive (k : Key)
  | isok
  | set (k : Key) (v : Option Value)
  | setv (l : List (Key × Option Value))
  | commit
  | refresh
  | prefetch (k : Key) (all : Bool)
  | flush

inductive Ans where
  | val (v : Option Value)
  | bool (b : Bool)
  | iter (l : Option (List (Key × Option Value)))
  | unit
deriving DecidableEq, Repr

/-- A generator, with whether it is all right and its recursive iterators. -/
structure Inner (σ : Type) where
  gen : IGen σ
  ok : σ → Bool
  recursive : σ → Key → Option (List (Key × Option Value))

/-- What the generator does and answers itself. -/
def ask {σ : Type} (M : Inner σ) (g : σ) : Op → σ × Ans
  | .get k => (g, .val (M.gen.get g k))
  | .exists k => (g, .bool (M.gen.exists g k))
  | .haschildren k => (g, .bool (M.gen.haschildren g k))
  | .iterator k => (g, .iter (M.gen.iterator g k))
  | .recursive k => (g, .iter (M.recursive g k))
  | .isok => (g, .bool (M.ok g))
  | .set k v => (M.gen.set g k v, .unit)
  | .setv l => (M.gen.setv g l, .unit)
  | .commit => (M.gen.commit g, .unit)
  | .refresh => ((M.gen.refresh g).1, .bool (M.gen.refresh g).2)
  | .prefetch k a => (M.gen.prefetch g k a, .unit)
  | .flush => (M.gen.flush g, .unit)

/-- The answer while there is no connection: only the root is there, and it is empty. -/
def down : Op → Ans
  | .get k => .val (if k = [] then some [] else none)
  | .exists k => .bool (k = [])
  | .haschildren _ => .bool false
  | .iterator _ => .iter none
  | .recursive _ => .iter none
  | .isok => .bool false
  | .refresh => .bool false
  | _ => .unit

/-- What is done about the connection. -/
inductive Ev where
  | attempt (t : Int) (made good : Bool)
  | callback
  | lost (t : Int)
  | release
deriving DecidableEq, Repr

/-- Generators that were made. -/
def made (l : List Ev) : Nat := (l.filter fun | .attempt _ m _ => m | _ => false).length
/-- Generators that were given back. -/
def released (l : List Ev) : Nat := (l.filter fun | .release => true | _ => false).length
/-- Attempts that made a generator which was not all right, and connections that were lost. -/
def failures (l : List Ev) : Nat := (l.filter fun | .attempt _ m g => m && !g | .lost _ => true | _ => false).length
def connected (l : List Ev) : Nat := (l.filter fun | .attempt _ _ g => g | _ => false).length
def callbacks (l : List Ev) : Nat := (l.filter fun | .callback => true | _ => false).length

end Spec.Retry
