import Verif.Spec.Watch
/- Objects that watch a configuration, independent of the model. -/
namespace Spec.WatchObj
open Spec.Conf

/-- An object: where it is in memory, the key it is for, whether also for what is below, and what it calls. -/
structure Obj where
  addr : Nat
  key : Text
  recurse : Bool
  callback : Nat
deriving DecidableEq

/-- What is done with objects: making one, making one as a copy of another, destroying one. -/
inductive Op where
  | make (o : Obj)
  | copy (src addr : Nat)
  | destroy (addr : Nat)

/-- The objects that watch; a copy does not. -/
def watching (ws : List Obj) : Op → List Obj
  | .make o => ws ++ [o]
  | .copy _ _ => ws
  | .destroy a => ws.filter fun o => decide (o.addr ≠ a)

/-- The places in memory where there are objects. -/
def used (l : List Nat) : Op → List Nat
  | .make o => o.addr :: l
  | .copy _ a => a :: l
  | .destroy a => l.filter fun b => decide (b ≠ a)

/-- After a history. -/
def after (ws : List Obj) : List Op → List Obj
  | [] => ws
  | o :: l => after (watching ws o) l

def usedAfter (u : List Nat) : List Op → List Nat
  | [] => u
  | o :: l => usedAfter (used u o) l

/-- Objects are made where there is none; what is copied or destroyed is there. -/
def Proper (u : List Nat) : List Op → Prop
  | [] => True
  | .make o :: l => o.addr ∉ u ∧ Proper (used u (.make o)) l
  | .copy s a :: l => s ∈ u ∧ a ∉ u ∧ Proper (used u (.copy s a)) l
  | .destroy a :: l => a ∈ u ∧ Proper (used u (.destroy a)) l

/-- The watch of an object. -/
def watch (o : Obj) : Spec.Watch.Watch := ⟨place o.key, o.recurse, o.addr, o.callback⟩

end Spec.WatchObj
