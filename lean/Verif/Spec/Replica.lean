import Verif.Spec.Conf
/- What copies of a configuration that are kept the same are to be, independent of the model. -/
namespace Spec.Replica
open Spec.Conf

/-- A copy: what it holds, and whether it can be reached. -/
structure Copy where
  conf : State
  up : Bool

/-- What happens: a value is set or removed, or read, through the generator that keeps the copies the same, or it is told to commit or
    refresh, or asked whether it is ok; someone else sets or removes a value in one copy; one cannot be reached any more; one can again. -/
inductive Ev where
  | set (k : Text) (v : Option Text)
  | get (k : Text)
  | commit
  | refresh
  | isok
  | change (i : Nat) (k : Text) (v : Option Text)
  | lose (i : Nat)
  | back (i : Nat)
  deriving DecidableEq

/-- All that the copies that can be reached hold together; where they differ, what the first of them holds. -/
def merge (s : List Copy) : State := fun q => (s.find? fun c => c.up && (c.conf q).isSome).bind fun c => c.conf q

/-- The copies that can be reached all get that. -/
def sync (s : List Copy) : List Copy := s.map fun c => if c.up then { c with conf := merge s } else c

/-- A value is set or removed in all copies that can be reached. -/
def put (s : List Copy) (k : Text) (v : Option Text) : List Copy :=
  s.map fun c => if c.up then { c with conf := Spec.Conf.set c.conf k v } else c

/-- What an event does. -/
def step (s : List Copy) : Ev → List Copy
  | .set k v => put (sync s) k v
  | .get _ => sync s
  | .commit => sync s
  | .refresh => sync s
  | .isok => s
  | .change i k v =>
    match s[i]? with
    | none => s
    | some c => if c.up then put s k v else s.set i { c with conf := Spec.Conf.set c.conf k v }
  | .lose i => s.modify i fun c => { c with up := false }
  | .back i => s.modify i fun c => { c with up := true }

/-- What some events do. -/
def run (s : List Copy) : List Ev → List Copy
  | [] => s
  | e :: r => run (step s e) r

/-- The events leave the generator a chance to see what happens to the copies: after one can be reached again the generator is used before it
    is asked whether it is ok and before anyone else changes a copy, and no one changes a copy that cannot be reached. `up` says which copies
    can be reached, `fresh` whether one can again since the generator was used. -/
def Tidy (up : List Bool) (fresh : Bool) : List Ev → Prop
  | [] => True
  | .set _ _ :: r => Tidy up false r
  | .get _ :: r => Tidy up false r
  | .commit :: r => Tidy up false r
  | .refresh :: r => Tidy up false r
  | .isok :: r => fresh = false ∧ Tidy up fresh r
  | .change i _ _ :: r => fresh = false ∧ up[i]? ≠ some false ∧ Tidy up fresh r
  | .lose i :: r => Tidy (up.set i false) fresh r
  | .back i :: r => Tidy (up.set i true) true r

end Spec.Replica
