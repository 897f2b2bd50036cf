import Verif.Spec.Conf
/-!
A configuration whose values are computed by functions of the program, for C129.
-/
namespace Spec.CallbackGen
open Spec.Conf

/-- The functions of the program, by number: one that computes the value of a key, one that is told of a value for a key. They may do anything to the rest
    of the program, `W`, but do not use the configuration. -/
structure Funs (W : Type) where
  compute : Nat → W → Text → W × Option Text
  told : Nat → W → Text → Option Text → W

/-- What a key is registered for: its place, and whether it is written with a slash at its end. -/
abbrev Slot := Place × Bool
def slot (s : Text) : Slot := (place s, Spec.Path.dir s)

/-- The configuration, the program, which function is registered for what, and the two switches. -/
structure St (W : Type) where
  conf : State
  world : W
  gets : Slot → Option Nat
  sets : Slot → Option Nat
  before : Bool
  after : Bool

inductive Op
  | setGet (s : Text) (f : Option Nat)
  | setSet (s : Text) (f : Option Nat)
  | before (b : Bool)
  | after (b : Bool)
  | update (s : Text) (v : Option Text)
  | put (s : Text) (v : Option Text)
  | get (s : Text)
  | exists_ (s : Text)

inductive Ans
  | unit
  | value (v : Option Text)
  | bool (b : Bool)
deriving DecidableEq

variable {W : Type}

/-- A key gets the value its function computes, or, if it has none, the one given. -/
def update (F : Funs W) (st : St W) (s : Text) (v : Option Text) : St W :=
  match st.gets (slot s) with
  | some i => { st with world := (F.compute i st.world s).1, conf := set st.conf s (F.compute i st.world s).2 }
  | none => { st with conf := set st.conf s v }

/-- What a user sees. -/
def step (F : Funs W) (st : St W) : Op → Ans × St W
  | .setGet s f => (.unit, { st with gets := fun k => if k = slot s then f else st.gets k })
  | .setSet s f => (.unit, { st with sets := fun k => if k = slot s then f else st.sets k })
  | .before b => (.unit, { st with before := b })
  | .after b => (.unit, { st with after := b })
  | .update s v => (.unit, update F st s v)
  | .put s v =>
    let st := match st.sets (slot s) with | some i => { st with world := F.told i st.world s v } | none => st
    (.unit, if st.after then update F st s v else st)
  | .get s =>
    let st := if st.before then update F st s none else st
    (.value (Conf.get st.conf s), st)
  | .exists_ s =>
    let st := if st.before then update F st s none else st
    (.bool (Conf.get st.conf s).isSome, st)

def run (F : Funs W) (st : St W) : List Op → List Ans × St W
  | [] => ([], st)
  | o :: l => let r := step F st o; let q := run F r.2 l; (r.1 :: q.1, q.2)

/-- At first nothing is there. -/
def start (w : W) : St W := ⟨empty, w, fun _ => none, fun _ => none, false, true⟩

end Spec.CallbackGen
