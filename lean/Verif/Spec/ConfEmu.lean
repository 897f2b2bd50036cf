import Verif.Spec.Conf
import Verif.Spec.ConfFile
import Verif.Spec.Num
/- A configuration of sections and entries (Spec/ConfFile) as a part of a tree of names (Spec/Conf). Independent of the model. -/
namespace Spec.ConfEmu
open Spec.Path Spec.ConfFile

/-- A name without slashes. -/
def Plain (n : Text) : Prop := n ≠ [] ∧ slash ∉ n

/-- A text that is one name, with slashes in front of it or not. -/
def One (s : Text) : Prop := (names s).length = 1 ∧ dir s = false

instance (s : Text) : Decidable (One s) := by unfold One; infer_instance

/-- The values of the entries: what is below a section. -/
def view (m : Conf.State) : Values := fun s e => if One s ∧ e ≠ [] then Conf.get m (s ++ slash :: e) else none

/-- What a user may do. -/
inductive Act where
  | set (sect entry : Text) (value : Option Text)
  | setint (sect entry : Text) (value : Int)
  | maybeset (sect entry : Text) (value : Option Text)
  | sectset (sect entry : Text) (value : Text)
  | delete (sect : Text)

/-- The values afterwards. -/
noncomputable def act (M : Values) : Act → Values
  | .set s e v => apply M (.set s e v)
  | .setint s e i => apply M (.set s e (some (Num.decimal i)))
  | .maybeset s e v => if M s e = none then apply M (.set s e v) else M
  | .sectset s e v => apply M (.set s e (some v))
  | .delete s => apply M (.delete s)

/-- The names are plain, and the integers such that an int has them, and not the smallest. -/
def Act.Plain : Act → Prop
  | .set s e _ => ConfEmu.Plain s ∧ ConfEmu.Plain e
  | .setint s e i => ConfEmu.Plain s ∧ ConfEmu.Plain e ∧ -2147483648 < i ∧ i < 2147483648
  | .maybeset s e _ => ConfEmu.Plain s ∧ ConfEmu.Plain e
  | .sectset s e _ => ConfEmu.Plain s ∧ ConfEmu.Plain e
  | .delete s => ConfEmu.Plain s

end Spec.ConfEmu
