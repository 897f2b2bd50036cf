import Verif.Spec.Conf
/- Who is told of changes in a configuration of sections and entries. Independent of the model. -/
namespace Spec.ConfNotify
open Spec.Conf Spec.Path

/-- What someone wants to know of: a section and an entry; with no section that of any, and with no entry any in the section. The
    entry is a path below the section. -/
def Covers (sect entry : Option Text) (q : Place) : Prop :=
  (sect.getD [] = [] ∨ q.head?.getD [] = (sect.getD []).map lower) ∧
  (entry.getD [] = [] ∨ write q.tail false = (entry.getD []).map lower)

/-- What is asked for: a cookie, a section and an entry. -/
structure Who where
  cookie : Nat
  sect : Option Text
  entry : Option Text
deriving DecidableEq

/-- A history of asking to be told, and not to be told any more. -/
inductive Op where
  | add (w : Who)
  | del (w : Who)

/-- Asked for, and not called off since. -/
def Live (l : List Op) (w : Who) : Prop := ∃ a b, l = a ++ .add w :: b ∧ .del w ∉ b

end Spec.ConfNotify
