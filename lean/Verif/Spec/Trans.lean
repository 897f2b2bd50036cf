import Verif.Spec.Conf
/- A transaction: a configuration, and writes that wait to be made to it. Independent of the model. -/
namespace Spec.Trans
open Spec.Conf

/-- The configuration below, and the writes that were not committed, oldest first. -/
structure St where
  base : State
  pending : List (Text × Option Text)

/-- What is seen through the transaction: the configuration as it would be if all the writes were made now. -/
def view (s : St) : State := run s.base s.pending

/-- What can happen: a write through the transaction, a commit, a refresh, a write of someone else to the configuration below. -/
inductive Ev where
  | set (k : Text) (v : Option Text)
  | commit
  | refresh
  | below (k : Text) (v : Option Text)

def step (s : St) : Ev → St
  | .set k v => { s with pending := s.pending ++ [(k, v)] }
  | .commit => ⟨view s, []⟩
  | .refresh => { s with pending := [] }
  | .below k v => { s with base := Spec.Conf.set s.base k v }

end Spec.Trans
