import Verif.Spec.Conf
import Verif.Spec.Tcl
/- Using a configuration that is somewhere else, independent of the model. -/
namespace Spec.Remote
open Spec.Conf

/-- What a client can ask for. -/
inductive Op where
  | get (k : Text)
  | set (k v : Text)
  | remove (k : Text)
  | haschildren (k : Text)
  | iterator (k : Text)
  | commit
  | refresh
  deriving DecidableEq

/-- What a client is told. `list none` is a null iterator. -/
inductive Ans where
  | value (v : Option Text)
  | flag (b : Bool)
  | list (r : Option (List (Text × Text)))
  | done
  deriving DecidableEq

/-- The operations that have an answer. -/
def asks : Op → Bool
  | .set _ _ => false
  | .remove _ => false
  | _ => true

/-- What the operations do. -/
def effect (m : State) : Op → State
  | .set k v => Spec.Conf.set m k (some v)
  | .remove k => Spec.Conf.set m k none
  | _ => m

/-- The right answers. What `refresh` says is not specified. -/
def Right (m : State) : Op → Ans → Prop
  | .get k, .value v => v = Spec.Conf.get m k
  | .haschildren k, .flag b => b = true ↔ ∃ n, m (place k ++ [n]) ≠ none
  | .iterator k, .list none => m (place k) = none
  | .iterator k, .list (some r) => m (place k) ≠ none ∧ (r.map fun x => x.1.map Spec.Path.lower).Nodup ∧
      ∀ n v, m (place k ++ [n]) = some v ↔ ∃ x ∈ r, x.1.map Spec.Path.lower = n ∧ x.2 = v
  | .commit, .done => True
  | .refresh, .flag _ => True
  | _, _ => False

/-- Something that happens to the configuration: an operation of the client, or a change by someone else. -/
inductive Event where
  | own (op : Op)
  | other (k : Text) (v : Option Text)
  deriving DecidableEq

/-- What they make of a configuration. -/
def after (m : State) : List Event → State
  | [] => m
  | .own op :: h => after (effect m op) h
  | .other k v :: h => after (Spec.Conf.set m k v) h

/-- The answers are right, in the order of the questions, if things happened in this order. -/
def Explains (m : State) : List Event → List Ans → Prop
  | [], l => l = []
  | .own op :: h, l => if asks op then ∃ a r, l = a :: r ∧ Right m op a ∧ Explains m h r else Explains (effect m op) h l
  | .other k v :: h, l => Explains (Spec.Conf.set m k v) h l

/-- The client's operations in it. -/
def own : List Event → List Op
  | [] => []
  | .own op :: h => op :: own h
  | .other _ _ :: h => own h

/-- The others' changes in it. -/
def others : List Event → List (Text × Option Text)
  | [] => []
  | .own _ :: h => others h
  | .other k v :: h => (k, v) :: others h

/-- A text without the character NUL that does not both have unmatched braces and end with a newline. -/
def Fits (t : Text) : Prop := 0 ∉ t ∧ ¬ (Spec.Tcl.balanced 0 false t = false ∧ t.getLast? = some 10)

/-- The key as it is written in a message. -/
def written (k : Text) : Text := Spec.Path.write (Spec.Path.names k) (Spec.Path.dir k)

/-- White space. -/
def white (c : UInt8) : Bool := c == 32 || (9 ≤ c && c ≤ 13)

/-- Operations that get through as they should: keys and values fit; iterators are not over a key written with a slash at its end; and
    keys to be removed do not end with white space and are not just ".". -/
def Plain : Op → Prop
  | .get k => Fits (written k)
  | .set k v => Fits (written k) ∧ Fits v
  | .remove k => Fits (written k) ∧ (∀ c, (Spec.Path.write (Spec.Path.names k) false).getLast? = some c → white c = false) ∧
      Spec.Path.names k ≠ [[46]]
  | .haschildren k => Fits (written k)
  | .iterator k => Fits (written k) ∧ Spec.Path.dir k = false
  | _ => True

/-- All that is in a configuration fits in messages. -/
def Sane (m : State) : Prop := ∀ q v, m q = some v → Fits v ∧ ∀ n ∈ q, 0 ∉ n

end Spec.Remote
