import Verif.Spec.Path
/- A configuration: a tree of names with a value at each, as a function on paths. Independent of the model. -/
namespace Spec.Conf
open Spec.Path

/-- A path, as names in lower case. -/
abbrev Place := List (List UInt8)
abbrev Text := List UInt8

/-- The value at each path; `none` for paths that do not exist. -/
abbrev State := Place → Option Text

/-- The place a text stands for. -/
def place (s : Text) : Place := (names s).map (List.map lower)

/-- Nothing is there. -/
def empty : State := fun _ => none

/-- Giving a path a value makes the paths it is below of, with empty values, if they do not exist. A path written with a slash
    at its end cannot be given a value. Removing a path removes all below it. -/
def set (m : State) (k : Text) : Option Text → State
  | some v => if dir k then m else fun q => if q = place k then some v else if q <+: place k then some ((m q).getD []) else m q
  | none => fun q => if place k <+: q then none else m q

/-- What is read at a path: nothing, if it is written with a slash at its end. -/
def get (m : State) (k : Text) : Option Text := if dir k then none else m (place k)

/-- A history of calls. -/
def run (m : State) : List (Text × Option Text) → State
  | [] => m
  | (k, v) :: r => run (set m k v) r

end Spec.Conf
