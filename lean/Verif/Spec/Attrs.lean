import Verif.Model.Basic
/- What attributes are: for each name at most one value. -/
namespace Spec.Attrs
open Wv

abbrev Text := List Byte

/-- The attributes: null for names without one. -/
abbrev Map := Text → Option Text

def empty : Map := fun _ => none

/-- Setting the attribute `n`: an empty or null value removes it, an empty or null name does nothing. -/
def set (m : Map) (n v : Option Text) : Map :=
  match n.getD [] with
  | [] => m
  | c :: n => fun k => if k = c :: n then (if v.getD [] = [] then none else v) else m k

/-- What a history of calls leaves. -/
def run (h : List (Option Text × Option Text)) : Map := h.foldl (fun m x => set m x.1 x.2) empty

/-- Strings have no NUL in them. -/
def CStr (s : Option Text) : Prop := (0 : Byte) ∉ s.getD []

end Spec.Attrs
