import Verif.Model.Basic
/- What the options of a command line must do, independent of the model. -/
namespace Spec.Args
open Wv

abbrev Text := List Byte

/-- The variables of the program, by number. -/
structure Vars where
  bools : Nat → Bool
  ints : Nat → Int
  strs : Nat → Option Text
  lists : Nat → List Text

def upd {α : Type} (f : Nat → α) (v : Nat) (x : α) : Nat → α := fun w => if w = v then x else f w

/-- What an option does with its variable. The callbacks record that they were called and with what; they answer `ok`. -/
inductive Kind where
  | set (v : Nat)
  | reset (v : Nat)
  | flip (v : Nat)
  | call0 (v : Nat) (ok : Bool)
  | int (v : Nat)
  | long (v : Nat)
  | string (v : Nat)
  | list (v : Nat)
  | call1 (v : Nat) (ok : Text → Bool)

/-- Whether an option takes an argument. -/
def takes : Kind → Bool
  | .set _ | .reset _ | .flip _ | .call0 _ _ => false
  | _ => true

/-- The number a text says: white space, a sign, digits, and nothing else. -/
def numeral (t : Text) : Option Int :=
  let t := t.dropWhile isspace
  let (neg, ds) := match t with
    | c :: r => if c = ch '-' then (true, r) else if c = ch '+' then (false, r) else (false, t)
    | [] => (false, [])
  if ds ≠ [] ∧ ds.all isdigit then
    let n : Nat := ds.foldl (fun n c => 10 * n + (c.toNat - 48)) 0
    some (if neg then -n else n)
  else none

/-- The number if it fits `w` bits. -/
def fits (w : Nat) (t : Text) : Option Int :=
  match numeral t with
  | some v => if -2 ^ (w - 1) ≤ v ∧ v < 2 ^ (w - 1) then some v else none
  | none => none

/-- What the option does; `none` if it does not accept its argument. -/
def act (k : Kind) (t : Text) (s : Vars) : Option Vars :=
  match k with
  | .set v => some { s with bools := upd s.bools v true }
  | .reset v => some { s with bools := upd s.bools v false }
  | .flip v => some { s with bools := upd s.bools v (!s.bools v) }
  | .call0 v ok => if ok then some { s with lists := upd s.lists v (s.lists v ++ [[]]) } else none
  | .int v => (fits 32 t).map fun n => { s with ints := upd s.ints v n }
  | .long v => (fits 64 t).map fun n => { s with ints := upd s.ints v n }
  | .string v => some { s with strs := upd s.strs v (some t) }
  | .list v => some { s with lists := upd s.lists v (s.lists v ++ [t]) }
  | .call1 v ok => if ok t then some { s with lists := upd s.lists v (s.lists v ++ [t]) } else none

/-- An option as it is declared. -/
structure Decl where
  short : Option Byte
  long : Option Text
  kind : Kind

/-- A use of an option on the command line. -/
inductive Use where
  | short (c : Byte) (arg : Option Text)
  | long (name : Text) (arg : Option Text)

def Use.arg : Use → Option Text
  | .short _ a => a
  | .long _ a => a

/-- Whether the use is one of this option. -/
def Use.names (u : Use) (d : Decl) : Bool :=
  match u with
  | .short c _ => d.short = some c
  | .long n _ => d.long = some n

/-- Options with different names; the short ones are letters and digits. -/
def Distinct : List Decl → Prop
  | [] => True
  | d :: l => (∀ c, d.short = some c → isalnum c = true) ∧ (∀ e ∈ l, (d.short = none ∨ d.short ≠ e.short) ∧ (d.long = none ∨ d.long ≠ e.long)) ∧
    Distinct l

/-- The variables after the uses; `none` if one of them is not of an option, lacks its argument or has one too many, or is not accepted. -/
def uses (ds : List Decl) (s : Vars) : List Use → Option Vars
  | [] => some s
  | u :: us =>
    match ds.find? u.names with
    | none => none
    | some d =>
      if takes d.kind = u.arg.isSome then
        match act d.kind (u.arg.getD []) s with
        | some s => uses ds s us
        | none => none
      else none

/-- Other arguments as they are declared: whether one is required, and whether there may be more of them. -/
structure Arg where
  required : Bool
  multiple : Bool

/-- The number of other arguments that is right. -/
def Right (l : List Arg) (n : Nat) : Prop :=
  (l.filter (·.required)).length ≤ n ∧ (l.any (·.multiple) = true ∨ n ≤ l.length)

end Spec.Args
