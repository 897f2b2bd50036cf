import Verif.Spec.Conf
/- Permissions kept in a configuration, independent of the model. -/
namespace Spec.Perm
open Spec.Conf

inductive Level where
  | user
  | group
  | world
deriving DecidableEq

inductive Kind where
  | read
  | write
  | exec
deriving DecidableEq

/-- Something that may be given for a path or be inherited from the nearest path above it that has it. The last argument is the
    number of names in the path. -/
def inherited {α : Type} (given : Place → Option α) (p : Place) : Nat → Option α
  | 0 => given []
  | n + 1 => match given (p.take (n + 1)) with
    | some a => some a
    | none => inherited given p n

def text (l : List Char) : Text := l.map fun c => UInt8.ofNat c.toNat

def levelName : Level → Text
  | .user => text ['u', 's', 'e', 'r']
  | .group => text ['g', 'r', 'o', 'u', 'p']
  | .world => text ['w', 'o', 'r', 'l', 'd']

def kindName : Kind → Text
  | .read => text ['r', 'e', 'a', 'd']
  | .write => text ['w', 'r', 'i', 't', 'e']
  | .exec => text ['e', 'x', 'e', 'c']

/-- A name given in the configuration, if it is not empty. -/
def named (P : State) (attr : Text) (q : Place) : Option Text :=
  match P (q ++ [attr]) with
  | some v => if v = [] then none else some v
  | none => none

def owner (P : State) (p : Place) : Option Text := inherited (named P (text ['o', 'w', 'n', 'e', 'r'])) p p.length
def group (P : State) (p : Place) : Option Text := inherited (named P (text ['g', 'r', 'o', 'u', 'p'])) p p.length

/-- A flag like "user-read" given in the configuration. `flag` says how to read the value: yes, no, or not at all. -/
def flagged (flag : Text → Option Bool) (P : State) (l : Level) (k : Kind) (q : Place) : Option Bool :=
  (P (q ++ [levelName l ++ text ['-'] ++ kindName k])).bind flag

/-- Which of the three sets of flags counts for someone. -/
def levelOf (P : State) (user : Option Text) (groups : List Text) (p : Place) : Level :=
  if (owner P p).isSome ∧ user = owner P p then .user
  else match group P p with
    | some g => if g ∈ groups then .group else .world
    | none => .world

/-- Whether someone has one permission for a path itself: as the flag says that is given for the path or the nearest one above it
    that has one. Without any, no. -/
def has (flag : Text → Option Bool) (P : State) (user : Option Text) (groups : List Text) (p : Place) (k : Kind) : Bool :=
  (inherited (flagged flag P (levelOf P user groups p) k) p p.length).getD false

/-- Whether someone may do something with a path: they have that permission for it, and may pass through all paths above it. -/
def May (flag : Text → Option Bool) (P : State) (user : Option Text) (groups : List Text) (p : Place) (k : Kind) : Prop :=
  has flag P user groups p k = true ∧ ∀ q, q <+: p → q ≠ p → has flag P user groups q .exec = true

end Spec.Perm
