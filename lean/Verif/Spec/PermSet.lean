import Verif.Spec.Perm
/- Unix-style permissions given to paths by calls, independent of the model. -/
namespace Spec.PermSet
open Spec.Conf Spec.Perm

/-- What has been given: to some paths an owner, a group, and a yes or no for each of the nine flags. -/
structure Given where
  owner : Place → Option Text
  group : Place → Option Text
  flag : Place → Level → Kind → Option Bool

/-- Nothing yet. -/
def nothing : Given := { owner := fun _ => none, group := fun _ => none, flag := fun _ _ _ => none }

/-- A call. `mode` is like in chmod(1): `chmod` has the three octal digits apart, `chmodMode` in one number. -/
inductive Call where
  | setowner (path : Text) (name : Text)
  | setgroup (path : Text) (name : Text)
  | setperm (path : Text) (l : Level) (k : Kind) (yes : Bool)
  | chmod (path : Text) (user group world : Nat)
  | chmodMode (path : Text) (mode : Nat)
  | clearowner (path : Text)
  | cleargroup (path : Text)

/-- An empty name is none. -/
def name? (v : Text) : Option Text := if v = [] then none else some v

/-- Which bit of an octal digit is for which permission: 4 is to read, 2 to write, 1 to pass through. -/
def bit : Kind → Nat
  | .read => 2
  | .write => 1
  | .exec => 0

/-- Which octal digit of a mode is for whom. -/
def digit : Level → Nat
  | .user => 2
  | .group => 1
  | .world => 0

def pick (user group world : Nat) : Level → Nat
  | .user => user
  | .group => group
  | .world => world

/-- Nothing is left of what was given to a path and to those below it. -/
def forget (G : Given) (p : Place) : Given where
  owner := fun q => if p <+: q then none else G.owner q
  group := fun q => if p <+: q then none else G.group q
  flag := fun q l k => if p <+: q then none else G.flag q l k

/-- What a call changes, and nothing else. Taking away an owner or group also takes away all that was given to a path of the
    name under which it is kept, and to those below. -/
def step (G : Given) : Call → Given
  | .setowner path v => { G with owner := fun q => if q = place path then name? v else G.owner q }
  | .setgroup path v => { G with group := fun q => if q = place path then name? v else G.group q }
  | .setperm path l k b => { G with flag := fun q l' k' => if q = place path ∧ l' = l ∧ k' = k then some b else G.flag q l' k' }
  | .chmod path u g w => { G with flag := fun q l k => if q = place path then some ((pick u g w l).testBit (bit k)) else G.flag q l k }
  | .chmodMode path mode =>
    { G with flag := fun q l k => if q = place path then some (mode.testBit (3 * digit l + bit k)) else G.flag q l k }
  | .clearowner path =>
    let F := forget G (place path ++ [text ['o', 'w', 'n', 'e', 'r']])
    { F with owner := fun q => if q = place path then none else F.owner q }
  | .cleargroup path =>
    let F := forget G (place path ++ [text ['g', 'r', 'o', 'u', 'p']])
    { F with group := fun q => if q = place path then none else F.group q }

/-- Which flags count for someone: those of the user if they are the owner, else those of the group if they are in it, else those
    of the world. Owner and group are those of the nearest path, at or above this one, that has one. -/
def levelOf (G : Given) (user : Option Text) (groups : List Text) (p : Place) : Level :=
  if ∃ o, inherited G.owner p p.length = some o ∧ user = some o then .user
  else if ∃ g ∈ groups, inherited G.group p p.length = some g then .group
  else .world

/-- Whether someone has a permission: as the nearest path, at or above this one, says that has the flag, else no. -/
def has (G : Given) (user : Option Text) (groups : List Text) (p : Place) (k : Kind) : Bool :=
  (inherited (fun q => G.flag q (levelOf G user groups p) k) p p.length).getD false

/-- Whether someone may do something with a path: they have that permission for it, and may pass through all above it. -/
def May (G : Given) (user : Option Text) (groups : List Text) (p : Place) (k : Kind) : Prop :=
  has G user groups p k = true ∧ ∀ q, q <+: p → q ≠ p → has G user groups q .exec = true

end Spec.PermSet
