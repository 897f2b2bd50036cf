import Verif.Model.Basic
/- Working directories: what a process sees of the directories there are. -/
namespace Spec.PushDir
open Wv

abbrev Path := List Byte

/-- A directory: where it is, which one it is, whether it can be entered, and whether its list of files can be read. -/
structure Dir where
  path : Path
  id : Nat
  enter : Bool
  read : Bool
  deriving DecidableEq

/-- The directories, and the one the process is in. -/
structure World where
  dirs : List Dir
  cwd : Nat
  deriving DecidableEq

/-- The directory with this path. -/
def World.at (w : World) (p : Path) : Option Dir := w.dirs.find? (·.path == p)

/-- What is done between the beginning and the end of a scope. -/
inductive Op where
  /-- an object is made with this directory; it lives to the end of its scope -/
  | push (d : Path)
  /-- the end of a scope -/
  | pop
  /-- the program goes to another directory itself -/
  | chdir (d : Path)
  /-- directories are made, removed, renamed or their permissions changed, here or by others -/
  | files (dirs : List Dir)
  deriving DecidableEq

/-- Every scope that is begun is ended, and no other: `n` scopes are open. -/
def balanced : Nat → List Op → Bool
  | n, [] => n == 0
  | n, .push _ :: l => balanced (n + 1) l
  | 0, .pop :: _ => false
  | n + 1, .pop :: l => balanced n l
  | n, _ :: l => balanced n l

/-- Directories with different paths or numbers are different. -/
def World.Proper (w : World) : Prop :=
  (∀ a ∈ w.dirs, ∀ b ∈ w.dirs, (a.path = b.path ∨ a.id = b.id) → a = b) ∧ ∃ d ∈ w.dirs, d.id = w.cwd

/-- Nobody touches the directories. -/
def quiet (l : List Op) : Prop := ∀ o ∈ l, ∀ d, o ≠ .files d

/-- All directories can be used, and their names are not too long. -/
def World.Usable (w : World) : Prop := ∀ d ∈ w.dirs, d.enter = true ∧ d.read = true ∧ d.path.length < 2048

end Spec.PushDir
