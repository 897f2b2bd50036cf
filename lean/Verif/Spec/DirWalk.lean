import Verif.Model.Basic
/-
What C78 says, without the model: a directory tree, and everything in it in the order in which a program like `find` comes
by, with the names it goes under.
-/
namespace Spec.DirWalk
open Wv

mutual
/-- What a name in a directory stands for: nothing any more, something on the device `dev` that is no directory, or a
    directory. -/
inductive Node where
  | gone
  | file (dev : Nat)
  | dir (dev : Nat) (readable : Bool) (es : Dir)
/-- A directory, as the system lists it. -/
inductive Dir where
  | nil
  | cons (name : List Byte) (nd : Node) (rest : Dir)
end

/-- What an iterator shows of a file: the name with the path from where the program is, the name, and the name with the
    path from where the iteration starts. -/
structure Ent where
  full : List Byte
  name : List Byte
  rel : List Byte
  isDir : Bool
deriving DecidableEq, Repr

/-- "." and "..". -/
def dots (n : List Byte) : Bool := n = str ['.'] ∨ n = str ['.', '.']

mutual
/-- The file `name` in the directory `full`, and what is under it if it is a directory that `enter` says to go into. -/
def visit (enter : Nat → Bool) (full rel name : List Byte) : Node → List Ent
  | .gone => []
  | .file _ => [⟨full ++ [ch '/'] ++ name, name, rel ++ name, false⟩]
  | .dir dev readable es => ⟨full ++ [ch '/'] ++ name, name, rel ++ name, true⟩ ::
      (if readable && enter dev then visitAll enter (full ++ [ch '/'] ++ name) (rel ++ name ++ [ch '/']) es else [])
/-- Everything in a directory. -/
def visitAll (enter : Nat → Bool) (full rel : List Byte) : Dir → List Ent
  | .nil => []
  | .cons n nd rest => (if dots n then [] else visit enter full rel n nd) ++ visitAll enter full rel rest
end

/-- The device of a file. -/
def Node.dev : Node → Option Nat
  | .gone => none
  | .file d => some d
  | .dir d _ _ => some d

/-- The device of the first file that there is in a directory. -/
def Dir.firstDev : Dir → Option Nat
  | .nil => none
  | .cons n nd rest => if dots n then rest.firstDev else nd.dev.orElse fun _ => rest.firstDev

/-- The names in a directory. -/
def Dir.names : Dir → List (List Byte)
  | .nil => []
  | .cons n _ rest => n :: rest.names

mutual
/-- The directories under a name are as directories are. -/
def Node.Good : Node → Prop
  | .gone => True
  | .file _ => True
  | .dir _ _ es => es.Good
/-- No name is empty or has a slash, and no name is there twice. -/
def Dir.Good : Dir → Prop
  | .nil => True
  | .cons n nd rest => (n ≠ [] ∧ ch '/' ∉ n) ∧ n ∉ rest.names ∧ nd.Good ∧ rest.Good
end

end Spec.DirWalk
