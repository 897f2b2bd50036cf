import Verif.Model.Basic
/-!
What strings are for a program that uses a cache for them, for C116: values, and nothing else.
-/
namespace Spec.StringCache
open Wv

abbrev Text := List Byte

inductive Op where
  /-- a cache is made -/
  | make
  /-- a cache is destroyed -/
  | destroy
  /-- a new string -/
  | fresh (t : Text)
  /-- a copy of string `i` -/
  | copy (i : Nat)
  /-- string `i` is edited -/
  | edit (i : Nat) (t : Text)
  /-- string `i` is destroyed -/
  | drop (i : Nat)
  /-- `get` of a text -/
  | get (t : Text)
  /-- `get` of string `i` -/
  | getOf (i : Nat)
  | clean
deriving DecidableEq

/-- The strings of the program, and the number of caches; `none`: there is no such string or cache. -/
def step (s : List Text × Nat) : Op → Option (List Text × Nat)
  | .make => some (s.1, s.2 + 1)
  | .destroy => if s.2 = 0 then none else some (s.1, s.2 - 1)
  | .fresh t => some (s.1 ++ [t], s.2)
  | .copy i => s.1[i]?.map fun t => (s.1 ++ [t], s.2)
  | .edit i t => if i < s.1.length then some (s.1.set i t, s.2) else none
  | .drop i => if i < s.1.length then some (s.1.eraseIdx i, s.2) else none
  | .get t => if s.2 = 0 then none else some (s.1 ++ [t], s.2)
  | .getOf i => if s.2 = 0 then none else s.1[i]?.map fun t => (s.1 ++ [t], s.2)
  | .clean => if s.2 = 0 then none else some s

def run : List Op → List Text × Nat → Option (List Text × Nat)
  | [], s => some s
  | o :: os, s => (step s o).bind (run os)

end Spec.StringCache
