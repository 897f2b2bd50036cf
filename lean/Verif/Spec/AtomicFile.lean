import Verif.Model.Basic
/-
A file system: file names (numbers) and contents, and system calls that succeeded. What a crash leaves behind.
-/
namespace Spec.AtomicFile
open Wv

/-- File names and their contents; `none` if there is no such file. -/
abbrev FS := Nat → Option (List Byte)

/-- System calls. Calls that fail change nothing and are left out. -/
inductive Sys where
  | create (name : Nat)
  | chmod (name : Nat)
  | write (name : Nat) (b : List Byte)
  | closefd
  | rename (a b : Nat)
  | unlink (name : Nat)
  deriving DecidableEq

def set (fs : FS) (n : Nat) (v : Option (List Byte)) : FS := fun m => if m = n then v else fs m

def apply (fs : FS) : Sys → FS
  | .create n => set fs n (some [])
  | .chmod _ => fs
  | .write n b => set fs n ((fs n).map (· ++ b))
  | .closefd => fs
  | .rename a b => set (set fs b (fs a)) a none
  | .unlink n => set fs n none

/-- The files when the process is killed after so many system calls. -/
def killed (fs : FS) (t : List Sys) (k : Nat) : FS := (t.take k).foldl apply fs

/-- What the machine may do when it loses power after so many system calls: changes of names are on the disk, data that was not synchronised need not be; only a part of each write may
be there. There is no call among the above that synchronises. -/
inductive Lost : List Sys → List Sys → Prop
  | nil : Lost [] []
  | keep (s : Sys) (t t' : List Sys) : Lost t t' → Lost (s :: t) (s :: t')
  | part (n : Nat) (b : List Byte) (j : Nat) (t t' : List Sys) : Lost t t' → Lost (.write n b :: t) (.write n (b.take j) :: t')

end Spec.AtomicFile
