import Verif.Model.Basic
/-
The rules of the kernel, as `iptables` manages them: -A appends one, -D deletes the first that is the same, or fails. Two rules are the same if they were given with the same words
around -A and -D.
-/
namespace Spec.Firewall
open Wv (Byte)

/-- A command line without the word -A or -D: what is before and after it. -/
structure Line where
  pre : List Byte
  post : List Byte
  deriving DecidableEq

def append (kernel : List Line) (l : List Line) : List Line := kernel ++ l

def delete (kernel : List Line) (l : List Line) : List Line := l.foldl List.erase kernel

end Spec.Firewall
