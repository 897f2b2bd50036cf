import Verif.Spec.AtomicFile
import Verif.Model.Stream
/-
`WvAtomicFile` (streams/wvatomicfile.cc): the system calls of one use, from `open` to `close`. What is written in between is left to the stream below (`Wv.Stream`, streams/wvstream.cc): the device took the
bytes `sent`, in some pieces.

Modes, owners and the umask are not modelled.
-/
namespace Wv.AtomicFile
open Spec.AtomicFile

/-- What the operating system answers: the target is a regular file or does not exist, `mkstemp` finds this name, or fails, `fchmod` succeeds, `rename` succeeds. -/
structure Env where
  regular : Bool
  tmp : Option Nat
  chmod : Bool
  rename : Bool

/-- `open` (streams/wvatomicfile.cc:29-66): the calls, and the value of `tmp_file` afterwards. -/
def opening (e : Env) : List Sys × Option Nat :=
  if !e.regular then ([], none)
  else
    match e.tmp with
    | none => ([], none)
    | some n => (.create n :: (if e.chmod then [.chmod n] else []), some n)

/-- `close` (streams/wvatomicfile.cc:69-80): `WvFdStream::close` closes the descriptor (streams/wvfdstream.cc:117-131), then the file is renamed, or removed if that fails. -/
def closing (e : Env) (target : Nat) (tmp : Option Nat) : List Sys :=
  .closefd ::
    match tmp with
    | none => []
    | some n => if e.rename then [.rename n target] else [.unlink n]

/-- One use: `open`, the pieces that the device took, and `close`, if it was called: by the user, by the destructor, or by `seterr` (streams/wvstream.cc:453-460; `close` is virtual). When `open` fails
nothing can be written. -/
def session (e : Env) (target : Nat) (pieces : List (List Byte)) (closed : Bool) : List Sys :=
  (opening e).1 ++
    match (opening e).2 with
    | none => []
    | some n => pieces.map (.write n) ++ if closed then closing e target (some n) else []

end Wv.AtomicFile
