import Verif.Spec.PushDir
/-
Model of `WvPushDir` (include/wvpushdir.h).

Paths are absolute. Not modelled: relative paths and symbolic links, `opendir` that fails for other reasons than missing
permission to read, a parent directory without permission, memory that runs out.
-/
namespace Wv.PushDir
open Spec.PushDir (Path Dir World Op)

def ENOENT : Nat := 2
def EACCES : Nat := 13
def ERANGE : Nat := 34

/-- `chdir`: the error, or 0. -/
def chdir (w : World) (p : Path) : Nat × World :=
  match w.at p with
  | none => (ENOENT, w)
  | some d => if d.enter then (0, { w with cwd := d.id }) else (EACCES, w)

/-- `getcwd` with a buffer of this size: the error, or the path. -/
def getcwd (w : World) (size : Nat) : Except Nat Path :=
  match w.dirs.find? (·.id == w.cwd) with
  | none => .error ENOENT
  | some d => if d.path.length < size then .ok d.path else .error ERANGE

/-- `opendir`: whether it gives a stream. -/
def opendir (w : World) (p : Path) : Bool :=
  match w.at p with
  | none => false
  | some d => d.read

/-- The members. `oldDir` is `none` if the buffer is not initialised, `handle` is `none` if the pointer is not, and
    `some false` if it is null. `errnum` is that of `WvError`, 0 at first. -/
structure Obj where
  oldDir : Option Path
  handle : Option Bool
  errnum : Nat
  deriving DecidableEq

/-- The constructor (include/wvpushdir.h:32-42). -/
def make (w : World) (d : Path) : Obj × World :=
  match getcwd w 2048 with
  | .error e => (⟨none, none, e⟩, w)
  | .ok old =>
    let h := opendir w old
    let r := chdir w d
    (⟨some old, some h, r.1⟩, r.2)

/-- The destructor (include/wvpushdir.h:44-49). `none`: undefined, as the path or the pointer is not initialised, or the
    pointer is null. -/
def destroy (w : World) (o : Obj) : Option World :=
  match o.oldDir, o.handle with
  | some old, some true => some (chdir w old).2
  | _, _ => none

/-- The objects there are, the last one first. -/
structure St where
  world : World
  objs : List Obj
  deriving DecidableEq

/-- One thing is done. `none`: undefined, or the end of a scope that is not there. -/
def step (s : St) : Op → Option St
  | .push d => let r := make s.world d; some ⟨r.2, r.1 :: s.objs⟩
  | .pop =>
    match s.objs with
    | [] => none
    | o :: l => (destroy s.world o).map fun w => ⟨w, l⟩
  | .chdir d => some { s with world := (chdir s.world d).2 }
  | .files ds => some { s with world := { s.world with dirs := ds } }

def run : St → List Op → Option St
  | s, [] => some s
  | s, o :: l => (step s o).bind fun s => run s l

end Wv.PushDir
