import Verif.Model.TextUtil
import Verif.Spec.DirWalk
/-
Model of WvDirIter (utils/wvdiriter.cc, include/wvdiriter.h). The directory tree is an argument and does not change
meanwhile; an open directory is what is still to be read of it.
-/
namespace Wv.DirWalk
open Spec.DirWalk Wv.TextUtil

/-- `WvDirIter::Dir` (include/wvdiriter.h:44-54): the name, and what `readdir` has still to give. -/
structure Frame where
  name : List Byte
  rest : Dir

/-- The members of a WvDirIter (include/wvdiriter.h:34-57). `dirs` is `frames`, the innermost first; `all` is what the
    directory it starts with has; `top` is the device of `topdir`, once it was found. -/
structure Iter where
  recurse : Bool
  skip : Bool
  goUp : Bool
  top : Option Nat
  frames : List Frame
  all : Dir
  rel : List Byte
  info : Ent

/-- `dirname.edit()[dl-1] = 0` (utils/wvdiriter.cc:34-37). -/
def strip (s : List Byte) : List Byte := if s ≠ [] ∧ s.getLast? = some (ch '/') then s.dropLast else s

/-- The constructor (utils/wvdiriter.cc:19-44); `es` is what there is in the directory, `none` if it can not be opened. The
    empty name can not be opened. -/
def new (dirname : List Byte) (recurse skip : Bool) (es : Option Dir) : Iter :=
  let dirname := strip dirname
  let es := if dirname = [] then none else es
  { recurse := recurse, skip := skip, goUp := false, top := none,
    frames := match es with
      | none => []
      | some es => [⟨dirname, es⟩],
    all := es.getD .nil, rel := [], info := ⟨[], [], [], false⟩ }

/-- `rewind` (utils/wvdiriter.cc:64-80): all directories but the one it started with are closed, and that is read again. -/
def Iter.rewind (it : Iter) : Iter :=
  { it with
    frames := match it.frames.getLast? with
      | none => []
      | some f => [{ f with rest := it.all }] }

/-- `up` (include/wvdiriter.h:76-77). -/
def Iter.up (it : Iter) : Iter := { it with goUp := true }

/-- `depth` (include/wvdiriter.h:82-83). -/
def depth (it : Iter) : Nat := it.frames.length

/-- `readdir` until there is something that `lstat` finds, and is not "." or ".." (utils/wvdiriter.cc:109-133). -/
def readOk : Dir → Option (List Byte × Node × Dir)
  | .nil => none
  | .cons n nd rest =>
    if dots n then readOk rest
    else match nd with
      | .gone => readOk rest
      | nd => some (n, nd, rest)

/-- `st_dev`. -/
def dev : Node → Nat
  | .gone => 0
  | .file d => d
  | .dir d _ _ => d

/-- `S_ISDIR`. -/
def isDir : Node → Bool
  | .dir _ _ _ => true
  | _ => false

/-- Going into what was found, if it is a directory to go into (utils/wvdiriter.cc:135-147). -/
def enter (it : Iter) (top : Nat) (full n : List Byte) : Node → Iter
  | .dir d readable es =>
    if it.recurse && (!it.skip || d == top) && readable then
      { it with rel := it.rel ++ n ++ [ch '/'], frames := ⟨full, es⟩ :: it.frames }
    else it
  | _ => it

/-- The outer loop of `next` (utils/wvdiriter.cc:93-164), from where `go_up` was dealt with: the directories that are open,
    and `relpath`. -/
def step (it : Iter) : List Frame → List Byte → Bool × Iter
  | [], rel => (false, { it with frames := [], rel := rel })
  | f :: fs, rel =>
    match readOk f.rest with
    | some (n, nd, rest) =>
      let full := f.name ++ [ch '/'] ++ n
      let top := it.top.getD (dev nd)
      (true, enter { it with
        info := ⟨full, n, if rel = [] then n else rel ++ n, isDir nd⟩, top := some top,
        frames := { f with rest := rest } :: fs, rel := rel } top full n nd)
    | none =>
      match fs with
      | [] => (false, { it with frames := [{ f with rest := .nil }], rel := rel })
      | f' :: fs => step it (f' :: fs) (if fs.length = 0 then [] else getdirname rel ++ [ch '/'])

/-- `next` (utils/wvdiriter.cc:83-167). -/
def next (it : Iter) : Bool × Iter :=
  match it.frames with
  | [] => (false, it)
  | f :: fs =>
    if it.goUp then
      if fs.length ≥ 1 then step { it with goUp := false } fs it.rel
      else (false, { it with goUp := false })
    else step it (f :: fs) it.rel

/-- `for (; i.next(); )`, at most `n` times: what the iterator showed, and the iterator then. -/
def run : Nat → Iter → List Ent × Iter
  | 0, it => ([], it)
  | n + 1, it =>
    match next it with
    | (false, it) => ([], it)
    | (true, it) => let r := run n it; (it.info :: r.1, r.2)

end Wv.DirWalk
