import Verif.Model.DirWalk
import Verif.Model.Glob
import Verif.Spec.Ere
/-!
`WvGlobDirIter` (utils/wvglobdiriter.cc, include/wvglobdiriter.h), over the iterator of Model/DirWalk. The expression of a `WvGlob` is what regcomp of the C
library makes of it (Spec/Ere, as in C64); `found` is regexec.
-/
namespace Wv.GlobDir
open Wv

/-- The iterator it is made of, and `glob` (include/wvglobdiriter.h:20-24). -/
structure It where
  dir : DirWalk.Iter
  glob : Option Spec.Ere.RE

/-- The expression of a pattern, if there is one and `isok` (utils/wvglobdiriter.cc:17-25, utils/wvglob.cc:18-30). -/
def compile (pattern : Option (List Byte)) : Option Spec.Ere.RE :=
  match pattern with
  | none => none
  | some p => match Glob.toRegex p with
    | none => none
    | some r => Spec.Ere.parse r

/-- The constructor (utils/wvglobdiriter.cc:13-26). -/
def new (dirname : List Byte) (pattern : Option (List Byte)) (recurse skip : Bool) (es : Option Spec.DirWalk.Dir) : It :=
  ⟨DirWalk.new dirname recurse skip es, compile pattern⟩

/-- `rewind` is that of `WvDirIter`. -/
def It.rewind (it : It) : It := { it with dir := it.dir.rewind }

/-- `next` (utils/wvglobdiriter.cc:33-43), for at most `fuel` turns; `none` if they are not enough. -/
def next (found : Spec.Ere.RE → List Byte → Bool) : Nat → It → Option (Bool × It)
  | 0, _ => none
  | fuel + 1, it =>
    let r := DirWalk.next it.dir
    let it := { it with dir := r.2 }
    if r.1 && (match it.glob with | none => false | some re => !found re it.dir.info.rel) then next found fuel it
    else some (r.1, it)

/-- `for (; i.next(); )`, at most `n` times: what the iterator showed. -/
def run (found : Spec.Ere.RE → List Byte → Bool) (fuel : Nat) : Nat → It → Option (List Spec.DirWalk.Ent)
  | 0, _ => some []
  | n + 1, it =>
    match next found fuel it with
    | none => none
    | some (false, _) => some []
    | some (true, it) => (run found fuel n it).map (it.dir.info :: ·)

end Wv.GlobDir
