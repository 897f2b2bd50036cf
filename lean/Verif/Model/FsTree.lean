import Verif.Spec.FsTree
/-!
`UniAutoMountGen`, the generator `fstree` (uniconf/unifstreegen.cc), with the parts of UniMountGen (uniconf/unimountgen.cc) that it uses: looking up values. Segments of keys are compared as such; keys that end with a slash are left out. A generator for an ini file is what it
holds, as read when it was mounted, with the keys in between: the files do not change meanwhile, and nothing is committed. `readonly:fs` ignores changes; what it answers is a parameter. Notifications and log messages are left out.
-/
namespace Wv.FsTree
open Spec.FsTree (Key Value File)

/-- A generator that is mounted: `treegen` or one for a file. -/
inductive Gen where
  | tree
  | ini (c : File)
deriving DecidableEq

/-- The list of mounts, the newest first. -/
abbrev Mounts := List (Key × Gen)

/-- The directory: what `readonly:fs` answers, and the file with a name; one that is not there is as an empty one. -/
structure Dir where
  fs : Key → Option Value
  file : Key → File

/-- `get` of a mounted generator (UniTempGen::get, uniconf/unitempgen.cc:38-50). -/
def Gen.value (d : Dir) (g : Gen) (k : Key) : Option Value :=
  match g with
  | .tree => d.fs k
  | .ini c => (c.find? fun e => e.1 == k).map Prod.snd

/-- `set` of a mounted generator (UniTempGen::set, uniconf/unitempgen.cc:57-147; UniReadOnlyGen::set, include/unireadonlygen.h:27). -/
def Gen.put (g : Gen) (k : Key) (v : Value) : Gen :=
  match g with
  | .tree => .tree
  | .ini c => .ini ((k, v) :: c.filter fun e => e.1 != k)

/-- `haschildren("/")` (UniTempGen::haschildren, uniconf/unitempgen.cc:156-164); it is not asked of `treegen`. -/
def Gen.haschildren (g : Gen) : Bool :=
  match g with
  | .tree => true
  | .ini c => c.any fun e => e.1 != []

/-- `findmount` and `whichmount` (uniconf/unimountgen.cc:274-290, 361-372). -/
def findmount (l : Mounts) (k : Key) : Option (Key × Gen) := l.find? fun m => m.1.isPrefixOf k

/-- `UniMountGen::get` (uniconf/unimountgen.cc:29-43); there is always a mount, at the root. -/
def lookup (d : Dir) (l : Mounts) (k : Key) : Option Value :=
  match findmount l k with
  | none => none
  | some m => m.2.value d (k.drop m.1.length)

/-- `UniMountGen::set` (uniconf/unimountgen.cc:46-52). -/
def store (l : Mounts) (k : Key) (v : Value) : Mounts :=
  match l with
  | [] => []
  | m :: r => if m.1.isPrefixOf k then (m.1, m.2.put (k.drop m.1.length) v) :: r else m :: store r k v

/-- The loop of `makemount` (uniconf/unimountgen.cc:411-423), with the points that are to come. The rest of the function (428-433) sets what the loop has set already. -/
def makemount (d : Dir) (l : Mounts) : List Key → Mounts
  | [] => l
  | p :: ps => makemount d (if (lookup d l p).isNone then store l p [] else l) ps

/-- The keys leading to a key, with it. -/
def points (k : Key) : List Key := (List.range k.length).map fun i => k.take (i + 1)

/-- `mount` and `mountgen` (uniconf/unimountgen.cc:176-219): the value of the file itself is set if there is none (216-217). -/
def mount (d : Dir) (l : Mounts) (k : Key) : Mounts :=
  let l := makemount d l (points k)
  let c := d.file k
  (k, if (Gen.value d (.ini c) []).isNone then Gen.put (.ini c) [] [] else .ini c) :: l

/-- The constructor (uniconf/unifstreegen.cc:17-24). -/
def new : Mounts := [([], .tree)]

/-- `automount` (uniconf/unifstreegen.cc:37-63). Its loop never gets to a second turn: it returns in the first one, when it looks at the whole key. -/
def automount (d : Dir) (l : Mounts) (k : Key) : Mounts :=
  match findmount l k with
  | some (_, .ini c) => if Gen.haschildren (.ini c) then l else if l.any (fun m => m.1 == k) then l else mount d l k
  | _ => if l.any (fun m => m.1 == k) then l else mount d l k

/-- `get`: `keymap` mounts (uniconf/unifstreegen.cc:31-35, uniconf/unifiltergen.cc:76-83). -/
def get (d : Dir) (l : Mounts) (k : Key) : Option Value × Mounts :=
  let l := automount d l k
  (lookup d l k, l)

/-- Getting some keys. -/
def after (d : Dir) (l : Mounts) (ks : List Key) : Mounts := ks.foldl (fun l k => (get d l k).2) l

end Wv.FsTree
