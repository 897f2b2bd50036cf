import Verif.Model.Key
/-!
`UniFileSystemGen` (uniconf/unifilesystemgen.cc) with `mkdirp` and `rm_rf` (streams/wvfileutils.cc) and `WvDirIter`
(utils/wvdiriter.cc), over a model of the file system.

The file system: nobody else changes it, every access is permitted, regular files are not executable, a directory is read as it was
when it was opened, there are no special files, the working directory is the root, and what is written to a file is written at once.
-/
namespace Wv.FsGen

/-- What a name in a directory stands for. -/
inductive Kind where
  | file (c : List Byte)
  | dir
  | link (to : List Byte)
deriving DecidableEq

/-- A path from the root. -/
abbrev Path := List Seg
/-- The file system; the root is not in the list. -/
abbrev FS := List (Path × Kind)

/-- What is there. -/
def kind (fs : FS) (q : Path) : Option Kind := if q = [] then some .dir else (fs.find? (·.1 = q)).map (·.2)
/-- Put something there, in place of what is there. -/
def put (fs : FS) (q : Path) (k : Kind) : FS := (q, k) :: fs.filter (·.1 ≠ q)
/-- Take away what is there. -/
def erase (fs : FS) (q : Path) : FS := fs.filter (·.1 ≠ q)
/-- The names in a directory. -/
def children (fs : FS) (q : Path) : List Seg := fs.filterMap fun e => if e.1.dropLast = q then e.1.getLast? else none

/-- The parts of a path between slashes. -/
def pieces : List Byte → List (List Byte)
  | [] => [[]]
  | c :: s =>
    if c = ch '/' then [] :: pieces s
    else match pieces s with
      | [] => [[c]]
      | p :: ps => (c :: p) :: ps

/-- The names in a path. -/
def comps (s : List Byte) : List Seg := (pieces s).filter (· ≠ [])

/-- Whether a path ends with a slash. -/
def slash (s : List Byte) : Bool := s.getLast? == some (ch '/')

/-- How the system finds a file; `again` goes on from a symbolic link. The answer is the place, where there need not be a file. -/
def walk (again : Path → List Seg → Option Path) (fs : FS) (follow : Bool) : Path → List Seg → Option Path
  | cur, [] => some cur
  | cur, x :: rest =>
    if kind fs cur ≠ some .dir then none
    else if x = str ['.'] then walk again fs follow cur rest
    else if x = str ['.', '.'] then walk again fs follow cur.dropLast rest
    else match kind fs (cur ++ [x]) with
      | some (.link t) =>
        if rest = [] ∧ follow = false then some (cur ++ [x])
        else again (if t.head? = some (ch '/') then [] else cur) (comps t ++ rest)
      | some _ => walk again fs follow (cur ++ [x]) rest
      | none => if rest = [] then some (cur ++ [x]) else none

/-- At most so many links are followed. -/
def resolve : Nat → FS → Bool → Path → List Seg → Option Path
  | 0, fs, follow => walk (fun _ _ => none) fs follow
  | n + 1, fs, follow => walk (resolve n fs follow) fs follow

/-- The place that a path names. `follow`: a link at the end is followed, as it is if there is a slash after it. -/
def place (fs : FS) (follow : Bool) (s : List Byte) : Option Path :=
  if s = [] then none else resolve 40 fs (follow || slash s) [] (comps s)

/-- What a path names. A path with a slash at the end names a directory. -/
def stat (fs : FS) (follow : Bool) (s : List Byte) : Option Kind :=
  match place fs follow s with
  | none => none
  | some q => match kind fs q with
    | some .dir => some .dir
    | k => if slash s then none else k

/-- `access(s, X_OK)` is 0. -/
def access (fs : FS) (s : List Byte) : Bool := stat fs true s == some .dir
/-- `access(s, 0)` is 0: `X_OK & W_OK` is 0, which is `F_OK`. -/
def exist (fs : FS) (s : List Byte) : Bool := (stat fs true s).isSome
/-- `mkdir`. -/
def mkdir (fs : FS) (s : List Byte) : Option FS :=
  match place fs false s with
  | none => none
  | some q => if kind fs q = none then some (put fs q .dir) else none
/-- `open(s, O_WRONLY | O_CREAT | O_TRUNC)`, and writing `v`. -/
def create (fs : FS) (s v : List Byte) : FS :=
  if slash s then fs
  else match place fs true s with
    | none => fs
    | some q => match kind fs q with
      | some .dir => fs
      | _ => put fs q (.file v)
/-- `unlink`. -/
def unlink (fs : FS) (s : List Byte) : FS :=
  if slash s then fs
  else match place fs false s with
    | none => fs
    | some q => match kind fs q with
      | none => fs
      | some .dir => fs
      | _ => erase fs q
/-- `rmdir`: the directory must be empty, and no link. -/
def rmdir (fs : FS) (s : List Byte) : FS :=
  if s = [] then fs
  else match resolve 40 fs false [] (comps s) with
    | none => fs
    | some q => if q ≠ [] ∧ kind fs q = some .dir ∧ children fs q = [] then erase fs q else fs
/-- `opendir` and `readdir` (without "." and ".."). -/
def readdir (fs : FS) (s : List Byte) : List Seg :=
  match place fs true s with
  | none => []
  | some q => if kind fs q = some .dir then children fs q else []

/-- The paths up to each slash after the first character: where the loop of `mkdirp` stops (streams/wvfileutils.cc:42-48). -/
def slashes (acc : List Byte) : List Byte → List (List Byte)
  | [] => []
  | c :: s => if c = ch '/' then acc :: slashes (acc ++ [c]) s else slashes (acc ++ [c]) s

/-- The loop of `mkdirp` (streams/wvfileutils.cc:42-48): the file system, and whether it was left early. -/
def mkdirLoop (fs : FS) : List (List Byte) → FS × Bool
  | [] => (fs, true)
  | p :: ps =>
    if access fs p then mkdirLoop fs ps
    else match mkdir fs p with
      | none => (fs, false)
      | some fs => mkdirLoop fs ps

/-- `mkdirp` (streams/wvfileutils.cc:31-53). -/
def mkdirp (fs : FS) (s : List Byte) : FS :=
  if access fs s then fs
  else
    let r := mkdirLoop fs (match s with
      | [] => []
      | c :: t => slashes [c] t)
    if r.2 then
      if exist r.1 s then r.1 else (mkdir r.1 s).getD r.1
    else r.1

/-- `WvDirIter` strips one slash (utils/wvdiriter.cc:35-38). -/
def strip (s : List Byte) : List Byte := if slash s then s.dropLast else s

/-- `rm_rf` (streams/wvfileutils.cc:56-68); `n` is more than the depth of the file system. -/
def rmRf : Nat → FS → List Byte → FS
  | 0, fs, _ => fs
  | n + 1, fs, s =>
    let fs := (readdir fs (strip s)).foldl (fun fs e =>
      let full := strip s ++ ch '/' :: e
      if stat fs false full = some .dir then rmRf n fs full else unlink fs full) fs
    unlink (rmdir fs s) s

/-- More than the depth of the file system. -/
def depth (fs : FS) : Nat := fs.foldr (fun e n => max e.1.length n) 0 + 1

/-- `key_safe` (uniconf/unifilesystemgen.cc:30-41). -/
def keySafe (k : Key) : Bool := k.all fun s => !(s == str ['.'] || s == str ['.', '.'] || s == [])

/-- `WvString("%s/%s", dir, key)`. -/
def pathOf (ds : List Byte) (k : Key) : List Byte := ds ++ ch '/' :: Key.printable k

/-- `get` (uniconf/unifilesystemgen.cc:44-73). Files have no NUL in them. -/
def get (ds : List Byte) (fs : FS) (k : Key) : Option (List Byte) :=
  if !keySafe k then none
  else match stat fs true (pathOf ds k) with
    | none => none
    | some (.file c) => some c
    | some _ => some []

/-- `set` (uniconf/unifilesystemgen.cc:76-95). -/
def set (ds : List Byte) (fs : FS) (k : Key) (v : Option (List Byte)) : FS :=
  if !keySafe k then fs
  else
    let fs := mkdirp fs (pathOf ds (Key.removelast k 1))
    match v with
    | none => rmRf (depth fs) fs (pathOf ds k)
    | some v => create fs (pathOf ds k) v

/-- What the iterator gives (uniconf/unifilesystemgen.cc:104-139): the keys and their values. -/
def iter (ds : List Byte) (fs : FS) (k : Key) : Option (List (Key × Option (List Byte))) :=
  if !keySafe k then none
  else some ((readdir fs (strip (pathOf ds k))).map fun e =>
    (Key.parse e, get ds fs (Key.parse (Key.printable k ++ ch '/' :: e))))

end Wv.FsGen
