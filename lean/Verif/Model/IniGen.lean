import Verif.Model.TempGen
import Verif.Model.Tcl
import Verif.Model.Log
/-
Model of the file format of UniIniGen (uniconf/uniinigen.cc): `save` and what `refresh` reads.

Simplifications: the file is a list of bytes, opened, read and written without errors; the tests of whether it has changed
(59-85) and what is done with the tree that was read (192-208: notifications) are left out, as is `save_cb`.
-/
namespace Wv.IniGen
open Wv.Tcl Wv.TempGen

/-- The loop of `absolutely_needs_escape` and what follows it (uniconf/uniinigen.cc:366-392). -/
def needsLoop (sepchars : List Byte) : Int → Bool → Bool → List Byte → Bool
  | numbraces, inescape, inspace, [] => if inescape || inspace then true else numbraces != 0
  | numbraces, inescape, _, c :: cs =>
    if inescape then (if numbraces < 0 then false else needsLoop sepchars numbraces false (isspace c) cs)
    else if numbraces == 0 && sepchars.contains c then true
    else if c == 92 then (if numbraces < 0 then false else needsLoop sepchars numbraces true (isspace c) cs)
    else if c == 123 then
      (if numbraces + 1 < 0 then false else needsLoop sepchars (numbraces + 1) false (isspace c) cs)
    else if c == 125 then
      (if numbraces - 1 < 0 then false else needsLoop sepchars (numbraces - 1) false (isspace c) cs)
    else if numbraces < 0 then false else needsLoop sepchars numbraces false (isspace c) cs

/-- `absolutely_needs_escape` (uniconf/uniinigen.cc:357-393). -/
def needs (s sepchars : List Byte) : Bool :=
  match s.head? with
  | some c => if isspace c then true else needsLoop sepchars 0 false false s
  | none => needsLoop sepchars 0 false false s

/-- `"\r\n[]"` (uniconf/uniinigen.cc:399, 401). -/
def sectNasties : Mask := [13, 10, 91, 93]
/-- `"\r\n[]=#\""` (uniconf/uniinigen.cc:422). -/
def keySep : Mask := [13, 10, 91, 93, 61, 35, 34]
/-- `"\r\n\t []=#"` (uniconf/uniinigen.cc:420). -/
def keyNasties : Mask := [13, 10, 9, 32, 91, 93, 61, 35]
/-- `"\r\n"` (uniconf/uniinigen.cc:431). -/
def valueSep : Mask := [13, 10]

/-- `printsection` (uniconf/uniinigen.cc:396-413). -/
def printsection (key : Key) : List Byte :=
  let k := Key.printable key
  let s := if needs k sectNasties then escape sectNasties k else k
  [10, 91] ++ s ++ [93, 10]

/-- `printkey` (uniconf/uniinigen.cc:416-447). -/
def printkey (key : Key) (value : Value) : List Byte :=
  let k := Key.printable key
  let key := if needs k keySep then escape keyNasties k else if k = [] then [47] else k
  let value := if needs value valueSep then escape spaces value else value
  key ++ [32, 61, 32] ++ value ++ [10]

mutual
/-- The recursive call of `save_sect` for a node (uniconf/uniinigen.cc:478-480). -/
def saveBelow (toplevel : Key) (path : List Key) (printed : Bool) : Tree → List Byte × Bool
  | .node _ _ c => saveSect toplevel true path printed c
/-- `save_sect` (uniconf/uniinigen.cc:450-482) for the children of the node at `path` below `toplevel`: what is printed, and
    `printedsection`. -/
def saveSect (toplevel : Key) (recursive : Bool) (path : List Key) (printed : Bool) : List Tree → List Byte × Bool
  | [] => ([], printed)
  | .node k v c :: r =>
    let a : List Byte × Bool :=
      if v ≠ [] then ((if printed then [] else printsection toplevel) ++ printkey (fullkey (path ++ [k])) v, true)
      else ([], printed)
    let b := if recursive then saveBelow toplevel (path ++ [k]) a.2 (.node k v c) else ([], a.2)
    let d := saveSect toplevel recursive path b.2 r
    (a.1 ++ b.1 ++ d.1, d.2)
end

/-- `save` (uniconf/uniinigen.cc:485-512) of the root. -/
def save : Option Tree → List Byte
  | none => []
  | some (.node k v c) =>
    (if v ≠ [] then printkey k v else []) ++ (saveSect [] false [] false c).1 ++
      (c.flatMap fun t => (saveSect (fullkey [t.key]) true [] false t.children).1)

/-- What `refresh` has read: `section`, and the calls of `newgen->set`. -/
structure Read where
  sect : Key := []
  sets : List (Key × Value) := []
  deriving DecidableEq

/-- The end of the string as `trim_string` leaves it (utils/wvstrutils.cc:66-71). -/
def trimEnd (s : List Byte) : List Byte := (s.reverse.dropWhile isspace).reverse

/-- What is done with a word (uniconf/uniinigen.cc:117-169). `none`: undefined behaviour in `wvtcl_unescape`, or the assertion
    fails. -/
def readWord (st : Read) (word : List Byte) : Option Read :=
  let str := trimString word
  if str = [] then some st
  else if str.head? = some 35 then some st
  else if str.head? = some 91 ∧ str.getLast? = some 93 then
    (unescape (trimString (str.dropLast.drop 1))).map fun name => { st with sect := Key.parse name }
  else
    match getword [61] false (trimEnd word) with
    | none => some st
    | some (name, rest) =>
      if rest = [] then some st
      else
        (unescape (trimString name)).bind fun name =>
          if name = [] then some st
          else if rest.head? ≠ some 61 then none
          else
            (unescape (trimString (rest.drop 1))).map fun value =>
              { st with sets := st.sets ++ [(Key.prepend (Key.parse name) st.sect, value)] }

/-- The loop over the words in the buffer (uniconf/uniinigen.cc:115-169): what was read, and what is left in the buffer. At most `n`
    words; there are not more than characters. -/
def readWords : Nat → Read → List Byte → Option (Read × List Byte)
  | 0, st, buf => some (st, buf)
  | n + 1, st, buf =>
    match getword newlines false buf with
    | none => some (st, buf)
    | some (word, rest) => (readWord st word).bind fun st => readWords n st rest

/-- The lines of a file, as `blocking_getline` gives them (streams/wvstream.cc:604-690); `acc` is the start of the first. -/
def linesFrom (acc : List Byte) : List Byte → List (List Byte)
  | [] => if acc = [] then [] else [acc]
  | c :: cs => if c = 10 then acc :: linesFrom [] cs else linesFrom (acc ++ [c]) cs

/-- One line (uniconf/uniinigen.cc:103-169). -/
def readLine (s : Read × List Byte) (line : List Byte) : Option (Read × List Byte) :=
  let buf := s.2 ++ (line.takeWhile (· != 0) ++ [10])
  readWords (buf.length + 1) s.1 buf

/-- At the end of the file: a line is removed from the buffer, and the rest read again (uniconf/uniinigen.cc:171-181). At most `n`
    lines. -/
def readEnd : Nat → Read × List Byte → Option Read
  | 0, s => some s.1
  | n + 1, s =>
    if s.2 = [] then some s.1
    else
      let buf := (s.2.dropWhile (· != 10)).drop 1
      (readWords (buf.length + 1) s.1 buf).bind (readEnd n)

/-- All calls of `newgen->set` for a file (uniconf/uniinigen.cc:96-182). -/
def read (file : List Byte) : Option (List (Key × Value)) :=
  ((linesFrom [] file).foldlM readLine (({} : Read), ([] : List Byte))).bind fun s =>
    (readEnd (s.2.length + 1) s).map Read.sets

/-- The calls on the new generator, the first of which makes the root (uniconf/uniinigen.cc:97-98, 158). The order of the children
    in the hash tables may be anything after each call. -/
def apply (ord : Nat → List Tree → List Tree) : Nat → Gen → List (Key × Value) → Gen
  | _, g, [] => g
  | n, g, (k, v) :: r => apply ord (n + 1) (TempGen.set (ord n) g k (some v)).1 r

/-- `refresh` (uniconf/uniinigen.cc:55-209): the new content. -/
def load (ord : Nat → List Tree → List Tree) (file : List Byte) : Option Gen :=
  (read file).map fun sets => apply ord 0 TempGen.new (([], []) :: sets)

/-- `UniIniGen::set` (uniconf/uniinigen.cc:39-47): the root is made again if it was removed. -/
def set (ord ord' : List Tree → List Tree) (g : Gen) (key : Key) (value : Option Value) : Gen × List Delta :=
  let r := TempGen.set ord g key value
  if value = none ∧ Key.isempty key = true then
    let q := TempGen.set ord' r.1 [] (some [])
    (q.1, r.2 ++ q.2)
  else r

end Wv.IniGen
