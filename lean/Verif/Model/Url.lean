import Verif.Model.Basic
import Verif.Model.Log
import Verif.Model.Num
import Verif.Spec.Url
/-!
`WvUrl` (ipstreams/wvurl.cc): reading and printing URLs. The look-up of the host's address is left out.
-/
namespace Wv.Url
open Spec.Url (Parts)

/-- A `DefaultPort` (ipstreams/wvurl.cc:13-18). -/
structure Entry where
  proto : List Byte
  port : Int
  slashes : Bool

/-- `portmap` (ipstreams/wvurl.cc:23-34). -/
def portmap : List Entry :=
  [⟨str ['e', 'x', 'c', 'h', 'a', 'n', 'g', 'e', 'i', 't', 's'], 7070, false⟩,
   ⟨str ['e', 'x', 'c', 'h', 'a', 'n', 'g', 'e', 'i', 't'], 6969, false⟩,
   ⟨str ['h', 't', 't', 'p', 's'], 443, true⟩,
   ⟨str ['h', 't', 't', 'p'], 80, true⟩,
   ⟨str ['f', 'i', 'l', 'e'], 0, true⟩,
   ⟨str ['s', 'i', 'p'], 5060, false⟩,
   ⟨str ['l', 'd', 'a', 'p', 's'], 636, false⟩,
   ⟨str ['l', 'd', 'a', 'p'], 389, false⟩,
   ⟨str ['f', 't', 'p'], 21, true⟩]

/-- The loop of `get_default_port` and `protocol_uses_slashes` (ipstreams/wvurl.cc:40-44, 54-58): the first entry that is a
    prefix (`strncmp` over the length of the entry). -/
def lookup (t : List Byte) : Option Entry := portmap.find? fun e => e.proto.isPrefixOf t

/-- `get_default_port` (ipstreams/wvurl.cc:37-46). -/
def defaultPort (t : List Byte) : Int := match lookup t with
  | some e => e.port
  | none => -1

/-- `protocol_uses_slashes` (ipstreams/wvurl.cc:51-60). -/
def usesSlashes (t : List Byte) : Bool := match lookup t with
  | some e => e.slashes
  | none => false

/-- `strchr` and the writing of a NUL there: what is before and after the first `c`. -/
def cut (c : Byte) : List Byte → Option (List Byte × List Byte)
  | [] => none
  | x :: s => if x == c then some ([], s) else (cut c s).map fun p => (x :: p.1, p.2)

/-- One of the characters that `strcspn` stops at (ipstreams/wvurl.cc:74). -/
def stops (c : Byte) : Bool := c == ch ' ' || c == ch '\t' || c == ch '\r' || c == ch '\n'

/-- A URL that was not read: port 0 and strings that are NULL (here: empty). -/
def bad : Parts := ⟨[], [], [], [], 0, []⟩

/-- Lines 97-116: the user and the password, and what is left. -/
def userPart (w : List Byte) : List Byte × List Byte × List Byte :=
  match cut (ch '@') w with
  | none => ([], [], w)
  | some (a, b) =>
    match cut (ch ':') a with
    | some (u, p) => if p ≠ [] then (u, p, b) else (a, [], b)
    | none => (a, [], b)

/-- Lines 118-125: the host with its port, and the file. -/
def filePart (slashes : Bool) (w : List Byte) : List Byte × List Byte :=
  match cut (ch '/') w with
  | none => (w, if slashes then str ['/'] else [])
  | some (a, b) => (a, ch '/' :: b)

/-- Lines 127-136: the host and the port. `none` when `atoi` is undefined. -/
def hostPart (proto w : List Byte) : Option (List Byte × Int) :=
  match cut (ch ':') w with
  | none => some (w, defaultPort proto)
  | some (a, b) => (Num.num b).map fun n => (a, n)

/-- Lines 77-138: from the text without white space on. `none` is undefined: `atoi` of a number that is no int, or a look at
    what is behind the end of the text (line 95 steps over three characters without a look at them). -/
def readWord (w : List Byte) : Option Parts :=
  if defaultPort w < 0 then some bad else
  match cut (ch ':') w with
  | none => some bad
  | some (proto, rest) =>
    let slashes := usesSlashes proto
    if slashes && rest.length < 2 then none else
    let w := if slashes then rest.drop 2 else rest
    let u := userPart w
    let f := filePart slashes u.2.2
    (hostPart proto f.1).map fun h => ⟨proto, u.1, u.2.1, h.1, h.2, f.2⟩

/-- `WvUrl::WvUrl(WvStringParm)` (ipstreams/wvurl.cc:63-139) of a string that is not NULL; the error texts are left out. -/
def parse (url : List Byte) : Option Parts := readWord ((trimString url).takeWhile fun c => !stops c)

/-- `isok()` (include/wvurl.h:23-24), before the host is known not to exist. -/
def isok (u : Parts) : Bool := u.port ≠ 0

/-- `WvUrl::operator WvString` (ipstreams/wvurl.cc:193-224) of a URL that is ok. `none`: the port can not be printed. -/
def print (u : Parts) : Option (List Byte) :=
  let protostr := if usesSlashes u.proto then u.proto ++ str [':', '/', '/'] else u.proto ++ str [':']
  let userstr := if u.user ≠ [] then
      u.user ++ (if u.password ≠ [] then ch ':' :: u.password ++ str ['@'] else str ['@'])
    else []
  (if u.port ≠ 0 ∧ u.port ≠ defaultPort u.proto then (Num.ofSigned 32 u.port).map (ch ':' :: ·) else some []).map fun portstr =>
    protostr ++ userstr ++ u.host ++ portstr ++ u.path

end Wv.Url
