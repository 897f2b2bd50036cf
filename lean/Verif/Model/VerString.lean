import Verif.Model.Basic
/-
Model of the version number conversions (utils/verstring.cc). Version numbers and the intermediate unsigned ints are `Nat`
below 2^32.
-/
namespace Wv.Ver

/-- The character `sprintf("%x")` writes for a digit, and `lookup[]` (utils/verstring.cc:51,84). -/
def lookup : List Byte :=
  str ['0', '1', '2', '3', '4', '5', '6', '7', '8', '9', 'a', 'b', 'c', 'd', 'e', 'f']

def hexchar (d : Nat) : Byte := lookup.getD d 0

/-- `sprintf("%0<k>x", n)`: at least `k` digits. -/
def hexFrom (n k : Nat) (acc : List Byte) : List Byte :=
  if h : n = 0 then List.replicate k (ch '0') ++ acc
  else hexFrom (n / 16) (k - 1) (hexchar (n % 16) :: acc)
termination_by n
decreasing_by omega

/-- `%x` is `hex 1`: zero is printed as one digit. -/
def hex (k n : Nat) : List Byte := hexFrom n k []

/-- The loop of `trim_verstr` (utils/verstring.cc:163-172), on the reversed text: it stops at the first character of the
    text, at one which is not '0', and at one after a '.'. -/
def trimRev : List Byte → List Byte
  | [] => []
  | [c] => [c]
  | c :: d :: s => if c != ch '0' then c :: d :: s else if d == ch '.' then c :: d :: s else trimRev (d :: s)

/-- `trim_verstr` (utils/verstring.cc:158-174). -/
def trim (s : List Byte) : List Byte := (trimRev s.reverse).reverse

/-- `old_ver_to_string` (utils/verstring.cc:16-25). -/
def oldToString (v : Nat) : List Byte :=
  trim (hex 1 ((v &&& 0xFFFF0000) >>> 16) ++ ch '.' :: hex 4 (v &&& 0x0000FFFF))

/-- `new_ver_to_string` (utils/verstring.cc:28-37). -/
def newToString (v : Nat) : List Byte :=
  hex 1 ((v &&& 0xFF000000) >>> 24) ++ ch '.' :: (hex 2 ((v &&& 0x00FF0000) >>> 16) ++ ch '.' :: hex 4 (v &&& 0x0000FFFF))

/-- `is_new_ver` (utils/verstring.cc:142-145). -/
def isNew (v : Nat) : Bool := (v &&& 0xff000000) != 0

/-- `ver_to_string` (utils/verstring.cc:40-46). -/
def toString (v : Nat) : List Byte := if isNew v then newToString v else oldToString v

/-- `strchr(lookup, tolower(c))`, as an offset; `c` is not NUL. -/
def find (c : Byte) : Option Nat :=
  let i := lookup.idxOf (tolower c)
  if i < 16 then some i else none

/-- `(x << k) | y` of unsigned ints. -/
def shor (x k y : Nat) : Nat := (x <<< k) % 2 ^ 32 ||| y

def isSep (c : Byte) : Bool := c == ch '.' || c == ch '_'

/-- The loop over the major number (utils/verstring.cc:58-65, 91-103): the number and the text from the separator on. -/
def major (maj : Nat) : List Byte → Nat × List Byte
  | [] => (maj, [])
  | c :: s =>
    if isSep c then (maj, c :: s)
    else match find c with
      | none => major maj s
      | some d => major (shor maj 4 d) s

/-- The loop over `bits` digits (utils/verstring.cc:68-76, 106-114, 117-125); `stop` if a separator ends it. Returns the
    number, the digits still missing and the text left. -/
def digits (stop : Bool) (bits n : Nat) : List Byte → Nat × Nat × List Byte
  | [] => (n, bits, [])
  | c :: s =>
    if bits = 0 then (n, bits, c :: s)
    else if stop && isSep c then (n, bits, c :: s)
    else match find c with
      | none => digits stop bits n s
      | some d => digits stop (bits - 1) (shor n 4 d) s

/-- `string_to_old_ver` (utils/verstring.cc:49-79). -/
def oldOfString (s : List Byte) : Nat :=
  let (maj, r) := major 0 s
  let (min, bits, _) := digits false 4 0 r
  shor maj 16 (shor min (4 * bits) 0)

/-- `string_to_new_ver` (utils/verstring.cc:82-130). -/
def newOfString (s : List Byte) : Nat :=
  let (maj, r) := major 0 s
  let (min, _, r) := digits true 2 0 (r.drop 1)
  let (rev, bits, _) := digits false 4 0 r
  shor maj 24 (shor min 16 (shor rev (4 * bits) 0))

/-- `is_new_verstr` (utils/verstring.cc:148-155): two dots. -/
def isNewStr (s : List Byte) : Bool :=
  ((s.dropWhile (· != ch '.')).drop 1).contains (ch '.')

/-- `string_to_ver` (utils/verstring.cc:133-139). -/
def ofString (s : List Byte) : Nat := if isNewStr s then newOfString s else oldOfString s

end Wv.Ver
