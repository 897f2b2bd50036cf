import Verif.Model.Split
import Verif.Spec.TextUtil
/-
Model of functions of utils/wvstrutils.cc and utils/wvstrutils-sock.cc. A string that is given is a list of bytes that are not NUL, without the
NUL at its end, and it is not the null string unless its type is `Option`. Characters that are given are not NUL, except in `strcount`. Undefined behaviour, or a loop that does not end, is `none` in the
results of `spacecat`, `strreplace`, `substr`, `depunctuate` and `strcount`. Numbers of characters that do not fit into an `int` are left out.
Strings that are changed in place are results here.
-/
namespace Wv.TextUtil

abbrev Text := List Byte

/-- `terminate_string` (utils/wvstrutils.cc:32-56). -/
def terminate (s : Text) (c : Byte) : Text := (s.reverse.dropWhile fun x => x == 13 || x == 10).reverse ++ [c]

/-- `trim_string(string, c)` (utils/wvstrutils.cc:82-100): the rest is overwritten with NULs. -/
def trimAt (c : Byte) : Text → Text
  | [] => []
  | x :: r => if x != c then x :: trimAt c r else []

/-- `while (a[alen-1] == sep) --alen` (utils/wvstrutils.cc:122-123), on the reversed string. -/
def eatBack (sep : Byte) : Text → Option Text
  | [] => none
  | x :: r => if x == sep then eatBack sep r else some (x :: r)

/-- `spacecat` (utils/wvstrutils.cc:114-150). -/
def spacecat (a b : Text) (sep : Byte) (onesep : Bool) : Option Text :=
  (if onesep && !a.isEmpty then (eatBack sep a.reverse).map List.reverse else some a).bind fun a =>
    some (a ++ [sep] ++ (if onesep then b.dropWhile (· == sep) else b))

/-- `non_breaking` (utils/wvstrutils.cc:154-173). -/
def nonBreaking : Text → Text
  | [] => []
  | c :: r => (if isspace c then str ['&', 'n', 'b', 's', 'p', ';'] else [c]) ++ nonBreaking r

/-- `replace_char` (utils/wvstrutils.cc:178-184) of a buffer, which may have NULs in it. -/
def replaceChar (c1 c2 : Byte) : Nat → Text → Text
  | n + 1, x :: r => (if x == c1 then c2 else x) :: replaceChar c1 c2 n r
  | _, buf => buf

/-- `strstr`: where `a` begins in the string for the first time. -/
def strstr (a : Text) : Text → Option Nat
  | [] => if a.isEmpty then some 0 else none
  | c :: r => if a.isPrefixOf (c :: r) then some 0 else (strstr a r).map (· + 1)

/-- `snip_string` (utils/wvstrutils.cc:187-198). -/
def snip (haystack needle : Text) : Text :=
  match strstr needle haystack with
  | some 0 => haystack.drop needle.length
  | _ => haystack

/-- `strlwr` (utils/wvstrutils.cc:201-211). -/
def strlwr : Text → Text
  | [] => []
  | c :: r => tolower c :: strlwr r

/-- `strupr` (utils/wvstrutils.cc:214-224). -/
def strupr : Text → Text
  | [] => []
  | c :: r => toupper c :: strupr r

/-- `is_word` (utils/wvstrutils.cc:228-239). -/
def isWord : Text → Bool
  | [] => true
  | c :: r => if !isalnum c then false else isWord r

/-- `sprintf(cptr, "%02X", c)`. -/
def x02 (b : Byte) : Text :=
  let digit := fun d => if d < 10 then UInt8.ofNat (48 + d) else UInt8.ofNat (55 + d)
  [digit (b.toNat / 16), digit (b.toNat % 16)]

/-- `sprintf(cptr, "%03X", n)`. -/
def x03 (n : Nat) : Text :=
  let d := (Nat.toDigits 16 n).map fun c => toupper (ch c)
  List.replicate (3 - d.length) (ch '0') ++ d

/-- The hexadecimal values of a line (utils/wvstrutils.cc:260-265), from `count2` on. -/
def hexLoop : Nat → Text → Text
  | _, [] => []
  | k, b :: r => (if k != 0 && k % 4 == 0 then [32] else []) ++ x02 b ++ hexLoop (k + 1) r

/-- The separation (utils/wvstrutils.cc:268-280), for `n` values of `count2`. -/
def sepLoop : Nat → Nat → Text
  | _, 0 => []
  | k, n + 1 => (if k != 0 && k % 4 == 0 then [32, 32, 32] else [32, 32]) ++ sepLoop (k + 1) n

/-- The characters of a line (utils/wvstrutils.cc:287-293). -/
def charLoop : Nat → Text → Text
  | _, [] => []
  | k, b :: r => (if k % 4 == 0 then [32] else []) ++ [if isprint b then b else ch '.'] ++ charLoop (k + 1) r

/-- The loop of `hexdump_buffer` (utils/wvstrutils.cc:254-297); `n` is at least the number of lines left, `count` where the rest begins. -/
def dumpLoop (charRep : Bool) : Nat → Nat → Text → Text
  | 0, _, _ => []
  | n + 1, count, buf =>
    if buf.isEmpty then []
    else
      let top := min buf.length 16
      let row := buf.take top
      str ['['] ++ x03 (count % 2 ^ 32) ++ str [']', ' '] ++ hexLoop 0 row ++ sepLoop top (16 - top) ++ [32] ++
        (if charRep then charLoop 0 row else []) ++ [10] ++ dumpLoop charRep n (count + 16) (buf.drop 16)

/-- `hexdump_buffer` (utils/wvstrutils.cc:245-300). -/
def hexdump (buf : Text) (charRep : Bool) : Text := dumpLoop charRep buf.length 0 buf

/-- The bytes that there are for the result of `hexdump_buffer` and the NUL after it (utils/wvstrutils.cc:251, utils/wvstring.cc:266-273). -/
def hexdumpRoom (len : Nat) : Nat := len / 16 * 80 + 80 + 1

/-- `backslash_escape` (utils/wvstrutils.cc:410-430). -/
def backslashEscape : Text → Text
  | [] => []
  | c :: r => (if !isalnum c then [ch '\\'] else []) ++ [c] ++ backslashEscape r

/-- `strcount` (utils/wvstrutils.cc:433-441). When the NUL is looked for, the search goes on after the end of the string. -/
def strcount (s : Text) (c : Byte) : Option Nat :=
  if c = 0 then none
  else some (s.foldl (fun n x => if x == c then n + 1 else n) 0)

/-- `strrchr(s, '/')`: what is before and after it. -/
def lastSlash : Text → Option (Text × Text)
  | [] => none
  | c :: r =>
    match lastSlash r with
    | some (p, q) => some (c :: p, q)
    | none => if c == ch '/' then some ([], r) else none

/-- `getfilename` (utils/wvstrutils.cc:444-459); each call is for a shorter string. -/
def getfilenameLoop : Nat → Text → Text
  | 0, s => s
  | n + 1, s =>
    if s.isEmpty then s
    else match lastSlash s with
      | none => s
      | some (p, []) => getfilenameLoop n p
      | some (_, q) => q

def getfilename (s : Text) : Text := getfilenameLoop (s.length + 1) s

/-- `getdirname` (utils/wvstrutils.cc:462-480). -/
def getdirnameLoop : Nat → Text → Text
  | 0, s => s
  | n + 1, s =>
    if s.isEmpty then s
    else match lastSlash s with
      | none => str ['.']
      | some (p, []) => getdirnameLoop n p
      | some (p, _) => if p.isEmpty then str ['/'] else p

def getdirname (s : Text) : Text := getdirnameLoop (s.length + 1) s

/-- The loop of `strreplace` (utils/wvstrutils.cc:742-749): `none` if it has not ended after `n` rounds. -/
def replaceLoop (a b : Text) : Nat → Text → Text → Option Text
  | 0, _, _ => none
  | n + 1, s, buf =>
    match strstr a s with
    | some k => replaceLoop a b n (s.drop (k + a.length)) (buf ++ s.take k ++ b)
    | none => some (buf ++ s)

/-- `strreplace` (utils/wvstrutils.cc:737-752), if it ends within `n` rounds. -/
def strreplace (n : Nat) (s a b : Text) : Option Text := replaceLoop a b n s []

/-- The loop of `undupe` (utils/wvstrutils.cc:760-772). -/
def undupeLoop (c : Byte) : Bool → Text → Text
  | _, [] => []
  | last, x :: r =>
    if x != c then x :: undupeLoop c false r
    else if !last then c :: undupeLoop c true r
    else undupeLoop c last r

/-- `undupe` (utils/wvstrutils.cc:754-775). -/
def undupe (s : Text) (c : Byte) : Text := undupeLoop c false s

/-- `lookup` (utils/wvstrutils.cc:790-807). -/
def lookupLoop (s : Text) (caseSensitive : Bool) : Nat → List Text → Int
  | _, [] => -1
  | i, t :: table =>
    if (if caseSensitive then s == t else s.map tolower == t.map tolower) then i else lookupLoop s caseSensitive (i + 1) table

def lookup (s : Text) (table : List Text) (caseSensitive : Bool) : Int := lookupLoop s caseSensitive 0 table

/-- `afterstr` (utils/wvstrutils.cc:870-883); `none` is the null string. -/
def afterstr (line a : Option Text) : Option Text :=
  match line, a with
  | some line, some a =>
    if line.isEmpty || a.isEmpty then none
    else match strstr a line with
      | none => some []
      | some k => some (line.drop (k + a.length))
  | _, _ => none

/-- `beforestr` (utils/wvstrutils.cc:886-900). -/
def beforestr (line a : Option Text) : Option Text :=
  match line, a with
  | some line, some a =>
    if line.isEmpty || a.isEmpty then none
    else match strstr a line with
      | none => some line
      | some k => some (line.take k)
  | _, _ => none

/-- `substr` (utils/wvstrutils.cc:903-916): `pos` and `len` have 32 bits, `line.len()-1` has 64 and is not negative. -/
def substr (line : Text) (pos len : Nat) : Option Text :=
  if pos > (line.length + (2 ^ 64 - 1)) % 2 ^ 64 then some []
  else if pos > line.length then none
  else
    let ret := line.drop pos
    if (pos + len) % 2 ^ 32 < line.length then (if len ≤ ret.length then some (ret.take len) else none)
    else some ret

/-- `depunctuate` (utils/wvstrutils.cc:1211-1220): with an empty string, the byte before it is read. -/
def depunctuate (line : Text) : Option Text :=
  match line.getLast? with
  | none => none
  | some c => some (if c == ch '.' || c == ch '?' || c == ch '!' then line.dropLast else line)

/-- `encode_hostname_as_DN` (utils/wvstrutils-sock.cc:8-21). -/
def encodeDN (hostname : Text) : Text :=
  (Split.split [ch '.'] 0 hostname).foldl (fun dn x => dn ++ (str ['d', 'c', '='] ++ x ++ str [','])) [] ++ (str ['c', 'n', '='] ++ hostname)

/-- The loop of `nice_hostname` (utils/wvstrutils-sock.cc:39-56). -/
def niceLoop : Bool → Text → Text
  | _, [] => []
  | last, c :: r =>
    if !(c < 128) then niceLoop last r
    else if c == ch '-' || c == ch '_' then (if last then niceLoop last r else ch '-' :: niceLoop true r)
    else if isalnum c || c == ch '.' then c :: niceLoop false r
    else niceLoop last r

/-- A character at the end (utils/wvstrutils-sock.cc:58-59). -/
def niceEnd (out : Text) : Text :=
  match out.getLast? with
  | some c => if !isalnum c then out ++ [ch 'x'] else out
  | none => out

/-- `nice_hostname` (utils/wvstrutils-sock.cc:24-67). -/
def niceHostname (name : Text) : Text :=
  let first := name.headD 0
  let out := (if !(first < 128) || !isalnum first then [ch 'x'] else []) ++ niceLoop false name
  let out := niceEnd out
  if out.isEmpty then str ['U', 'N', 'K', 'N', 'O', 'W', 'N'] else out

end Wv.TextUtil
