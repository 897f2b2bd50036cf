import Verif.Model.Basic
/- Model of utils/wvstrutils.cc: trim_string (59-80), url_decode (311-347), url_encode (351-373). -/
namespace Wv.UrlEnc

/-- `trim_string(char *)` (utils/wvstrutils.cc:59-80). -/
def trim (s : List Byte) : List Byte := ((s.reverse.dropWhile isspace).reverse).dropWhile isspace

/-- Index of `toupper(c)` in `"0123456789ABCDEF"` (utils/wvstrutils.cc:319, 332-333); `c` is not NUL. -/
def hexIdx (c : Byte) : Option Byte :=
  let u := toupper c
  if isdigit u then some (u - 48) else if 65 ≤ u && u ≤ 70 then some (u - 65 + 10) else none

/-- The loop of url_decode (utils/wvstrutils.cc:326-342). -/
def decLoop (no_space : Bool) : List Byte → List Byte
  | [] => []
  | [c] => if c == 43 && !no_space then [32] else [c]
  | [c, d] => (if c == 43 && !no_space then 32 else c) :: decLoop no_space [d]
  | c :: d :: e :: cs =>
    if c == 43 && !no_space then 32 :: decLoop no_space (d :: e :: cs)
    else if c == 37 then
      match hexIdx d, hexIdx e with
      | some a, some b => ((a <<< 4) ||| b) :: decLoop no_space cs
      | _, _ => decLoop no_space cs
    else c :: decLoop no_space (d :: e :: cs)

/-- `url_decode(str, no_space)` (utils/wvstrutils.cc:311-347). A decoded `%00` ends the C string; here it is a zero byte
    in the list. -/
def decode (no_space : Bool) (s : List Byte) : List Byte := decLoop no_space (trim s)

/-- One upper case hex digit, as `%X` prints it. -/
def hexDigit (n : Byte) : Byte := if n < 10 then 48 + n else 55 + n

/-- The characters copied as they are (utils/wvstrutils.cc:358-360). `unsafe_` is `[]` when the argument is null or
    empty. `isalnum` of a char above 0x7F is taken to be false. -/
def safe (unsafe_ : List Byte) (c : Byte) : Bool :=
  ((!unsafe_.isEmpty && !unsafe_.contains c) ||
   (unsafe_.isEmpty && (isalnum c || (str ['_', '.', '!', '~', '*', '\'', '(', ')', '-']).contains c))) && c != 37

/-- `url_encode(str, unsafe)` (utils/wvstrutils.cc:351-373). -/
def encode (unsafe_ : List Byte) : List Byte → List Byte
  | [] => []
  | c :: cs =>
    if safe unsafe_ c then c :: encode unsafe_ cs
    else 37 :: hexDigit (c >>> 4) :: hexDigit (c &&& 15) :: encode unsafe_ cs

end Wv.UrlEnc
