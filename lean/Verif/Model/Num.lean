import Verif.Model.Basic
/-
Model of the conversions between integers and strings: WvFastString(short) ... WvFastString(unsigned long long)
(utils/wvstring.cc:95-231), wvstring_to_num (include/wvstrutils.h:511-536), WvFastString::num (include/wvstring.h) and
is_int (include/wvstrutils.h:601-618).

A signed C type is given by its width `w`; a value of it is an `Int` with `-2^(w-1) ≤ i < 2^(w-1)`. `none` is undefined
behaviour (overflow of a signed type at least as wide as int). A type narrower than int is computed in int and converted
back, which wraps.
-/
namespace Wv.Num

/-- The values of a signed type of width `w`. -/
def inRange (w : Nat) (i : Int) : Prop := -(2 ^ (w - 1) : Nat) ≤ i ∧ i < (2 ^ (w - 1) : Nat)

instance (w : Nat) (i : Int) : Decidable (inRange w i) := inferInstanceAs (Decidable (_ ∧ _))

/-- The result of arithmetic stored in a signed type of width `w`. -/
def store (w : Nat) (x : Int) : Option Int :=
  if inRange w x then some x
  else if w < 32 then some ((x + (2 ^ (w - 1) : Nat)) % (2 ^ w : Nat) - (2 ^ (w - 1) : Nat))
  else none

/-- The loop of `wv_uitoar` (utils/wvstring.cc:109-126). -/
def uitoarLoop (i : Int) : List Byte :=
  if h : 0 < i then (ch '0' + UInt8.ofNat (i % 10).toNat) :: uitoarLoop (i / 10) else []
termination_by i.toNat
decreasing_by omega

/-- `wv_uitoar(begin, i)` (utils/wvstring.cc:97-131): the text it writes, last digit first. -/
def uitoar (i : Int) : List Byte := if i = 0 then [ch '0'] else uitoarLoop i

/-- `wv_itoar(begin, i)` (utils/wvstring.cc:135-154). -/
def itoar (w : Nat) (i : Int) : Option (List Byte) :=
  if i < 0 then (store w (-i)).map fun i => uitoar i ++ [ch '-'] else some (uitoar i)

/-- The three XORs of `wv_strrev` (utils/wvstring.cc:166-168), on positions `b` and `e`. -/
def swap (l : List Byte) (b e : Nat) : List Byte :=
  let l := l.set b (l.getD b 0 ^^^ l.getD e 0)
  let l := l.set e (l.getD e 0 ^^^ l.getD b 0)
  l.set b (l.getD b 0 ^^^ l.getD e 0)

/-- The loop of `wv_strrev` (utils/wvstring.cc:164-171); `e` is the position after `end`. -/
def strrevLoop (l : List Byte) (b e : Nat) : List Byte :=
  if b + 1 < e then strrevLoop (swap l b (e - 1)) (b + 1) (e - 1) else l
termination_by e - b

/-- `wv_strrev(begin, end)` (utils/wvstring.cc:157-172). -/
def strrev (l : List Byte) : List Byte := strrevLoop l 0 l.length

/-- WvFastString(short/int/long/long long) (utils/wvstring.cc:178-224). -/
def ofSigned (w : Nat) (i : Int) : Option (List Byte) := (itoar w i).map strrev

/-- WvFastString(unsigned short/int/long/long long) (utils/wvstring.cc:185-231). -/
def ofUnsigned (n : Nat) : List Byte := strrev (uitoar n)

/-- The loop of `wvstring_to_num<T>` for a signed T (include/wvstrutils.h:518-530), then the sign. -/
def toNumLoop (w : Nat) (first neg : Bool) (n : Int) : List Byte → Option (Bool × Int)
  | [] => if neg then (store w (-n)).map fun n => (true, n) else some (true, n)
  | c :: s =>
    if isdigit c then (store w (n * 10 + (c.toNat - 48 : Nat))).bind fun n => toNumLoop w false neg n s
    else if first && c == ch '-' then toNumLoop w false true n s
    else some (false, n)

/-- `wvstring_to_num(str, n)` for a signed type: what it returns and the value of `n` (include/wvstrutils.h:512-536). -/
def toNum (w : Nat) (s : List Byte) : Option (Bool × Int) := toNumLoop w true false 0 s

/-- The loop of `wvstring_to_num<T>` for an unsigned T of width `w`: arithmetic modulo 2^w. -/
def toNumULoop (w : Nat) (first neg : Bool) (n : Nat) : List Byte → Bool × Nat
  | [] => if neg then (true, (2 ^ w - n) % 2 ^ w) else (true, n)
  | c :: s =>
    if isdigit c then toNumULoop w false neg ((n * 10 + (c.toNat - 48)) % 2 ^ w) s
    else if first && c == ch '-' then toNumULoop w false true n s
    else (false, n)

/-- `wvstring_to_num(str, n)` for an unsigned type (include/wvstrutils.h:512-536). -/
def toNumU (w : Nat) (s : List Byte) : Bool × Nat := toNumULoop w true false 0 s

/-- The digits read by `atoi`. -/
def digits (n : Nat) : List Byte → Nat
  | [] => n
  | c :: s => if isdigit c then digits (n * 10 + (c.toNat - 48)) s else n

/-- `WvFastString::num()` (include/wvstring.h): `atoi`, modelled after the C standard (white space, a sign, digits;
    undefined when the value is not an int). -/
def num (s : List Byte) : Option Int :=
  let s := s.dropWhile isspace
  let v : Int := match s with
    | [] => 0
    | c :: r => if c == ch '-' then -(digits 0 r : Int) else if c == ch '+' then digits 0 r else digits 0 s
  if inRange 32 v then some v else none

/-- `is_int(str)` (include/wvstrutils.h:601-618). -/
def isInt (s : List Byte) : Bool :=
  let s := match s with
    | [] => []
    | c :: r => if c == ch '-' then r else c :: r
  if s = [] then false else s.all isdigit

end Wv.Num
