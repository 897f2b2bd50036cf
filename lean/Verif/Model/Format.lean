import Verif.Model.Num
/-
Model of the string formatter: `pparse` and `WvFastString::do_format` (utils/wvstring.cc:450-641), the allocation behind
`setsize` (utils/wvstring.cc:25-29, 266-273, 296-301) and the formatting constructor (include/wvstring.h:188-215).

A string argument is an `Option` of its text (`none` is a null string or a missing argument). `none` as a result is
undefined behaviour or a failed assertion: a write past the end of the buffer, an argument past the twentieth, an `int`
overflow, a conversion other than 's', 'c' and '%'. Allocation does not fail.
-/
namespace Wv.Format
open Wv.Num

/-- What `pparse` reports: zeropad, justify, maxlen, argnum. -/
structure Conv where
  zeropad : Bool
  justify : Int
  maxlen : Int
  argnum : Int
  deriving Repr, DecidableEq

/-- The first loop's condition (utils/wvstring.cc:471-472). Bytes above 127 are not letters (the "C" locale). -/
def skip1 (c : Byte) : Bool := c != ch '.' && c != ch '%' && c != ch '$' && !isalpha c

/-- The second loop's condition (utils/wvstring.cc:481). -/
def skip2 (c : Byte) : Bool := c != ch '%' && c != ch '$' && !isalpha c

/-- The third loop's condition (utils/wvstring.cc:490). -/
def skip3 (c : Byte) : Bool := c != ch '%' && !isalpha c

/-- `if (*cptr == d) v = atoi(cptr+1); else v = 0;` (utils/wvstring.cc:476-479, 485-488). -/
def after (d : Byte) : List Byte → Option Int
  | [] => some 0
  | c :: r => if c == d then num r else some 0

/-- `pparse(cptr, ...)` (utils/wvstring.cc:461-494) from the byte after the '%': what it reports and where it stops.
    When the text ends early the C code leaves maxlen as it was; here it is 0, and both loops of `do_format` stop
    at the assertion. -/
def pparse (s : List Byte) : Option (Conv × List Byte) :=
  (num s).bind fun justify =>
    let p1 := s.dropWhile skip1
    (after (ch '.') p1).bind fun maxlen =>
      let p2 := p1.dropWhile skip2
      (after (ch '$') p2).bind fun argnum =>
        some (⟨s.head? == some (ch '0'), justify, maxlen, argnum⟩, p2.dropWhile skip3)

/-- What one turn of the loops of `do_format` reads from the format. -/
inductive Item where
  | lit (c : Byte)
  | str (v : Conv)
  | chr (v : Conv)
  deriving Repr, DecidableEq

/-- The reading of the format, which is the same in both loops (utils/wvstring.cc:525-549 and 577-593), with the assertion
    of the first (:544). The first argument bounds the number of turns. -/
def items : Nat → List Byte → Option (List Item)
  | _, [] => some []
  | 0, _ :: _ => none
  | n + 1, c :: s =>
    if c != ch '%' then (items n s).map (Item.lit c :: ·)
    else (pparse s).bind fun vr =>
      match vr.2 with
      | [] => none
      | d :: r =>
        if d == ch '%' then (items n r).map (Item.lit d :: ·)
        else if d == ch 's' then (items n r).map (Item.str vr.1 :: ·)
        else if d == ch 'c' then (items n r).map (Item.chr vr.1 :: ·)
        else none

/-- `argP = (argnum > 0) ? (argv + argnum - 1) : argptr`, dereferenced (utils/wvstring.cc:548, 595, 632). -/
def argAt (argv : List (Option (List Byte))) (ptr : Nat) (v : Conv) : Option (Option (List Byte)) :=
  if 0 < v.argnum then argv[(v.argnum - 1).toNat]? else argv[ptr]?

/-- `if (argnum <= 0) argptr++` (utils/wvstring.cc:557, 565, 625, 632). -/
def next (ptr : Nat) (v : Conv) : Nat := if 0 < v.argnum then ptr else ptr + 1

/-- "(nil)", what a null string prints as (utils/wvstring.cc:516). -/
def blank : List Byte := [ch '(', ch 'n', ch 'i', ch 'l', ch ')']

/-- What one turn adds to `total` for an 's' conversion (utils/wvstring.cc:553-555). -/
def ladd (v : Conv) (arg : List Byte) : Int :=
  let l := max (v.justify.natAbs : Int) arg.length
  if v.maxlen ≠ 0 ∧ v.maxlen < l then v.maxlen else l

/-- The first loop (utils/wvstring.cc:524-569): the bytes it counts. -/
def size (argv : List (Option (List Byte))) : Nat → Int → List Item → Option Int
  | _, total, [] => some total
  | ptr, total, .lit _ :: r => (store 32 (total + 1)).bind fun t => size argv ptr t r
  | ptr, total, .str v :: r => (argAt argv ptr v).bind fun a =>
      (store 32 v.justify.natAbs).bind fun _ => (store 32 (a.getD blank).length).bind fun _ =>
        (store 32 (total + ladd v (a.getD blank))).bind fun t => size argv (next ptr v) t r
  | ptr, total, .chr v :: r => (store 32 (total + 1)).bind fun t => size argv (next ptr v) t r

/-- What one turn writes for an 's' conversion (utils/wvstring.cc:600-623). -/
def put (v : Conv) (arg : List Byte) : Option (List Byte) :=
  let aplen : Int := if v.maxlen ≠ 0 ∧ v.maxlen < arg.length then v.maxlen else arg.length
  let pad := if v.zeropad then ch '0' else ch ' '
  if aplen < 0 then none
  else some ((if aplen < v.justify then List.replicate (v.justify - aplen).toNat pad else []) ++ arg.take aplen.toNat ++
    (if v.justify < 0 ∧ aplen < -v.justify then List.replicate (-v.justify - aplen).toNat pad else []))

/-- `(char)atoi(arg)`. -/
def charOf (i : Int) : Byte := UInt8.ofNat (i % 256).toNat

/-- The text a 'c' conversion reads its code from: " " for a null or empty string (utils/wvstring.cc:633-636). -/
def charArg : Option (List Byte) → List Byte
  | none => [ch ' ']
  | some [] => [ch ' ']
  | some a => a

/-- The second loop (utils/wvstring.cc:573-639): the bytes it writes. -/
def render (argv : List (Option (List Byte))) : Nat → List Item → Option (List Byte)
  | _, [] => some []
  | ptr, .lit c :: r => (render argv ptr r).map (c :: ·)
  | ptr, .str v :: r => (argAt argv ptr v).bind fun a => (put v (a.getD blank)).bind fun t =>
      (render argv (next ptr v) r).map (t ++ ·)
  | ptr, .chr v :: r => (argAt argv ptr v).bind fun a => (num (charArg a)).bind fun i =>
      (render argv (next ptr v) r).map (charOf i :: ·)

/-- WVSTRINGBUF_SIZE: a size_t and an unsigned (include/wvstring.h:67-77, 64-bit). -/
def header : Nat := 12

/-- The bytes of `data` in a buffer allocated for `n` bytes of text (`alloc`, utils/wvstring.cc:266-273). -/
def room (n : Nat) : Nat := (header + n + 1 ||| 3) - header

/-- `do_format(output, format, argv)` (utils/wvstring.cc:513-641): the text of `output`, which a NUL ends. -/
def doFormat (format : List Byte) (argv : List (Option (List Byte))) : Option (List Byte) :=
  (items format.length format).bind fun is =>
    (size argv 0 0 is).bind fun total =>
      if total < 0 then none
      else (render argv 0 is).bind fun out =>
        if out.length + 1 ≤ room total.toNat then some (out.takeWhile (· != 0)) else none

/-- The formatting constructor (include/wvstring.h:188-215): the arguments not given are null. -/
def format (fmt : List Byte) (args : List (Option (List Byte))) : Option (List Byte) :=
  doFormat fmt (args ++ List.replicate (20 - args.length) none)

end Wv.Format
