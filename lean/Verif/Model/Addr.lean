import Verif.Model.Num
import Verif.Model.Serialize
import Verif.Spec.Addr
/-
Internet addresses (ipstreams/wvaddr.cc, include/wvaddr.h). Not modelled: conversions to and from `struct sockaddr`, the other kinds of
addresses. The host is little-endian.
-/
namespace Wv.Addr
open Spec.Addr

abbrev Text := List Byte

/-- `strtol(s, NULL, 10)` of the C library: white space, a sign, digits; clamped to a `long` of 64 bits. -/
def strtol (s : Text) : Int :=
  let s := s.dropWhile isspace
  let v : Int := match s with
    | [] => 0
    | c :: r => if c == ch '-' then -(Num.digits 0 r : Int) else if c == ch '+' then Num.digits 0 r else Num.digits 0 s
  max (-2 ^ 63) (min (2 ^ 63 - 1) v)

/-- What follows the first `c`, if there is one (`strchr`, then one more). -/
def after (c : Byte) (s : Text) : Option Text :=
  match s.dropWhile (· ≠ c) with
  | [] => none
  | _ :: r => some r

/-- The loop of `WvIPAddr::string_init` (ipstreams/wvaddr.cc:385-392), with `n` of the 4 rounds left: the bytes it writes. -/
def components : Nat → Text → List Byte
  | 0, _ => []
  | n + 1, s => UInt8.ofNat (strtol s % 256).toNat :: match after (ch '.') s with
    | none => []
    | some r => components n r

/-- `WvIPAddr::string_init` (ipstreams/wvaddr.cc:378-393). -/
def parse (s : Text) : Addr :=
  let l := components 4 s
  ⟨l.getD 0 0, l.getD 1 0, l.getD 2 0, l.getD 3 0⟩

/-- The text of a byte: a `WvFastString` of the `int` it is promoted to; always defined. -/
def number (b : Byte) : Text := (Num.ofSigned 32 b.toNat).getD []

/-- `WvIPAddr::printable` (ipstreams/wvaddr.cc:427-431). -/
def printable (x : Addr) : Text :=
  number x.a ++ ch '.' :: number x.b ++ ch '.' :: number x.c ++ ch '.' :: number x.d

/-- `operator&` (ipstreams/wvaddr.cc:435-442). -/
def and (x y : Addr) : Addr := ⟨x.a &&& y.a, x.b &&& y.b, x.c &&& y.c, x.d &&& y.d⟩

/-- `operator|` (ipstreams/wvaddr.cc:446-453). -/
def or (x y : Addr) : Addr := ⟨x.a ||| y.a, x.b ||| y.b, x.c ||| y.c, x.d ||| y.d⟩

/-- `operator^` (ipstreams/wvaddr.cc:457-464). -/
def xor (x y : Addr) : Addr := ⟨x.a ^^^ y.a, x.b ^^^ y.b, x.c ^^^ y.c, x.d ^^^ y.d⟩

/-- `operator~` (ipstreams/wvaddr.cc:468-475). -/
def not (x : Addr) : Addr := ⟨~~~x.a, ~~~x.b, ~~~x.c, ~~~x.d⟩

/-- `addr()` (include/wvaddr.h:283-284): the memory as an integer. -/
def addr (x : Addr) : Nat := Serialize.load [x.a, x.b, x.c, x.d]

/-- An address from the memory of an integer (include/wvaddr.h:256-259). -/
def ofMem (n : Nat) : Addr :=
  let l := Serialize.mem 4 n
  ⟨l.getD 0 0, l.getD 1 0, l.getD 2 0, l.getD 3 0⟩

/-- `operator+` (ipstreams/wvaddr.cc:481-485): arithmetic modulo 2 ^ 32. -/
def add (x : Addr) (n : Int) : Addr := ofMem (Serialize.htonl (((Serialize.htonl (addr x) : Int) + n) % 2 ^ 32).toNat)

/-- `operator-` (ipstreams/wvaddr.cc:488-492). -/
def sub (x : Addr) (n : Int) : Addr := ofMem (Serialize.htonl (((Serialize.htonl (addr x) : Int) - n) % 2 ^ 32).toNat)

/-- `~(((uint32_t)1 << (32-bits)) - 1)`, or 0 (ipstreams/wvaddr.cc:575-584, 561-565): shifting by less than 0 is undefined. -/
def maskOf (bits : Int) : Option Addr :=
  if bits > 0 then
    if bits > 32 then none else some (ofMem (Serialize.htonl (~~~((1#32 <<< (32 - bits.toNat)) - 1#32)).toNat))
  else some (ofMem 0)

/-- `WvIPNet::WvIPNet(base, bits)` (ipstreams/wvaddr.cc:575-584). -/
def netOf (base : Addr) (bits : Int) : Option Net := (maskOf bits).map fun m => ⟨base, m⟩

/-- `WvIPNet::WvIPNet(string)` (include/wvaddr.h:320-323, ipstreams/wvaddr.cc:542-568): `none` is undefined, also when `atoi` is. -/
def netParse (s : Text) : Option Net :=
  match after (ch '/') s with
  | none => some ⟨parse s, parse (str ['2', '5', '5', '.', '2', '5', '5', '.', '2', '5', '5', '.', '2', '5', '5'])⟩
  | some r =>
    if ch '.' ∈ r then some ⟨parse s, parse r⟩
    else (Num.num r).bind fun bits => netOf (parse s) bits

/-- The loop of `WvIPNet::bits` (ipstreams/wvaddr.cc:637-640), at most so many rounds: it ends after 32 as then `val` is 0. -/
def bitsLoop : Nat → Nat → BitVec 32 → Nat
  | 0, n, _ => n
  | f + 1, n, val =>
    let n := n + (val >>> 31).toNat
    let val := val <<< 1
    if val &&& 0x80000000#32 ≠ 0 then bitsLoop f n val else n

/-- `WvIPNet::bits` (ipstreams/wvaddr.cc:632-643). -/
def netBits (x : Net) : Nat := bitsLoop 32 0 (BitVec.ofNat 32 (Serialize.htonl (addr x.mask)))

/-- `WvIPNet::network` (include/wvaddr.h:351-352). -/
def network (x : Net) : Addr := and x.base x.mask

/-- `WvIPNet::broadcast` (include/wvaddr.h:353-354). -/
def broadcast (x : Net) : Addr := or x.base (not x.mask)

/-- `WvIPNet::is_default` (include/wvaddr.h:376-377). -/
def isDefault (x : Net) : Bool := x.mask.a == 0

/-- `WvIPNet::is_host` (include/wvaddr.h:380-381). -/
def isHost (x : Net) : Bool := x.mask.d == 255

/-- `WvIPNet::printable` (ipstreams/wvaddr.cc:592-598). -/
def netPrintable (x : Net) : Text :=
  if netBits x < 32 then printable (network x) ++ ch '/' :: (Num.ofSigned 32 (netBits x)).getD [] else printable x.base

/-- `WvIPNet::include` (ipstreams/wvaddr.cc:619-622). -/
def «include» (x y : Net) : Net := { x with mask := and (and x.mask y.mask) (not (xor x.base y.base)) }

/-- `WvIPNet::includes` (ipstreams/wvaddr.cc:625-629). -/
def includes (x y : Net) : Bool := and y.base x.mask == network x && and y.mask x.mask == x.mask

/-- `WvIPNet::normalize` (ipstreams/wvaddr.cc:646-655): the number of bits is never above 32. -/
def normalize (x : Net) : Net :=
  if netBits x > 0 then { x with mask := (maskOf (netBits x)).getD x.mask } else { x with mask := ofMem 0 }

/-- An address and a port. -/
structure Port where
  addr : Addr
  port : Nat
  deriving DecidableEq

/-- `WvIPPortAddr::printable` (ipstreams/wvaddr.cc:736-739). -/
def portPrintable (x : Port) : Text := printable x.addr ++ ch ':' :: Num.ofUnsigned x.port

/-- `WvIPPortAddr::WvIPPortAddr(string)` (include/wvaddr.h:405-408, ipstreams/wvaddr.cc:681-713); `service` is `getservbyname`, 0 if there is
    no such service. `none` when `atoi` is undefined. -/
def portParse (service : Text → Nat) (s : Text) : Option Port :=
  if s.all isdigit then (Num.num s).map fun n => ⟨⟨0, 0, 0, 0⟩, (n % 65536).toNat⟩
  else
    match (after (ch ':') s).or ((after (ch ' ') s).or (after 9 s)) with
    | none => some ⟨parse s, 0⟩
    | some r =>
      if r = [ch '0'] then some ⟨parse s, 0⟩
      else (Num.num r).map fun n =>
        let p := (n % 65536).toNat
        ⟨parse s, if p = 0 then service r else p⟩

/-- The kinds of addresses with four bytes. -/
inductive Any where
  | ip (x : Addr)
  | net (x : Net)
  | port (x : Port)
  deriving DecidableEq

/-- The address itself. -/
def Any.raw : Any → Addr
  | .ip x => x
  | .net x => x.base
  | .port x => x.addr

/-- `comparator(a2, false)` (ipstreams/wvaddr.cc:400-424, 607-616, 757-768). -/
def compare2 : Any → Any → Bool
  | .ip x, y => x == y.raw
  | .net x, .net y => x.base == y.base && x.mask == y.mask
  | .net x, y => x.base == y.raw
  | .port x, .port y => x.addr == y.addr && x.port == y.port
  | .port x, y => x.addr == y.raw

/-- `operator==`: `comparator(a2, true)` (ipstreams/wvaddr.cc:400-424, 607-616, 757-768; include/wvaddr.h:146-147). -/
def eq : Any → Any → Bool
  | .ip x, .ip y => x == y
  | .net x, .net y => x.base == y.base && x.mask == y.mask
  | .port x, .port y => x.addr == y.addr && x.port == y.port
  | x, y => compare2 y x

/-- `WvAddr::WvHash` of four bytes (ipstreams/wvaddr.cc:145-157): the width is 32 / 4 + 1. -/
def hashRaw (x : Addr) : BitVec 32 :=
  [x.a, x.b, x.c, x.d].foldl (fun h b => (h <<< 9) ^^^ BitVec.ofNat 32 b.toNat) 0

/-- `WvHash` (ipstreams/wvaddr.cc:145-157, 601-604, 753-756). -/
def hash : Any → BitVec 32
  | .ip x => hashRaw x
  | .net x => hashRaw x.base + hashRaw x.mask
  | .port x => hashRaw x.addr + BitVec.ofNat 32 x.port

end Wv.Addr
