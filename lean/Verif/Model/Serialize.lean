import Verif.Spec.Serial
/-
`wv_serialize` and `wv_deserialize` (include/wvserialize.h, utils/wvserialize.cc) on a 64-bit little-endian host. A buffer is the
bytes in it.
-/
namespace Wv.Serialize
open Wv Spec.Serial

/-- `n`, converted to an unsigned integer of `w` bytes. -/
def trunc (w : Nat) (z : Int) : Nat := (z % 2 ^ (8 * w)).toNat

/-- The memory of an unsigned integer of `w` bytes. -/
def mem : Nat → Nat → List Byte
  | 0, _ => []
  | w + 1, n => UInt8.ofNat n :: mem w (n / 256)

/-- The unsigned integer some memory holds. -/
def load : List Byte → Nat
  | [] => 0
  | b :: r => b.toNat + 256 * load r

/-- `htons` and `ntohs`: swap the bytes. -/
def htons (n : Nat) : Nat := n % 256 * 256 + n / 256 % 256

/-- `htonl` and `ntohl`: reverse the bytes of the argument converted to 32 bits. -/
def htonl (n : Nat) : Nat := n % 256 * 256 ^ 3 + n / 256 % 256 * 256 ^ 2 + n / 256 ^ 2 % 256 * 256 + n / 256 ^ 3 % 256

/-- `htonll` and `ntohll` (include/wvserialize.h:67-83). -/
def htonll (n : Nat) : Nat := (htonl n <<< 32) ||| htonl (n >>> 32)

/-- The byte order of the network from that of the host, or back (include/wvserialize.h:98-116, 293-302): any other size is an
    assertion that fails, here nothing changes. -/
def swap (w n : Nat) : Nat :=
  if w = 8 then htonll n
  else if w = 4 then htonl n
  else if w = 2 then htons n
  else n

/-- `wv_serialize_scalar` (include/wvserialize.h:95-117): the bytes put. -/
def scalar (t : Ty) (z : Int) : List Byte := mem t.size (swap t.size (trunc t.size z))

/-- Conversion of an unsigned integer to the type. -/
def convert (t : Ty) (n : Nat) : Int :=
  match t with
  | .int w true => if n < 2 ^ (8 * w - 1) then n else (n : Int) - 2 ^ (8 * w)
  | .int _ false => n
  | .bool => if n = 0 then 0 else 1

/-- `wv_deserialize_scalar` (include/wvserialize.h:287-303): the value and what is left in the buffer. -/
def unscalar (t : Ty) (b : List Byte) : Int × List Byte :=
  if b.length < t.size then (0, b) else (convert t (swap t.size (load (b.take t.size))), b.drop t.size)

/-- `_wv_serialize` of a string, null or not (include/wvserialize.h:153-158). -/
def string (s : Option (List Byte)) : List Byte := s.getD [] ++ [0]

/-- `buf.strchr('\0')` (utils/wvbuffer.cc:46-60): one more than the number of bytes before the first NUL, 0 if there is none. -/
def strchr0 (b : List Byte) : Nat := if (0 : Byte) ∈ b then (b.takeWhile (· ≠ 0)).length + 1 else 0

/-- `_wv_deserialize<WvString>` (utils/wvserialize.cc:10-18): `len` has 32 bits. `linked`: getting no bytes from the buffer gives NULL, as
    for a `WvDynBuf`; otherwise it gives where the data starts, and what is read as a string may go on beyond the buffer: `none`.
    The string ends at the first NUL of the bytes got. -/
def unstring (linked : Bool) (b : List Byte) : Option (Option (List Byte) × List Byte) :=
  let len := strchr0 b % 2 ^ 32
  if b.length < len then some (none, b)
  else if len = 0 then (if linked then some (none, b) else none)
  else some (some ((b.take len).takeWhile (· ≠ 0)), b.drop len)

/-- `_wv_serialize` of an element. -/
def item : Item → Elem → List Byte
  | .int z, .scalar t => scalar t z
  | .text s, .string => string (some s)
  | _, _ => []

/-- `wv_deserialize` of an element. A null string counts as an empty one: list elements are copies of it. -/
def unitem (linked : Bool) : Elem → List Byte → Option (Item × List Byte)
  | .scalar t, b => let r := unscalar t b; some (.int r.1, r.2)
  | .string, b => (unstring linked b).map fun r => (.text (r.1.getD []), r.2)

/-- `size_t`. -/
def size_t : Ty := .int 8 false

/-- `_wv_serialize` of a value: of a buffer (include/wvserialize.h:171-175), of a list (include/wvserialize.h:183-193). -/
def val : Val → Kind → List Byte
  | .item x, .elem e => item x e
  | .list l, .list e => scalar size_t l.length ++ (l.map fun x => item x e).flatten
  | .buffer b, .buffer => scalar size_t b.length ++ b
  | _, _ => []

/-- The loop reading a list (include/wvserialize.h:383-387, 402-406). -/
def unitems (linked : Bool) (e : Elem) : Nat → List Byte → Option (List Item × List Byte)
  | 0, b => some ([], b)
  | n + 1, b => (unitem linked e b).bind fun r => (unitems linked e n r.2).map fun q => (r.1 :: q.1, q.2)

/-- `wv_deserialize` of a value: of a buffer (include/wvserialize.h:359-370; `merge` of more bytes than there are is an assertion that
    fails, `none`), of a list (include/wvserialize.h:374-410). -/
def unval (linked : Bool) : Kind → List Byte → Option (Val × List Byte)
  | .elem e, b => (unitem linked e b).map fun r => (.item r.1, r.2)
  | .list e, b => let n := unscalar size_t b; (unitems linked e n.1.toNat n.2).map fun r => (.list r.1, r.2)
  | .buffer, b =>
    let n := unscalar size_t b
    if n.2.length < n.1.toNat then none else some (.buffer (n.2.take n.1.toNat), n.2.drop n.1.toNat)

/-- Several values, one after the other. -/
def vals (l : List (Val × Kind)) : List Byte := (l.map fun x => val x.1 x.2).flatten

/-- Reading several values. -/
def unvals (linked : Bool) : List Kind → List Byte → Option (List Val × List Byte)
  | [], b => some ([], b)
  | k :: ks, b => (unval linked k b).bind fun r => (unvals linked ks r.2).map fun q => (r.1 :: q.1, q.2)

end Wv.Serialize
