import Verif.Spec.BusArgs
import Verif.Model.Num
import Verif.Model.Split
/-
Model of the arguments of WvDBusMsg: dbus/wvdbusmsg.cc. Of libdbus only this is assumed: what is appended within the open containers is what
is read, in that order. Element types are left out, as is libdbus's own checking of them and of UTF-8. The text of a double is a parameter.
-/
namespace Wv.BusArgs
open Wv
open Spec.BusArgs (Arg Op)

/-! ### Reading -/

/-- WvDBusMsg::Iter (include/wvdbusmsg.h:176-181): the arguments from `first` on, those from `it` on. -/
structure Iter where
  first : List Arg
  it : List Arg
  rewound : Bool

/-- The constructors, `open` and `rewind` (dbus/wvdbusmsg.cc:34-68, 88-93). -/
def Iter.new (l : List Arg) : Iter := ⟨l, l, true⟩
def Iter.rewind (i : Iter) : Iter := { i with rewound := true }

/-- `next` (dbus/wvdbusmsg.cc:71-79); libdbus goes to the next argument if there is one. -/
def Iter.next (i : Iter) : Iter × Bool :=
  let it := if i.rewound then i.first else if i.it ≠ [] then i.it.tail else i.it
  (⟨i.first, it, false⟩, it ≠ [])

/-- `cur` (dbus/wvdbusmsg.cc:96-99). -/
def Iter.cur (i : Iter) : Bool := !i.rewound && i.it ≠ []

/-- `get_int` (dbus/wvdbusmsg.cc:160-204): the bits are read as signed whatever the type is. `none`: `num` is undefined. -/
def getInt : Arg → Option Int
  | .byte c => some c.toNat
  | .bool b => some (if b then 1 else 0)
  | .i16 s => some s.toInt
  | .u16 s => some s.toInt
  | .i32 i => some i.toInt
  | .u32 i => some i.toInt
  | .i64 l => some l.toInt
  | .u64 l => some l.toInt
  | .str s => Num.num s
  | .variant a => getInt a
  | _ => some 0

/-- `get_uint` (dbus/wvdbusmsg.cc:207-251). -/
def getUint : Arg → Option Nat
  | .byte c => some c.toNat
  | .bool b => some (if b then 1 else 0)
  | .i16 s => some s.toNat
  | .u16 s => some s.toNat
  | .i32 i => some i.toNat
  | .u32 i => some i.toNat
  | .i64 l => some l.toNat
  | .u64 l => some l.toNat
  | .str s => (Num.num s).map fun v => (v % 18446744073709551616).toNat
  | .variant a => getUint a
  | _ => some 0

/-- The text of a number read by `get_int` (dbus/wvdbusmsg.cc:127-136, utils/wvstring.cc:206-212). -/
def ofInt (v : Option Int) : Option (List Byte) := v.bind (Num.ofSigned 64)
/-- The text of a number read by `get_uint` (dbus/wvdbusmsg.cc:137-140). -/
def ofUint (v : Option Nat) : Option (List Byte) := v.map Num.ofUnsigned

mutual
/-- `get_str` (dbus/wvdbusmsg.cc:120-157). -/
def getStr (d : BitVec 64 → List Byte) : Arg → Option (List Byte)
  | .byte c => ofInt (getInt (.byte c))
  | .bool b => ofInt (getInt (.bool b))
  | .i16 s => ofInt (getInt (.i16 s))
  | .i32 s => ofInt (getInt (.i32 s))
  | .i64 s => ofInt (getInt (.i64 s))
  | .u16 s => ofUint (getUint (.u16 s))
  | .u32 s => ofUint (getUint (.u32 s))
  | .u64 s => ofUint (getUint (.u64 s))
  | .double b => some (d b)
  | .str s => some s
  | .variant a => (getStr d a).map fun s => ch '{' :: (s ++ [ch '}'])
  | .struct l => (getAll d 0 l).map fun r => ch '[' :: (Split.join [ch ','] r ++ [ch ']'])
  | .array l => (getAll d 0 l).map fun r => ch '[' :: (Split.join [ch ','] r ++ [ch ']'])
  | .other t => some (str ['U', 'N', 'K', 'N', 'O', 'W', 'N', '_', 'T', 'Y', 'P', 'E', '('] ++ [t, ch ')'])
/-- `get_all(list)` (dbus/wvdbusmsg.cc:102-109); `items` strings were appended before. -/
def getAll (d : BitVec 64 → List Byte) (items : Nat) : List Arg → Option (List (List Byte))
  | [] => some (if items = 20 then [str ['.', '.', '.']] else [])
  | a :: l =>
    if items < 20 then
      match getStr d a, getAll d (items + 1) l with
      | some s, some r => some (s :: r)
      | _, _ => none
    else some (if items = 20 then [str ['.', '.', '.']] else [])
end

/-! ### Writing -/

inductive Kind where
  | variant | struct | array
deriving DecidableEq

/-- The message: what is in it, and in each open container, the innermost first. `itlist` (include/wvdbusmsg.h:287) has one more item than
    there are open containers. -/
structure Msg where
  root : List Arg
  open_ : List (Kind × List Arg)

/-- The outcome of calls: an assertion of the library fails, or libdbus is used in a way it does not allow. -/
inductive Out (α : Type) where
  | ok (a : α)
  | abort
  | misuse

/-- `dbus_message_iter_append_basic(itlist.first(), …)`. -/
def append (m : Msg) (a : Arg) : Msg :=
  match m.open_ with
  | [] => { m with root := m.root ++ [a] }
  | (k, l) :: r => { m with open_ := (k, l ++ [a]) :: r }

/-- The first byte in memory of a `dbus_unichar_t` (dbus/wvdbusmsg.cc:479-494). -/
def firstByte (little : Bool) (cc : BitVec 32) : BitVec 8 := if little then cc.setWidth 8 else (cc >>> 24).setWidth 8

/-- `variant_start`, `struct_start`, `array_start` (dbus/wvdbusmsg.cc:553-561, 580-588, 597-605). -/
def start (m : Msg) (k : Kind) : Msg := { m with open_ := (k, []) :: m.open_ }

/-- `variant_end` (dbus/wvdbusmsg.cc:564-577), which is also `array_end` and `struct_end`. -/
def stop (m : Msg) : Out Msg :=
  match m.open_ with
  | [] => .abort
  | (.variant, [a]) :: r => .ok (append { m with open_ := r } (.variant a))
  | (.variant, _) :: _ => .misuse
  | (.struct, l) :: r => .ok (append { m with open_ := r } (.struct l))
  | (.array, l) :: r => .ok (append { m with open_ := r } (.array l))

/-- One call (dbus/wvdbusmsg.cc:461-626). -/
def step (little : Bool) (m : Msg) : Op → Out Msg
  | .bool b => .ok (append m (.bool b))
  | .schar c => .ok (append m (.byte (firstByte little (c.signExtend 32))))
  | .uchar c => .ok (append m (.byte (firstByte little (c.setWidth 32))))
  | .i16 b => .ok (append m (.i16 b))
  | .u16 b => .ok (append m (.u16 b))
  | .i32 b => .ok (append m (.i32 b))
  | .u32 b => .ok (append m (.u32 b))
  | .i64 b => .ok (append m (.i64 b))
  | .u64 b => .ok (append m (.u64 b))
  | .double b => .ok (append m (.double b))
  | .str (some s) => .ok (append m (.str s))
  | .str none => .abort
  | .variantStart => .ok (start m .variant)
  | .structStart => .ok (start m .struct)
  | .arrayStart => .ok (start m .array)
  | .variantEnd => stop m
  | .structEnd => stop m
  | .arrayEnd => stop m
  | .varrayStart => .ok (start (start m .variant) .array)
  | .varrayEnd =>
    if 2 ≤ m.open_.length then
      match stop m with
      | .ok m => stop m
      | o => o
    else .abort

def run (little : Bool) (m : Msg) : List Op → Out Msg
  | [] => .ok m
  | o :: l =>
    match step little m o with
    | .ok m => run little m l
    | e => e

end Wv.BusArgs
