import Verif.Model.Buf.Store
/-
Model of WvCircularBufStore (utils/wvbufferstore.cc:483-733).
-/
namespace Wv.Buf

/-- The fields of WvCircularBufStore (include/wvbufstore.h:323-327). -/
structure Circ where
  data : Mem
  xsize : Nat
  head : Nat
  totalused : Nat
  totalinit : Nat

namespace Circ

/-- `reset(data, avail, size)` (utils/wvbufferstore.cc:507-525): `avail ≤ size` is asserted. -/
def reset (data : Mem) (avail size : Nat) : Option Circ := if avail ≤ size then some ⟨data, size, 0, avail, avail⟩ else none

/-- The loop of case 4 of `compact` (utils/wvbufferstore.cc:720-725). -/
def swapLoop (m : Mem) (size start e headcount tailcount : Nat) : Option (Mem × Nat × Nat) :=
  if 0 < headcount ∧ headcount ≤ tailcount then
    match m.swap size start e headcount with
    | none => none
    | some m => swapLoop m size (start + headcount) e headcount (tailcount - headcount)
  else some (m, start, tailcount)
termination_by tailcount
decreasing_by omega

/-- `compact(data, size, head, count)` (utils/wvbufferstore.cc:684-733). `head < size` makes headcount positive, so that
    the loop of case 4 ends. -/
def compact (m : Mem) (size head count : Nat) : Option Mem :=
  if count = 0 then some m
  else if head + count ≤ size then m.move size 0 head count
  else
    let headcount := size - head
    let tailcount := count - headcount
    let freecount := size - count
    if headcount ≤ freecount then do
      let m ← m.move size headcount 0 tailcount
      m.move size 0 head headcount
    else do
      let (m, start, tailcount) ← swapLoop m size 0 head headcount tailcount
      if start + tailcount ≤ size then
        let buf := m.slice start tailcount
        let m ← m.move size start head headcount
        if start + headcount + tailcount ≤ size then some (m.put (start + headcount) buf) else none
      else none

/-- `ensurecontiguous(offset, count, keephistory)` (utils/wvbufferstore.cc:647-681). A size of 0 divides by zero. -/
def ensurecontiguous (s : Circ) (offset : Int) (count : Nat) (keephistory : Bool) : Option (Nat × Circ) :=
  if s.xsize = 0 then none
  else
    let start := ((s.head : Int) + offset + s.xsize).toNat % s.xsize
    if count ≠ 0 ∧ start + count > s.xsize then
      let keepstart := if keephistory then s.head + s.xsize - (s.totalinit - s.totalused) else s.head
      let totalinit := if keephistory then s.totalinit else s.totalused
      match compact s.data s.xsize (keepstart % s.xsize) totalinit with
      | none => none
      | some data =>
        let s := { s with data := data, totalinit := totalinit, head := totalinit - s.totalused }
        some (((s.head : Int) + offset + s.xsize).toNat % s.xsize, s)
    else some (start, s)

/-- `optgettable()` (utils/wvbufferstore.cc:534-540). -/
def optgettable (s : Circ) : Nat :=
  let avail := s.xsize - s.head
  if avail > s.totalused then s.totalused else avail

/-- `get(count)` (utils/wvbufferstore.cc:543-552). -/
def get (s : Circ) (count : Nat) : Option (Loc × Circ) :=
  if count ≤ s.totalused then
    match s.ensurecontiguous 0 count false with
    | none => none
    | some (first, s) =>
      some (⟨0, first⟩, { s with head := (s.head + count) % s.xsize, totalused := s.totalused - count })
  else none

/-- `unget(count)` (utils/wvbufferstore.cc:555-561). -/
def unget (s : Circ) (count : Nat) : Option Circ :=
  if count ≤ s.totalinit - s.totalused ∧ s.xsize ≠ 0 then
    some { s with head := (s.head + s.xsize - count) % s.xsize, totalused := s.totalused + count }
  else none

/-- `zap()` (utils/wvbufferstore.cc:570-574). -/
def zap (s : Circ) : Circ := { s with head := 0, totalused := 0, totalinit := 0 }

/-- `free()` (utils/wvbufferstore.cc:577-580). -/
def free (s : Circ) : Nat := s.xsize - s.totalused

/-- `optallocable()` (utils/wvbufferstore.cc:583-589). -/
def optallocable (s : Circ) : Nat :=
  let tail := s.head + s.totalused
  if tail ≥ s.xsize then s.xsize - s.totalused else s.xsize - tail

/-- `alloc(count)` (utils/wvbufferstore.cc:592-603). -/
def alloc (s : Circ) (count : Nat) : Option (Loc × Circ) :=
  if count ≤ s.xsize - s.totalused then
    let s := { s with totalinit := s.totalused }
    match s.ensurecontiguous s.totalused count false with
    | none => none
    | some (first, s) =>
      some (⟨0, first⟩, { s with totalused := s.totalused + count, totalinit := s.totalinit + count })
  else none

/-- `unalloc(count)` (utils/wvbufferstore.cc:606-612). -/
def unalloc (s : Circ) (count : Nat) : Option Circ :=
  if count ≤ s.totalused then
    some { s with totalused := s.totalused - count, totalinit := s.totalinit - count }
  else none

/-- `mutablepeek(offset, count)` (utils/wvbufferstore.cc:621-633). -/
def mutablepeek (s : Circ) (offset : Int) (count : Nat) : Option (Loc × Circ) :=
  if count = 0 then some (⟨0, 0⟩, s)
  else if (if offset ≤ 0 then (-offset).toNat ≤ s.totalinit - s.totalused else offset.toNat < s.totalused) then
    match s.ensurecontiguous offset count true with
    | none => none
    | some (first, s) => some (⟨0, first⟩, s)
  else none

/-- `normalize()` (utils/wvbufferstore.cc:636-644). -/
def normalize (s : Circ) : Option Circ :=
  match compact s.data s.xsize s.head s.totalused with
  | none => none
  | some data => some { s with data := data, totalinit := s.totalused, head := 0 }

/-- An access of the caller through a pointer. -/
def read (s : Circ) (p : Loc) (n : Nat) : Option (List Byte) :=
  if n = 0 then some [] else if p.sub = 0 ∧ p.idx + n ≤ s.xsize then some (s.data.slice p.idx n) else none

def write (s : Circ) (p : Loc) (d : List Byte) : Option Circ :=
  if d = [] then some s
  else if p.sub = 0 ∧ p.idx + d.length ≤ s.xsize then some { s with data := s.data.put p.idx d } else none

instance : Store Circ where
  used := totalused
  optgettable := optgettable
  get := get
  unget := unget
  ungettable s := s.totalinit - s.totalused
  zap := zap
  free := free
  optallocable := optallocable
  alloc := alloc
  unalloc := unalloc
  optpeekable s := peekableOf s.totalused (s.totalinit - s.totalused)
  mutablepeek := mutablepeek
  read := read
  write := write

end Circ
end Wv.Buf
