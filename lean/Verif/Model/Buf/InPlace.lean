import Verif.Model.Buf.Store
/-
Model of WvInPlaceBufStore (utils/wvbufferstore.cc:285-405).
-/
namespace Wv.Buf

/-- The fields of WvInPlaceBufStore (include/wvbufstore.h:254-257). -/
structure InPlace where
  data : Mem
  xsize : Nat
  readidx : Nat
  writeidx : Nat

namespace InPlace

/-- `reset(data, avail, size)` (utils/wvbufferstore.cc:309-327): `avail ≤ size` is asserted. -/
def reset (data : Mem) (avail size : Nat) : Option InPlace := if avail ≤ size then some ⟨data, size, 0, avail⟩ else none

/-- `used()` and `unallocable()` (utils/wvbufferstore.cc:330-333, 390-393). -/
def used (s : InPlace) : Nat := s.writeidx - s.readidx
/-- `get(count)` (utils/wvbufferstore.cc:336-343). -/
def get (s : InPlace) (count : Nat) : Option (Loc × InPlace) :=
  if count ≤ s.writeidx - s.readidx then some (⟨0, s.readidx⟩, { s with readidx := s.readidx + count }) else none
/-- `unget(count)` (utils/wvbufferstore.cc:346-351). -/
def unget (s : InPlace) (count : Nat) : Option InPlace :=
  if count ≤ s.readidx then some { s with readidx := s.readidx - count } else none
/-- `zap()` (utils/wvbufferstore.cc:360-363). -/
def zap (s : InPlace) : InPlace := { s with readidx := 0, writeidx := 0 }
/-- `free()` (utils/wvbufferstore.cc:366-369). -/
def free (s : InPlace) : Nat := s.xsize - s.writeidx
/-- `alloc(count)` (utils/wvbufferstore.cc:372-379). -/
def alloc (s : InPlace) (count : Nat) : Option (Loc × InPlace) :=
  if count ≤ s.xsize - s.writeidx then some (⟨0, s.writeidx⟩, { s with writeidx := s.writeidx + count }) else none
/-- `unalloc(count)` (utils/wvbufferstore.cc:382-387). -/
def unalloc (s : InPlace) (count : Nat) : Option InPlace :=
  if count ≤ s.writeidx - s.readidx then some { s with writeidx := s.writeidx - count } else none
/-- `mutablepeek(offset, count)` (utils/wvbufferstore.cc:396-405). -/
def mutablepeek (s : InPlace) (offset : Int) (count : Nat) : Option (Loc × InPlace) :=
  if count = 0 then some (⟨0, 0⟩, s)
  else if (if offset ≤ 0 then (-offset).toNat ≤ s.readidx else offset.toNat < s.writeidx - s.readidx) then
    some (⟨0, ((s.readidx : Int) + offset).toNat⟩, s)
  else none

instance : Store InPlace where
  used := used
  optgettable := used
  get := get
  unget := unget
  ungettable s := s.readidx
  zap := zap
  free := free
  optallocable := free
  alloc := alloc
  unalloc := unalloc
  optpeekable s := peekableOf s.used s.readidx
  mutablepeek := mutablepeek
  read s p n := if n = 0 then some [] else if p.sub = 0 ∧ p.idx + n ≤ s.xsize then some (s.data.slice p.idx n) else none
  write s p d :=
    if d = [] then some s
    else if p.sub = 0 ∧ p.idx + d.length ≤ s.xsize then some { s with data := s.data.put p.idx d } else none

end InPlace
end Wv.Buf
