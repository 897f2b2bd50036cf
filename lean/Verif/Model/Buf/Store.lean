import Verif.Model.Basic
/-
Model of the buffer storage interface and of its generic algorithms: WvBufStore (include/wvbufstore.h:26-126,
utils/wvbufferstore.cc:82-281).

A pointer into a buffer is a `Loc`: which sub-buffer, and the position in its memory. `none` is a failed assertion or an
access outside of the memory of the buffer. Sizes are natural numbers: the wrap-around of size_t and the truncation of
sizes to int are not modelled.
-/
namespace Wv.Buf

/-- A pointer into the memory of a buffer. -/
structure Loc where
  sub : Nat
  idx : Nat
deriving DecidableEq, Repr

/-- Pointer arithmetic. -/
def Loc.add (p : Loc) (k : Nat) : Loc := ⟨p.sub, p.idx + k⟩

/-- The memory of a buffer: its bytes by position. -/
abbrev Mem := Nat → Byte

/-- `n` bytes from position `a`. -/
def Mem.slice (m : Mem) (a n : Nat) : List Byte := (List.range n).map fun i => m (a + i)

/-- memcpy of the bytes `d` to position `a`. -/
def Mem.put (m : Mem) (a : Nat) (d : List Byte) : Mem :=
  fun i => if a ≤ i ∧ i < a + d.length then d.getD (i - a) 0 else m i

/-- `memops.uninit_move` within one memory of `size` bytes (utils/wvbufferstore.cc:38-43): memmove. -/
def Mem.move (m : Mem) (size dst src n : Nat) : Option Mem :=
  if dst + n ≤ size ∧ src + n ≤ size then some fun i => if dst ≤ i ∧ i < dst + n then m (src + (i - dst)) else m i
  else none

/-- One turn of the loop of `memops.swap` (utils/wvbufferstore.cc:49-55). -/
def Mem.swap1 (m : Mem) (a b : Nat) : Mem := fun i => if i = b then m a else if i = a then m b else m i

/-- `memops.swap` (utils/wvbufferstore.cc:45-56). -/
def Mem.swap (m : Mem) (size a b : Nat) : Nat → Option Mem
  | 0 => some m
  | n + 1 => if a < size ∧ b < size then (m.swap1 a b).swap size (a + 1) (b + 1) n else none

/-- The virtual functions of WvBufStore (include/wvbufstore.h:47-78). `read` and `write` are accesses of the caller through
    a pointer it was given. -/
class Store (σ : Type) where
  used : σ → Nat
  optgettable : σ → Nat
  get : σ → Nat → Option (Loc × σ)
  unget : σ → Nat → Option σ
  ungettable : σ → Nat
  zap : σ → σ
  free : σ → Nat
  optallocable : σ → Nat
  alloc : σ → Nat → Option (Loc × σ)
  unalloc : σ → Nat → Option σ
  optpeekable : σ → Int → Nat
  mutablepeek : σ → Int → Nat → Option (Loc × σ)
  read : σ → Loc → Nat → Option (List Byte)
  write : σ → Loc → List Byte → Option σ

open Store

/-- `WvBufStore::peekable(offset)` (utils/wvbufferstore.cc:90-108), from used() and ungettable(). -/
def peekableOf (used ungettable : Nat) (offset : Int) : Nat :=
  if offset = 0 then used
  else if offset < 0 then
    if (-offset).toNat ≤ ungettable then (-offset).toNat + used else 0
  else if 0 < (used : Int) - offset then ((used : Int) - offset).toNat else 0

section
variable {σ τ : Type} [Store σ] [Store τ]

/-- `peekable` of a store. -/
def peekable (s : σ) (offset : Int) : Nat := peekableOf (used s) (ungettable s) offset

/-- `WvBufStore::move(buf, count)` (utils/wvbufferstore.cc:111-125): its loop makes one turn. -/
def move (s : σ) (count : Nat) : Option (List Byte × σ) :=
  if count = 0 then some ([], s)
  else do
    let (p, s) ← get s count
    let d ← read s p count
    return (d, s)

/-- The loop of `WvBufStore::copy(buf, offset, count)` (utils/wvbufferstore.cc:128-143). Every turn copies a byte. -/
def copyLoop (s : σ) (offset : Int) : Nat → Nat → Option (List Byte × σ)
  | _, 0 => some ([], s)
  | 0, _ + 1 => none
  | fuel + 1, count + 1 => do
    let amount := optpeekable s offset
    if amount = 0 then none
    else
      let amount := if amount > count + 1 then count + 1 else amount
      let (p, s) ← mutablepeek s offset amount
      let d ← read s p amount
      let (ds, s) ← copyLoop s (offset + amount) fuel (count + 1 - amount)
      return (d ++ ds, s)

def copy (s : σ) (offset : Int) (count : Nat) : Option (List Byte × σ) := copyLoop s offset count count

/-- The loop of `WvBufStore::put(data, count)` (utils/wvbufferstore.cc:146-160). -/
def putLoop (s : σ) : Nat → List Byte → Option σ
  | _, [] => some s
  | 0, _ :: _ => none
  | fuel + 1, c :: cs => do
    let data := c :: cs
    let amount := optallocable s
    if amount = 0 then none
    else
      let amount := if amount > data.length then data.length else amount
      let (p, s) ← alloc s amount
      let s ← write s p (data.take amount)
      putLoop s fuel (data.drop amount)

def put (s : σ) (data : List Byte) : Option σ := putLoop s data.length data

/-- `WvBufStore::fastput(data, count)` (utils/wvbufferstore.cc:163-167). -/
def fastput (s : σ) (data : List Byte) : Option σ := do
  let (p, s) ← alloc s data.length
  write s p data

/-- The loop of `WvBufStore::poke` (utils/wvbufferstore.cc:182-194). -/
def pokeLoop (s : σ) (offset : Int) : Nat → List Byte → Option σ
  | _, [] => some s
  | 0, _ :: _ => none
  | fuel + 1, c :: cs => do
    let data := c :: cs
    let amount := optpeekable s offset
    if amount = 0 then none
    else
      let amount := if amount > data.length then data.length else amount
      let (p, s) ← mutablepeek s offset amount
      let s ← write s p (data.take amount)
      pokeLoop s (offset + amount) fuel (data.drop amount)

/-- `WvBufStore::poke(data, offset, count)` (utils/wvbufferstore.cc:170-195). -/
def poke (s : σ) (data : List Byte) (offset : Int) : Option σ := do
  let limit : Int := used s
  if offset ≤ limit then
    let e := offset + data.length
    if limit ≤ e then
      let tail := (e - limit).toNat
      let count := data.length - tail
      let s ← put s (data.drop count)
      pokeLoop s offset count (data.take count)
    else pokeLoop s offset data.length data
  else none

/-- The first part of a turn of `basicmerge` (utils/wvbufferstore.cc:240-248): get more of the source. -/
def refillIn (src : τ) (indata : Loc) (inavail count : Nat) : Option (Loc × Nat × τ) :=
  if inavail = 0 then
    let a := optgettable src
    if a = 0 then none
    else
      let a := if a > count then count else a
      (get src a).map fun r => (r.1, a, r.2)
  else some (indata, inavail, src)

/-- The second part (utils/wvbufferstore.cc:249-257): allocate more in the destination. -/
def refillOut (dst : σ) (outdata : Loc) (outavail count : Nat) : Option (Loc × Nat × σ) :=
  if outavail = 0 then
    let a := optallocable dst
    if a = 0 then none
    else
      let a := if a > count then count else a
      (alloc dst a).map fun r => (r.1, a, r.2)
  else some (outdata, outavail, dst)

/-- The loop of `WvBufStore::basicmerge` (utils/wvbufferstore.cc:238-280); `dst` is the store itself, `src` is `instore`.
    Every turn copies a byte. -/
def mergeLoop (dst : σ) (src : τ) (indata : Loc) (inavail : Nat) (outdata : Loc) (outavail : Nat) :
    Nat → Nat → Option (σ × τ)
  | 0, _ => none
  | fuel + 1, count => do
    let (indata, inavail, src) ← refillIn src indata inavail count
    let (outdata, outavail, dst) ← refillOut dst outdata outavail count
    if inavail < outavail then
      let d ← read src indata inavail
      let dst ← write dst outdata d
      let count := count - inavail
      let outavail := outavail - inavail
      if count = 0 then
        let dst ← unalloc dst outavail
        return (dst, src)
      else mergeLoop dst src indata 0 (outdata.add inavail) outavail fuel count
    else
      let d ← read src indata outavail
      let dst ← write dst outdata d
      let count := count - outavail
      if count = 0 then return (dst, src)
      else mergeLoop dst src (indata.add outavail) (inavail - outavail) outdata 0 fuel count

/-- `WvBufStore::basicmerge(instore, count)` (utils/wvbufferstore.cc:229-281). -/
def basicmerge (dst : σ) (src : τ) (count : Nat) : Option (σ × τ) :=
  if count = 0 then some (dst, src) else mergeLoop dst src ⟨0, 0⟩ 0 ⟨0, 0⟩ 0 count count

/-- `get(count)` and the bytes found at the pointer it returns. -/
def getBytes (s : σ) (count : Nat) : Option (List Byte × σ) := do
  let (p, s) ← get s count
  let d ← read s p count
  return (d, s)

/-- `peek(offset, count)` and the bytes found at the pointer it returns. -/
def peekBytes (s : σ) (offset : Int) (count : Nat) : Option (List Byte × σ) := do
  let (p, s) ← mutablepeek s offset count
  let d ← read s p count
  return (d, s)

end

end Wv.Buf
