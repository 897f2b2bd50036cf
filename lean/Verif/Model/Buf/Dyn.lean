import Verif.Model.Buf.Circular
/-
Model of WvLinkedBufferStore and WvDynBufStore (utils/wvbufferstore.cc:737-1165). The sub-buffers are always
WvCircularBufStores made by newbuffer (utils/wvbufferstore.cc:1000-1005), or stolen from another dynamic buffer that made
them so. A pointer names its sub-buffer by position in the list. size_t is unbounded here.
-/
namespace Wv.Buf

/-- The fields of WvLinkedBufferStore and WvDynBufStore (include/wvbufstore.h:402-407, 482-483). -/
structure Dyn where
  list : List Circ
  totalused : Nat
  maxungettable : Nat
  minalloc : Nat
  maxalloc : Nat
  granularity : Nat

namespace Dyn

/-- UNLIMITED_FREE_SPACE (include/wvbufstore.h:23): INT_MAX/2. -/
def unlimited : Nat := 1073741823

/-- The constructor (utils/wvbufferstore.cc:1115-1121, 739-742). -/
def empty (granularity minalloc maxalloc : Nat) : Option Dyn :=
  if minalloc ≤ maxalloc then some ⟨[], 0, 0, minalloc, maxalloc, granularity⟩ else none

/-- `roundup(value, boundary)` (utils/wvbufferstore.cc:73-78). -/
def roundup (value boundary : Nat) : Nat :=
  let mod := value % boundary
  if mod ≠ 0 then value + boundary - mod else value

/-- The size `newbuffer(minsize)` asks for (utils/wvbufferstore.cc:1150-1164). -/
def newsize (s : Dyn) (minsize : Nat) : Nat :=
  let size := s.totalused
  let size := if size < minsize * 2 then minsize * 2 else size
  let size := if size < s.minalloc then s.minalloc else if size > s.maxalloc then s.maxalloc else size
  if size < minsize then minsize else size

/-- `newbuffer(minsize)` (utils/wvbufferstore.cc:1150-1165, 1000-1005, 493-497). Dividing by a zero granularity is
    undefined. The memory of a new buffer holds arbitrary bytes; zeros here. -/
def newbuffer (s : Dyn) (minsize : Nat) : Option Circ :=
  if s.granularity = 0 then none
  else Circ.reset (fun _ => 0) 0 (roundup (s.newsize minsize) s.granularity)

/-- `ungettable()` (utils/wvbufferstore.cc:867-890). -/
def ungettable (s : Dyn) : Nat :=
  match s.list with
  | [] => 0
  | b :: _ =>
    let avail := b.totalinit - b.totalused
    if avail > s.maxungettable then s.maxungettable else avail

/-- The loop of `coalesce` (utils/wvbufferstore.cc:1074-1094) over the buffers after `buf`: `merge` with a store that does
    not use sub-buffers is `basicmerge`. -/
def coalesceLoop (buf : Circ) (needed : Nat) : List Circ → Option (Circ × List Circ)
  | [] => none
  | itbuf :: rest =>
    let chunk := itbuf.totalused
    if chunk > 0 then
      let chunk := if chunk > needed then needed else chunk
      match basicmerge buf itbuf chunk with
      | none => none
      | some (buf, itbuf) => if needed - chunk = 0 then some (buf, itbuf :: rest) else coalesceLoop buf (needed - chunk) rest
    else coalesceLoop buf needed rest

/-- `coalesce(it, count)` (utils/wvbufferstore.cc:1041-1096). `buf` is the buffer `it` is at, `post` those after it. Gives
    the resulting buffer and those after it. -/
def coalesce (s : Dyn) (isfirst : Bool) (buf : Circ) (post : List Circ) (count : Nat) : Option (Circ × List Circ) :=
  let availused := buf.totalused
  if count ≤ availused then some (buf, post)
  else
    let needed := count - availused
    if buf.free < needed then
      let keep := isfirst && decide (s.totalused ≠ 0)
      let mustskip := if keep then s.ungettable else 0
      match (if keep then buf.unget mustskip else some buf) with
      | none => none
      | some buf =>
        match s.newbuffer (count + mustskip) with
        | none => none
        | some nb =>
          match coalesceLoop nb (count + mustskip) (buf :: post) with
          | none => none
          | some (nb, post) => (nb.get mustskip).map fun r => (r.2, post)
    else
      match coalesceLoop buf needed post with
      | none => none
      | some (buf, post) => (buf.get 0).map fun r => (r.2, post)

/-- The first loop of `get`: leading empty buffers are unlinked (utils/wvbufferstore.cc:830-844, 1099-1109). -/
def strip : List Circ → Nat → List Circ × Nat
  | [], m => ([], m)
  | b :: bs, m => if b.totalused ≠ 0 then (b :: bs, m) else strip bs 0

/-- `get(count)` (utils/wvbufferstore.cc:815-852). -/
def get (s : Dyn) (count : Nat) : Option (Loc × Dyn) :=
  if s.totalused ≠ 0 ∧ s.list = [] then none
  else if count = 0 then some (⟨0, 0⟩, s)
  else if count ≤ s.totalused then
    match strip s.list s.maxungettable with
    | ([], _) => none
    | (buf :: post, m) =>
      let s := { s with totalused := s.totalused - count, list := buf :: post, maxungettable := m }
      match (if buf.totalused < count then s.coalesce true buf post count else some (buf, post)) with
      | none => none
      | some (buf, post) =>
        (buf.get count).map fun r =>
          (⟨0, r.1.idx⟩, { s with list := r.2 :: post, maxungettable := s.maxungettable + count })
  else none

/-- `unget(count)` (utils/wvbufferstore.cc:855-865). -/
def unget (s : Dyn) (count : Nat) : Option Dyn :=
  if s.totalused ≠ 0 ∧ s.list = [] then none
  else if count = 0 then some s
  else
    match s.list with
    | [] => none
    | b :: bs =>
      if count ≤ s.maxungettable then
        (b.unget count).map fun b =>
          { s with list := b :: bs, totalused := s.totalused + count, maxungettable := s.maxungettable - count }
      else none

/-- `zap()` (utils/wvbufferstore.cc:893-900). -/
def zap (s : Dyn) : Dyn := { s with list := [], totalused := 0, maxungettable := 0 }

/-- `WvLinkedBufferStore::free()` (utils/wvbufferstore.cc:903-908). -/
def lastfree (s : Dyn) : Nat := match s.list.getLast? with | none => 0 | some b => b.free

/-- `optallocable()` (utils/wvbufferstore.cc:1130-1136, 911-916). -/
def optallocable (s : Dyn) : Nat :=
  let avail := match s.list.getLast? with | none => 0 | some b => b.optallocable
  if avail = 0 then unlimited else avail

/-- `WvLinkedBufferStore::alloc(count)` (utils/wvbufferstore.cc:919-926). -/
def linkedalloc (s : Dyn) (count : Nat) : Option (Loc × Dyn) :=
  if count = 0 then some (⟨0, 0⟩, s)
  else
    match s.list.getLast? with
    | none => none
    | some b =>
      (b.alloc count).map fun r =>
        (⟨s.list.length - 1, r.1.idx⟩, { s with list := s.list.dropLast ++ [r.2], totalused := s.totalused + count })

/-- `alloc(count)` (utils/wvbufferstore.cc:1139-1147). -/
def alloc (s : Dyn) (count : Nat) : Option (Loc × Dyn) :=
  if count > s.lastfree then
    match s.newbuffer count with
    | none => none
    | some b => linkedalloc { s with list := s.list ++ [b], totalused := s.totalused + b.totalused } count
  else s.linkedalloc count

/-- The loop of `unalloc` (utils/wvbufferstore.cc:934-951), on the list from its end. -/
def unallocLoop : List Circ → Nat → Nat → Option (List Circ × Nat)
  | [], 0, m => some ([], m)
  | [], _ + 1, _ => none
  | b :: bs, count, m =>
    if count = 0 then some (b :: bs, m)
    else if count < b.totalused then (b.unalloc count).map fun b => (b :: bs, m)
    else unallocLoop bs (count - b.totalused) (if bs = [] then 0 else m)

/-- `unalloc(count)` (utils/wvbufferstore.cc:929-952). -/
def unalloc (s : Dyn) (count : Nat) : Option Dyn :=
  if count ≤ s.totalused then
    (unallocLoop s.list.reverse count s.maxungettable).map fun r =>
      { s with list := r.1.reverse, maxungettable := r.2, totalused := s.totalused - count }
  else none

/-- The loop of `search` over the readable region (utils/wvbufferstore.cc:1027-1036): the buffers before, the buffer, those
    after it and the offset in it. -/
def searchFwd : List Circ → Nat → Option (List Circ × Circ × List Circ × Nat)
  | [], _ => none
  | b :: bs, off =>
    if off < b.totalused then some ([], b, bs, off)
    else (searchFwd bs (off - b.totalused)).map fun r => (b :: r.1, r.2)

/-- `search(it, offset)` (utils/wvbufferstore.cc:1014-1039). -/
def search (l : List Circ) (offset : Int) : Option (List Circ × Circ × List Circ × Int) :=
  if offset < 0 then
    match l with
    | [] => none
    | b :: bs => if (-offset).toNat ≤ b.totalinit - b.totalused then some ([], b, bs, offset) else none
  else (searchFwd l offset.toNat).map fun r => (r.1, r.2.1, r.2.2.1, (r.2.2.2 : Int))

/-- `optpeekable(offset)` (utils/wvbufferstore.cc:961-970). -/
def optpeekable (s : Dyn) (offset : Int) : Nat :=
  match search s.list offset with
  | none => 0
  | some (_, b, _, off) => peekableOf b.totalused (b.totalinit - b.totalused) off

/-- `mutablepeek(offset, count)` (utils/wvbufferstore.cc:973-989). -/
def mutablepeek (s : Dyn) (offset : Int) (count : Nat) : Option (Loc × Dyn) :=
  if count = 0 then some (⟨0, 0⟩, s)
  else
    match search s.list offset with
    | none => none
    | some (pre, b, post, off) =>
      match (if peekableOf b.totalused (b.totalinit - b.totalused) off < count then s.coalesce pre.isEmpty b post count
        else some (b, post)) with
      | none => none
      | some (b, post) =>
        (b.mutablepeek off count).map fun r => (⟨pre.length, r.1.idx⟩, { s with list := pre ++ r.2 :: post })

/-- `optgettable()` (utils/wvbufferstore.cc:804-812). -/
def optgettable (l : List Circ) : Nat :=
  match l with
  | [] => 0
  | b :: bs => if b.optgettable ≠ 0 then b.optgettable else optgettable bs

/-- An access of the caller through a pointer. -/
def read (s : Dyn) (p : Loc) (n : Nat) : Option (List Byte) :=
  if n = 0 then some []
  else match s.list[p.sub]? with | none => none | some b => b.read ⟨0, p.idx⟩ n

def write (s : Dyn) (p : Loc) (d : List Byte) : Option Dyn :=
  if d = [] then some s
  else
    match s.list[p.sub]? with
    | none => none
    | some b => (b.write ⟨0, p.idx⟩ d).map fun b => { s with list := s.list.set p.sub b }

instance : Store Dyn where
  used := totalused
  optgettable s := optgettable s.list
  get := get
  unget := unget
  ungettable := ungettable
  zap := zap
  free _ := unlimited
  optallocable := optallocable
  alloc := alloc
  unalloc := unalloc
  optpeekable := optpeekable
  mutablepeek := mutablepeek
  read := read
  write := write

/-- The loop of `WvBufStore::merge` that steals whole sub-buffers (utils/wvbufferstore.cc:206-222), with unlinksubbuffer and
    appendsubbuffer (utils/wvbufferstore.cc:763-797). -/
def stealLoop (dst src : Dyn) : List Circ → Nat → Dyn × Dyn × Nat
  | [], count => (dst, src, count)
  | b :: bs, count =>
    if b.totalused > count then (dst, src, count)
    else
      let src := { src with list := bs, totalused := src.totalused - b.totalused, maxungettable := 0 }
      let dst := { dst with list := dst.list ++ [b], totalused := dst.totalused + b.totalused }
      if count - b.totalused = 0 then (dst, src, 0) else stealLoop dst src bs (count - b.totalused)

/-- `WvBufStore::merge(instore, count)` between two dynamic buffers (utils/wvbufferstore.cc:198-226). -/
def merge (dst src : Dyn) (count : Nat) : Option (Dyn × Dyn) :=
  if count = 0 then some (dst, src)
  else
    let r := stealLoop dst src src.list count
    if r.2.2 = 0 then some (r.1, r.2.1) else basicmerge r.1 r.2.1 r.2.2

end Dyn
end Wv.Buf
