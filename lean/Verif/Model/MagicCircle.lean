import Verif.Model.Buf.Store
import Verif.Spec.Fifo
/-
Model of WvMagicCircle (utils/wvmagiccircle.cc, include/wvmagiccircle.h), once as functions for a single process, and once as
two processes that share the memory and take turns step by step.

`none` is an access outside of the memory. The sizes are natural numbers: a size of 2^31 - 1 or more would overflow `int`. The
circle is assumed to be okay (isok()), that is, its memory was allocated. The two processes see each other's accesses in the
order in which they make them: neither the compiler nor the processor is assumed to reorder them.
-/
namespace Wv.MagicCircle
open Wv.Buf

/-- The shared memory (utils/wvmagiccircle.cc:12-13, 24-25). -/
structure Circle where
  circle : Mem
  head : Nat
  tail : Nat

/-- The constructor (utils/wvmagiccircle.cc:11-27); the memory is not cleared. -/
def new (m : Mem) : Circle := ⟨m, 0, 0⟩

/-- `size`, for a circle that stores `cap` bytes (utils/wvmagiccircle.cc:16). -/
def size (cap : Nat) : Nat := cap + 1

/-- `used()` (utils/wvmagiccircle.cc:36-46). -/
def used (cap : Nat) (s : Circle) : Nat :=
  let x := (s.tail : Int) - s.head
  (if x < 0 then x + size cap else x).toNat

/-- `left()` (include/wvmagiccircle.h:34-35). -/
def left (cap : Nat) (s : Circle) : Nat := size cap - used cap s - 1

/-- memcpy into the circle. -/
def copyIn (cap : Nat) (m : Mem) (a : Nat) (d : List Byte) : Option Mem :=
  if a + d.length ≤ size cap then some (m.put a d) else none

/-- memcpy out of the circle. -/
def copyOut (cap : Nat) (m : Mem) (a n : Nat) : Option (List Byte) := if a + n ≤ size cap then some (m.slice a n) else none

/-- `put(data, len)` (utils/wvmagiccircle.cc:49-74). -/
def put (cap : Nat) (s : Circle) (data : List Byte) : Option (Nat × Circle) :=
  let max := left cap s
  let len := if data.length > max then max else data.length
  let chunk1 := if len < size cap - s.tail then len else size cap - s.tail
  (copyIn cap s.circle s.tail (data.take chunk1)).bind fun m =>
  (if chunk1 < len then copyIn cap m 0 ((data.drop chunk1).take (len - chunk1)) else some m).bind fun m =>
  some (len, { s with circle := m, tail := (s.tail + len) % size cap })

/-- `get(data, len)` (utils/wvmagiccircle.cc:77-96). -/
def get (cap : Nat) (s : Circle) (len : Nat) : Option (List Byte × Circle) :=
  let max := used cap s
  let len := if len > max then max else len
  let chunk1 := if size cap - s.head > len then len else size cap - s.head
  (copyOut cap s.circle s.head chunk1).bind fun d1 =>
  (if chunk1 < len then copyOut cap s.circle 0 (len - chunk1) else some []).bind fun d2 =>
  some (d1 ++ d2, { s with head := (s.head + len) % size cap })

/-- `skip(len)` (utils/wvmagiccircle.cc:99-109). -/
def skip (cap : Nat) (s : Circle) (len : Nat) : Nat × Circle :=
  let max := used cap s
  let len := if len > max then max else len
  (len, { s with head := (s.head + len) % size cap })

/-- Where the writing process is: outside of `put`, or in it, with `len` and `chunk1` decided, the address `tail` taken and `i`
    bytes copied. -/
inductive Writer
  | idle
  | copying (data : List Byte) (len chunk1 tail i : Nat)

/-- Where the reading process is: outside of `get` and `skip`, or in one of them. -/
inductive Reader
  | idle
  | copying (len chunk1 head : Nat) (got : List Byte)
  | skipping (len : Nat)

/-- Both processes; the calls of `put` and of `get` and `skip` that returned, and what they returned. -/
structure Sys where
  mem : Circle
  writer : Writer
  reader : Reader
  puts : List (List Byte × Nat)
  gets : List Spec.Fifo.Seen

/-- What may happen next: one of the processes calls a function, or makes the next step of the one it is in. -/
inductive Act
  | put (data : List Byte)
  | get (len : Nat)
  | skip (len : Nat)
  | wstep
  | rstep

def start (m : Mem) : Sys := ⟨new m, .idle, .idle, [], []⟩

/-- A step of the writing process. The call reads `head` (in left()); then bytes are written one by one; the last step writes
    `tail` and returns (utils/wvmagiccircle.cc:51-73). Calls out of turn do nothing. -/
def wstep (cap : Nat) (s : Sys) : Option Sys :=
  match s.writer with
  | .idle => some s
  | .copying data len chunk1 tail i =>
    if i < len then
      let a := if i < chunk1 then tail + i else i - chunk1
      if a < size cap then
        some { s with mem := { s.mem with circle := s.mem.circle.put a [data.getD i 0] }, writer := .copying data len chunk1 tail (i + 1) }
      else none
    else some { s with mem := { s.mem with tail := (s.mem.tail + len) % size cap }, writer := .idle, puts := s.puts ++ [(data, len)] }

def wcall (cap : Nat) (s : Sys) (data : List Byte) : Sys :=
  match s.writer with
  | .idle =>
    let max := left cap s.mem
    let len := if data.length > max then max else data.length
    let chunk1 := if len < size cap - s.mem.tail then len else size cap - s.mem.tail
    { s with writer := .copying data len chunk1 s.mem.tail 0 }
  | _ => s

/-- A step of the reading process. The call reads `tail` (in used()); then bytes are read one by one; the last step writes
    `head` and returns (utils/wvmagiccircle.cc:79-95, 101-108). -/
def rstep (cap : Nat) (s : Sys) : Option Sys :=
  match s.reader with
  | .idle => some s
  | .copying len chunk1 head got =>
    if got.length < len then
      let a := if got.length < chunk1 then head + got.length else got.length - chunk1
      if a < size cap then some { s with reader := .copying len chunk1 head (got ++ [s.mem.circle a]) } else none
    else some { s with mem := { s.mem with head := (s.mem.head + len) % size cap }, reader := .idle, gets := s.gets ++ [.bytes got] }
  | .skipping len =>
    some { s with mem := { s.mem with head := (s.mem.head + len) % size cap }, reader := .idle, gets := s.gets ++ [.skipped len] }

def rcall (cap : Nat) (s : Sys) (len : Nat) : Sys :=
  match s.reader with
  | .idle =>
    let max := used cap s.mem
    let len := if len > max then max else len
    { s with reader := .copying len (if size cap - s.mem.head > len then len else size cap - s.mem.head) s.mem.head [] }
  | _ => s

def rskip (cap : Nat) (s : Sys) (len : Nat) : Sys :=
  match s.reader with
  | .idle =>
    let max := used cap s.mem
    { s with reader := .skipping (if len > max then max else len) }
  | _ => s

def step (cap : Nat) (s : Sys) : Act → Option Sys
  | .put data => some (wcall cap s data)
  | .get len => some (rcall cap s len)
  | .skip len => some (rskip cap s len)
  | .wstep => wstep cap s
  | .rstep => rstep cap s

/-- A schedule. -/
def run (cap : Nat) : Sys → List Act → Option Sys
  | s, [] => some s
  | s, a :: as => (step cap s a).bind fun s => run cap s as

end Wv.MagicCircle
