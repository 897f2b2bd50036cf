import Verif.Model.ShmZone
import Verif.Spec.CircleMem
/-!
How `WvMagicCircle` (utils/wvmagiccircle.cc) gets its memory, and which memory it touches. What is in the memory is modelled in Model/MagicCircle; here the two indexes are parameters. `int` has 4 bytes.
-/
namespace Wv.CircleMem
open Wv.ShmZone
open Spec.ShmZone (Ev)

/-- The members; `head` and `tail` are references into the zone, and `circle` is behind them. -/
structure Circle where
  shm : Zone
  size : Int
  err : Nat
deriving DecidableEq

/-- The constructor (utils/wvmagiccircle.cc:11-27), and what it does; `none` if an assertion fails. -/
def new (sys : Sys) (n : Nat) : Option (Circle × List Ev) :=
  match ShmZone.new sys (n + 1 + 2 * 4) with
  | none => none
  | some (z, l) => if toInt n ≤ 0 then none else some (⟨z, toInt (n + 1), z.err⟩, l)

/-- `isok` (include/wverror.h:53-54). -/
def isok (c : Circle) : Bool := c.err == 0

/-- `shm.buf` as an address; MAP_FAILED is -1. -/
def base : Buf → Nat
  | .null => 0
  | .failed => 2 ^ 64 - 1
  | .at a => a

/-- `used()` (utils/wvmagiccircle.cc:36-46) if the indexes are `head` and `tail`. -/
def used (c : Circle) (head tail : Nat) : Nat :=
  if !isok c then 0
  else
    let x := (tail : Int) - head
    (if x < 0 then x + c.size else x).toNat

/-- What `used()` touches: address and length. -/
def usedTouch (c : Circle) : List (Nat × Nat) :=
  if !isok c then [] else [(base c.shm.buf + 4, 4), (base c.shm.buf, 4)]

/-- What `put` touches (utils/wvmagiccircle.cc:49-74). -/
def putTouch (c : Circle) (head tail len : Nat) : List (Nat × Nat) :=
  let len := min len (c.size - used c head tail - 1).toNat
  let chunk1 := min len (c.size - tail).toNat
  usedTouch c ++ [(base c.shm.buf + 4, 4), (base c.shm.buf + 8 + tail, chunk1)] ++ (if chunk1 < len then [(base c.shm.buf + 8, len - chunk1)] else [])

/-- What `get` touches (utils/wvmagiccircle.cc:77-96). -/
def getTouch (c : Circle) (head tail len : Nat) : List (Nat × Nat) :=
  let len := min len (used c head tail)
  let chunk1 := min len (c.size - head).toNat
  usedTouch c ++ [(base c.shm.buf, 4), (base c.shm.buf + 8 + head, chunk1)] ++ (if chunk1 < len then [(base c.shm.buf + 8, len - chunk1)] else [])

/-- The destructor (utils/wvmagiccircle.cc:30-33), and that of the zone. -/
def destroy (c : Circle) : List Ev := ShmZone.destroy c.shm

end Wv.CircleMem
