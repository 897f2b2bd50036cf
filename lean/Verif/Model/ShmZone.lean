import Verif.Spec.ShmZone
/-!
`WvShmZone` (utils/wvshmzone.cc, include/wvshmzone.h): memory that is shared with child processes. The system's answers are parameters. `size_t` has 64 bits and `int` has 32; memory is not mapped at 0.
-/
namespace Wv.ShmZone
open Spec.ShmZone (Ev)

/-- What `open` and `mmap`, twice, answer: an error number, or a descriptor or address. -/
structure Sys where
  opens : Except Nat Nat
  map : Except Nat Nat
  mapAnon : Except Nat Nat

/-- `buf`: NULL, MAP_FAILED, or an address. -/
inductive Buf where
  | null
  | failed
  | «at» (a : Nat)
deriving DecidableEq

/-- The members; `fd` is `none` for -1. -/
structure Zone where
  fd : Option Nat
  size : Int
  buf : Buf
  err : Nat
deriving DecidableEq

/-- `(int)_size`. -/
def toInt (n : Nat) : Int := if n % 2 ^ 32 < 2 ^ 31 then (n % 2 ^ 32 : Nat) else (n % 2 ^ 32 : Nat) - 2 ^ 32

/-- ENODEV. -/
def enodev : Nat := 19

/-- The constructor (utils/wvshmzone.cc:16-44), and what it does; `none` if the assertion fails. -/
def new (sys : Sys) (n : Nat) : Option (Zone × List Ev) :=
  let size := toInt n
  if size ≤ 0 then none
  else match sys.opens with
    | .error e => some (⟨none, size, .null, e⟩, [])
    | .ok d =>
      match sys.map with
      | .ok a => some (⟨some d, size, .at a, 0⟩, [.opened d, .mapped a size.toNat])
      | .error e =>
        if e = enodev then
          match sys.mapAnon with
          | .ok a => some (⟨some d, size, .at a, 0⟩, [.opened d, .mapped a size.toNat])
          | .error e => some (⟨some d, size, .failed, e⟩, [.opened d])
        else some (⟨some d, size, .failed, e⟩, [.opened d])

/-- `isok` (include/wverror.h:53-54). -/
def isok (z : Zone) : Bool := z.err == 0

/-- The destructor (utils/wvshmzone.cc:47-53). `munmap` of MAP_FAILED, which is on no page boundary, fails. -/
def destroy (z : Zone) : List Ev :=
  (match z.buf with
    | .null => []
    | .failed => []
    | .at a => [.unmapped a z.size.toNat]) ++
  (match z.fd with
    | none => []
    | some d => [.closed d])

end Wv.ShmZone
