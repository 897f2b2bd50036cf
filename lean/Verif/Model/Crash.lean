import Verif.Model.Basic
import Verif.Spec.Crash
/-!
What is kept for a crash (utils/wvcrashbase.cc, utils/wvassert.cc) and three of the functions that write it (utils/wvcrash.cc). The size of the
ring buffer is `2 ^ k`; in the code `k` is 12 (include/wvcrash.h:42-43). `put` is also what WvCrashLog does with a message
(streams/wvcrashlog.cc:16-19). Not modelled: the signal handlers, the stack trace, the subprogram, the text of failed assertions.
-/
namespace Wv.Crash
open Wv
open Spec.Crash (Text Op WOp)

/-- `ring_buffer`, `ring_buffer_start`, `ring_buffer_used` (utils/wvcrashbase.cc:20-21). -/
structure Ring where
  buf : List Byte
  start : Nat
  used : Nat
deriving DecidableEq

def new (k : Nat) : Ring := ⟨List.replicate (2 ^ k + 1) 0, 0, 0⟩

/-- A turn of the loop of `wvcrash_ring_buffer_put` (utils/wvcrashbase.cc:33-39). -/
def putByte (k : Nat) (s : Ring) (c : Byte) : Ring :=
  let pos := (s.start + s.used) &&& (2 ^ k - 1)
  let buf := s.buf.set pos c
  if s.used = 2 ^ k then ⟨buf, (s.start + 1) &&& (2 ^ k - 1), s.used⟩ else ⟨buf, s.start, s.used + 1⟩

/-- `wvcrash_ring_buffer_put` (utils/wvcrashbase.cc:29-41). -/
def put (k : Nat) (s : Ring) : Text → Ring
  | [] => s
  | c :: r => put k (putByte k s c) r

/-- The string at a place of the buffer. -/
def strAt (buf : List Byte) (i : Nat) : Text := (buf.drop i).takeWhile (· ≠ 0)

/-- `wvcrash_ring_buffer_get` (utils/wvcrashbase.cc:44-64): the place of the result in the buffer. -/
def get (k : Nat) (s : Ring) : Option Nat × Ring :=
  if s.used = 0 then (none, s)
  else if s.start + s.used ≥ 2 ^ k then
    (some s.start, ⟨s.buf.set (2 ^ k) 0, 0, s.used - (2 ^ k - s.start)⟩)
  else (some s.start, ⟨s.buf.set (s.start + s.used) 0, s.start + s.used, 0⟩)

/-- What a caller who uses the result at once sees. -/
def getText (k : Nat) (s : Ring) : Option Text × Ring :=
  let r := get k s
  (r.1.map (strAt r.2.buf), r.2)

/-- A history. -/
def run (k : Nat) (s : Ring) : List Op → List (Op × Option Text)
  | [] => []
  | .put t :: l => (.put t, none) :: run k (put k s t) l
  | .get :: l => (.get, (getText k s).1) :: run k (getText k s).2 l

/-- The loop of `wvcrash_real` (utils/wvcrash.cc:202-212) without the heading, for at most `n` turns; `none` if they are not enough. -/
def dump (k : Nat) : Nat → Ring → Option Text
  | 0, _ => none
  | n + 1, s =>
    match getText k s with
    | (none, _) => some []
    | (some t, s) => (dump k n s).map (t ++ ·)

/-- The first loop of `wrn` (utils/wvcrash.cc:74-80); `none` if an int overflows. An int has at most ten digits. -/
def revLoop : Nat → Nat → Nat → Option Nat
  | 0, _, tmp => some tmp
  | n + 1, num, tmp =>
    if num = 0 then some tmp
    else
      let tmp := tmp * 10 + num % 10
      if tmp < 2 ^ 31 then revLoop n (num / 10) tmp else none

/-- The second (utils/wvcrash.cc:82-87). -/
def outLoop : Nat → Nat → Text
  | 0, _ => []
  | n + 1, tmp => if tmp = 0 then [] else (ch '0' + UInt8.ofNat (tmp % 10)) :: outLoop n (tmp / 10)

/-- `wrn` (utils/wvcrash.cc:58-88): what is written for an int; `none` is undefined. -/
def wrn (num : Int) : Option Text :=
  if num = 0 then some [ch '0']
  else if num < 0 ∧ ¬ -num < 2 ^ 31 then none
  else
    let sign := if num < 0 then [ch '-'] else []
    (revLoop 11 num.natAbs 0).map fun tmp => sign ++ outLoop 11 tmp

/-- `digits` (utils/wvcrash.cc:95). -/
def hexDigits : Text := str ['0', '1', '2', '3', '4', '5', '6', '7', '8', '9', 'A', 'B', 'C', 'D', 'E', 'F']

/-- The loop of `wra` from the shift `4 * (n - 1)` on (utils/wvcrash.cc:98-99). The sign of a `ptrdiff_t` does not matter, as no shift is by more than
    its bits less four. -/
def addrDigits : Nat → Nat → Text
  | 0, _ => []
  | n + 1, a => hexDigits.getD ((a >>> (4 * n)) &&& 15) 0 :: addrDigits n a

/-- `wra` (utils/wvcrash.cc:92-100), for addresses of so many bytes. -/
def wra (bytes a : Nat) : Text := str ['0', 'x'] ++ addrDigits (2 * bytes) a

/-- `wvcrash_leave_will` (utils/wvcrashbase.cc:130-139): the buffer then. `strncpy` fills up with NULs. -/
def leaveWill (buf : List Byte) : Option Text → List Byte
  | some w => (w.take 2048 ++ List.replicate (2048 - w.length) 0).set 2047 0
  | none => buf.set 0 0

/-- `wvcrash_read_will` (utils/wvcrashbase.cc:142-145). -/
def readWill (buf : List Byte) : Text := strAt buf 0

/-- The buffer, and the `old_will`s of the objects, the innermost first. -/
structure Wills where
  buf : List Byte
  olds : List Text

/-- The constructors, `rewrite` and the destructor of WvCrashWill (utils/wvassert.cc:10-42). -/
def wstep (s : Wills) : WOp → Option Wills
  | .make w => some ⟨leaveWill s.buf w, readWill s.buf :: s.olds⟩
  | .rewrite w => match s.olds with | [] => none | _ => some ⟨leaveWill s.buf w, s.olds⟩
  | .destroy => match s.olds with | [] => none | o :: r => some ⟨leaveWill s.buf (some o), r⟩

def wrun (s : Wills) : List WOp → Option Wills
  | [] => some s
  | o :: l => (wstep s o).bind fun s => wrun s l

end Wv.Crash
