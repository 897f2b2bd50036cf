import Verif.Model.FdStream
import Verif.Spec.Loopback
/-!
`WvLoopback` (streams/wvloopback.cc) and `wvloopback2` (streams/wvloopback2.cc) over Model/FdStream. `socketpair` (streams/wvsocketpair.cc) answers with two descriptors or an error. Flags of descriptors are left out.
-/
namespace Wv.Loopback
open Wv Wv.FdStream

/-- A stream that never had a descriptor (in `wvloopback2` a plain `WvStream`), after `seterr` (streams/wvstream.cc:453-460): it is closed. -/
def broken (e : Nat) : St := { FdStream.make none none with err := e, closed := true }

/-- `WvLoopback::WvLoopback` (streams/wvloopback.cc:24-39). -/
def loop (pair : Except Nat (Nat × Nat)) : St :=
  match pair with
  | .error e => broken e
  | .ok p => FdStream.make (some p.1) (some p.2)

/-- `wvloopback2` (streams/wvloopback2.cc:10-34). -/
def loop2 (pair : Except Nat (Nat × Nat)) : St × St :=
  match pair with
  | .error e => (broken e, broken e)
  | .ok p => (FdStream.make (some p.1) (some p.1), FdStream.make (some p.2) (some p.2))

end Wv.Loopback
