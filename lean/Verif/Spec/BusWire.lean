/-
What receiving messages from a byte stream means: after some bytes, the messages that are complete.
-/
namespace Spec.BusWire

/-- The messages of `ms` that lie in the first `n` bytes, if they are sent one after another; `bytes` is what a message looks like. -/
def complete {M B : Type} (bytes : M → List B) : List M → Nat → List M
  | [], _ => []
  | m :: r, n => if (bytes m).length ≤ n then m :: complete bytes r (n - (bytes m).length) else []

/-- The bytes of messages. -/
def wire {M B : Type} (bytes : M → List B) (ms : List M) : List B := (ms.map bytes).flatten

end Spec.BusWire
