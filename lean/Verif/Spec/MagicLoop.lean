import Verif.Model.Basic
/- A stream between two processes, independent of the model. -/
namespace Spec.MagicLoop
open Wv

/-- What the processes do, in the order in which it takes effect. -/
inductive Act where
  /-- the reader begins to wait: it takes what was sent to wake it -/
  | drain
  /-- it looks whether there are data, and sleeps if not -/
  | look
  /-- it is woken -/
  | wakes
  /-- it reads up to a number of bytes -/
  | read (n : Nat)
  /-- the writer puts bytes -/
  | put (b : List Byte)
  /-- and wakes the reader -/
  | signal
  /-- the writer waits for something itself -/
  | writerDrain

/-- The writer never waits for something. -/
def OnlyWrites (l : List Act) : Prop := ∀ a ∈ l, a ≠ .writerDrain

end Spec.MagicLoop
