import Verif.Model.Basic
/-
What locking a device means. A process has the lock after `lock` returned true, until it has called `unlock` as often as `lock` returned true.
-/
namespace Spec.LockDev
open Wv

/-- At most one process has the lock; `count p` is how often process `p` has to call `unlock`. -/
def Exclusive (count : Nat → Nat) : Prop := ∀ p q, 0 < count p → 0 < count q → p = q

/-- The last part of the name of a device: behind the last slash. -/
def Last (device last : List Byte) : Prop :=
  ch '/' ∉ last ∧ (device = last ∨ ∃ dir, device = dir ++ [ch '/'] ++ last)

end Spec.LockDev
