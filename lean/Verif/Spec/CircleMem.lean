import Verif.Spec.ShmZone
/- Accesses to memory, independent of the model of the circle. -/
namespace Spec.CircleMem
open Spec.ShmZone (Has)

/-- `len` bytes from `a` on are memory that the process has. -/
def Inside (h : Has) (r : Nat × Nat) : Prop := ∃ m ∈ h.mem, m.1 ≤ r.1 ∧ r.1 + r.2 ≤ m.1 + m.2

end Spec.CircleMem
