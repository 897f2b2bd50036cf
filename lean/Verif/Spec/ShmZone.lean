/- What a process has from the system, independent of the model of shared memory. -/
namespace Spec.ShmZone

/-- What is done, successfully. -/
inductive Ev where
  | opened (d : Nat)
  | closed (d : Nat)
  | mapped (a len : Nat)
  | unmapped (a len : Nat)
deriving DecidableEq

/-- The descriptors and the memory that a process has. -/
structure Has where
  fds : List Nat
  mem : List (Nat × Nat)
deriving DecidableEq

def Has.step (h : Has) : Ev → Has
  | .opened d => { h with fds := d :: h.fds }
  | .closed d => { h with fds := h.fds.erase d }
  | .mapped a n => { h with mem := (a, n) :: h.mem }
  | .unmapped a n => { h with mem := h.mem.erase (a, n) }

def Has.after (h : Has) (l : List Ev) : Has := l.foldl Has.step h

end Spec.ShmZone
