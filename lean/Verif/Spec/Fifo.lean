/-
Bounded queues, and what a reader may see of what a writer wrote.
-/
namespace Spec.Fifo

/-- Operations of a bounded queue, and what they return. -/
inductive Op
  | put (d : List UInt8)
  | get (n : Nat)
  | skip (n : Nat)

inductive Res
  | count (n : Nat)
  | bytes (d : List UInt8)
deriving DecidableEq

/-- A queue of at most `cap` bytes: what an operation returns and leaves. -/
def apply (cap : Nat) (q : List UInt8) : Op → Res × List UInt8
  | .put d => let n := min d.length (cap - q.length); (.count n, q ++ d.take n)
  | .get n => (.bytes (q.take n), q.drop n)
  | .skip n => (.count (min n q.length), q.drop n)

/-- What a series of operations returns and leaves. -/
def applyAll (cap : Nat) (q : List UInt8) : List Op → List Res × List UInt8
  | [] => ([], q)
  | op :: ops =>
    let (r, q) := apply cap q op
    let (rs, q) := applyAll cap q ops
    (r :: rs, q)

/-- What calls of the writer with these data and these return values have written. -/
def sent (puts : List (List UInt8 × Nat)) : List UInt8 := puts.flatMap fun p => p.1.take p.2

/-- What the calls of the reader saw. -/
inductive Seen
  | bytes (d : List UInt8)
  | skipped (n : Nat)

/-- `seen`, in order, is the beginning of `l`. -/
def IsPrefix : List Seen → List UInt8 → Prop
  | [], _ => True
  | .bytes d :: s, l => d <+: l ∧ IsPrefix s (l.drop d.length)
  | .skipped n :: s, l => n ≤ l.length ∧ IsPrefix s (l.drop n)

/-- How much was seen. -/
def total : List Seen → Nat
  | [] => 0
  | .bytes d :: s => d.length + total s
  | .skipped n :: s => n + total s

end Spec.Fifo
