/-
Model of WvMatrix (utils/wvmatrix.cc, include/wvmatrix.h) but for `printable`. The sizes are natural numbers, and that `m * n` is too large for an
`int` is left out. `none` is undefined behaviour: reading or writing outside of the memory, reading what was freed, an `int` that overflows.
-/
namespace Wv.Matrix

/-- `data` is all the memory that was allocated. -/
structure Mat where
  m : Nat
  n : Nat
  data : List Int
deriving DecidableEq

/-- The result of arithmetic on `int`. -/
def int (x : Int) : Option Int := if -2147483648 ≤ x ∧ x ≤ 2147483647 then some x else none

/-- `memcpy` of `k` entries into new memory of `size` entries; what is not copied is not initialised, for which zeros stand. -/
def memcpy (size k : Nat) (src : List Int) : Option (List Int) :=
  if k ≤ size ∧ k ≤ src.length then some (src.take k ++ List.replicate (size - k) 0) else none

/-- The constructor (utils/wvmatrix.cc:3-20). -/
def make (m n : Nat) (src : Option (List Int)) : Option Mat :=
  if m = 0 ∨ n = 0 then some ⟨m, n, []⟩
  else match src with
    | some l => (memcpy (m * n) (m * n) l).map fun d => ⟨m, n, d⟩
    | none => some ⟨m, n, List.replicate (m * n) 0⟩

/-- The copy constructor (utils/wvmatrix.cc:29-34). -/
def copy (a : Mat) : Option Mat := (memcpy (a.m * a.n) (a.m * a.n) a.data).map fun d => ⟨a.m, a.n, d⟩

/-- `operator=` (utils/wvmatrix.cc:37-47) from another matrix: the memory has the old size. -/
def assign (a b : Mat) : Option Mat := (memcpy (a.m * a.n) (b.m * b.n) b.data).map fun d => ⟨b.m, b.n, d⟩

/-- `operator=` from itself: what is copied was freed; nothing is read if there is nothing. -/
def assignSelf (a : Mat) : Option Mat := if a.m * a.n = 0 then some ⟨a.m, a.n, []⟩ else none

/-- `operator()` (include/wvmatrix.h:23-26), to read. -/
def Mat.get (a : Mat) (i j : Nat) : Option Int := a.data[a.n * i + j]?

/-- `operator()` (include/wvmatrix.h:23-24), to write. -/
def Mat.put (a : Mat) (i j : Nat) (v : Int) : Option Mat :=
  if a.n * i + j < a.data.length then some { a with data := a.data.set (a.n * i + j) v } else none

/-- `res.data[i] += data[i]` (utils/wvmatrix.cc:58). -/
def addAt (a res : Mat) (i : Nat) : Option Mat :=
  match res.data[i]?, a.data[i]? with
  | some x, some y => (int (x + y)).map fun z => { res with data := res.data.set i z }
  | _, _ => none

/-- `operator+` (utils/wvmatrix.cc:50-61). -/
def add (a b : Mat) : Option Mat :=
  (copy b).bind fun res =>
    if a.m ≠ b.m ∨ a.n ≠ b.n then some res
    else (List.range (a.m * a.n)).foldlM (addAt a) res

/-- `c += (*this)(i, k) * rhs(k, j)` (utils/wvmatrix.cc:79). -/
def mulAt (a b : Mat) (i j : Nat) (c : Int) (k : Nat) : Option Int :=
  match a.get i k, b.get k j with
  | some x, some y => (int (x * y)).bind fun p => int (c + p)
  | _, _ => none

/-- Lines 77-80 of `operator*`. -/
def cell (a b : Mat) (i j : Nat) (res : Mat) : Option Mat :=
  ((List.range a.n).foldlM (mulAt a b i j) 0).bind fun c => res.put i j c

/-- `operator*` (utils/wvmatrix.cc:64-84). -/
def mul (a b : Mat) : Option Mat :=
  (make a.m b.n none).bind fun res =>
    if a.n ≠ b.m then some res
    else (List.range res.m).foldlM (fun r i => (List.range res.n).foldlM (fun r j => cell a b i j r) r) res

end Wv.Matrix
