import Verif.Model.RecIter
/-
Model of UniConf::copy, move and remove (uniconf/uniconf.cc:95-118, include/uniconf.h:232-233).

A handle is a key in a root; the root has one generator, mounted at the top, which is called with the key as it is (what the
root does with several mounts is in Model/MountGen). The handle that is copied from and the one that is copied to may be in
roots of their own: `I` and `J` are the generators of the two roots, as operations on one state, which is that of the generator
if the roots are the same, and that of both if not. `n` bounds the number of rounds of the loop: the second result is false if
it is not over after so many.
-/
namespace Wv.Copy
open TempGen (Value)

/-- A loop over a recursive iterator (uniconf/uniconf.cc:109-110): as `RecIter.visit`, with a state that changes in each
    round. -/
def loop {σ : Type} (I : IGen σ) (body : σ → Key → σ) : Nat → σ → RecIter.It → σ × Bool
  | 0, s, _ => (s, false)
  | n + 1, s, it =>
    let r := RecIter.next I s it
    if r.2 then loop I body n (body s (RecIter.key r.1)) r.1 else (s, true)

/-- One round (uniconf/uniconf.cc:112-115). `i->fullkey(*this)` is the key of the iterator, without the key it started at
    (uniconf/uniconf.cc:44-47, include/uniconf.h:479-485). -/
def round {σ : Type} (I J : IGen σ) (src dst : Key) (force : Bool) (s : σ) (key : Key) : σ :=
  let dst2 := Key.join dst key
  if force || (J.get s dst2).isNone then J.set s dst2 (I.get s (Key.join src key)) else s

/-- `src.copy(dst, force)` (uniconf/uniconf.cc:103-118). -/
def copy {σ : Type} (I J : IGen σ) (n : Nat) (s : σ) (src dst : Key) (force : Bool) : σ × Bool :=
  let s := J.set s dst (I.get s src)
  loop I (round I J src dst force) n s (RecIter.rewind I s src)

/-- `remove` (include/uniconf.h:232-233). -/
def remove {σ : Type} (I : IGen σ) (s : σ) (key : Key) : σ := I.set s key none

/-- `src.move(dst)` (uniconf/uniconf.cc:95-100). -/
def move {σ : Type} (I J : IGen σ) (n : Nat) (s : σ) (src dst : Key) : σ × Bool :=
  let r := copy I J n (remove J s dst) src dst true
  (remove I r.1 src, r.2)

/-- Two generators side by side, each with a state of its own: the operations on the first, as far as they are used here. -/
def left {σ τ : Type} (I : IGen σ) : IGen (σ × τ) where
  get := fun s => I.get s.1
  «exists» := fun s => I.exists s.1
  haschildren := fun s => I.haschildren s.1
  iterator := fun s => I.iterator s.1
  set := fun s k v => (I.set s.1 k v, s.2)
  setv := fun s l => (I.setv s.1 l, s.2)
  commit := fun s => (I.commit s.1, s.2)
  refresh := fun s => (((I.refresh s.1).1, s.2), (I.refresh s.1).2)
  prefetch := fun s k r => (I.prefetch s.1 k r, s.2)
  flush := fun s => (I.flush s.1, s.2)

/-- And on the second. -/
def right {σ τ : Type} (I : IGen τ) : IGen (σ × τ) where
  get := fun s => I.get s.2
  «exists» := fun s => I.exists s.2
  haschildren := fun s => I.haschildren s.2
  iterator := fun s => I.iterator s.2
  set := fun s k v => (s.1, I.set s.2 k v)
  setv := fun s l => (s.1, I.setv s.2 l)
  commit := fun s => (s.1, I.commit s.2)
  refresh := fun s => ((s.1, (I.refresh s.2).1), (I.refresh s.2).2)
  prefetch := fun s k r => (s.1, I.prefetch s.2 k r)
  flush := fun s => (s.1, I.flush s.2)

end Wv.Copy
