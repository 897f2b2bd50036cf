import Verif.Model.Basic
/-
What is expected of zlib: `deflate` and `inflate` take some of the input and give some output, as much as there is room for. This is a contract (`Codec`): zlib is not
modelled. `ret` stands for Z_OK, Z_BUF_ERROR, Z_STREAM_END and any other result.
-/
namespace Spec.Gzip
open Wv (Byte)

inductive Flush where
  | none
  | sync
  | full
  | finish
  deriving DecidableEq

inductive Ret where
  | ok
  | buf
  | fin
  | err
  deriving DecidableEq

/-- What a call did: how many bytes it took, what it wrote, what it returned. -/
structure Zres (σ : Type) where
  st : σ
  used : Nat
  out : List Byte
  ret : Ret

/-- One direction of zlib: the call with a flush mode, input, and room for the output. `bound` limits how often it can be called with success while nothing is added. -/
structure Zlib (σ : Type) where
  init : σ
  call : σ → Flush → List Byte → Nat → Zres σ
  bound : σ → Flush → List Byte → Nat

/-- It takes no more than there is, and writes no more than there is room for. -/
def Zlib.Sane {σ : Type} (Z : Zlib σ) : Prop := ∀ s f inp room, (Z.call s f inp room).used ≤ inp.length ∧ (Z.call s f inp room).out.length ≤ room

/-- Calls one after the other: what was taken altogether, what was written altogether, whether the end was asked for, the last result. -/
inductive Zlib.Run {σ : Type} (Z : Zlib σ) : List Byte → List Byte → σ → Bool → Ret → Prop where
  | init : Run Z [] [] Z.init false .ok
  | call {x y s g r} (f inp room) (h : Run Z x y s g r) :
    Run Z (x ++ inp.take (Z.call s f inp room).used) (y ++ (Z.call s f inp room).out) (Z.call s f inp room).st (g || f == .finish) (Z.call s f inp room).ret

/-- What zlib promises of `deflate` and `inflate` together. -/
structure Codec {δ ι : Type} (D : Zlib δ) (I : Zlib ι) : Prop where
  dsane : D.Sane
  isane : I.Sane
  /-- `deflate` has success as long as there is anything to do and room for it -/
  dcall : ∀ x y s g r f inp room, D.Run x y s g r → g = false → r ≠ .err → f ≠ .finish → 0 < room →
    let z := D.call s f inp room
    (z.ret = .ok ∧ D.bound z.st f (inp.drop z.used) < D.bound s f inp) ∨ (z.ret = .buf ∧ inp = [] ∧ z.out = [])
  /-- and comes to the end if told so -/
  dfin : ∀ x y s g r room, D.Run x y s g r → r ≠ .fin → r ≠ .err → 0 < room →
    let z := D.call s .finish [] room
    (z.ret = .ok ∧ D.bound z.st .finish [] < D.bound s .finish []) ∨ z.ret = .fin
  /-- having written something -/
  dout : ∀ x y d f', D.Run x y d f' .fin → y ≠ []
  /-- `inflate` of what `deflate` made (and whatever follows) gives what was put in, and then says that it is at the end -/
  icall : ∀ x y d f', D.Run x y d f' .fin → ∀ t p o s g r, I.Run p o s g r → r ≠ .fin → r ≠ .err → p <+: y → ∀ f inp room, f ≠ .finish → p ++ inp <+: y ++ t →
    let z := I.call s f inp room
    p ++ inp.take z.used <+: y ∧ o ++ z.out <+: x ∧
    ((z.ret = .ok ∧ I.bound z.st f (inp.drop z.used) < I.bound s f inp) ∨
     (z.ret = .buf ∧ z.used = 0 ∧ z.out = [] ∧ (0 < room → inp = [] ∧ p ≠ y)) ∨
     (z.ret = .fin ∧ p ++ inp.take z.used = y ∧ o ++ z.out = x))
  /-- after which it takes nothing more -/
  iend : ∀ p o s g, I.Run p o s g .fin → ∀ f inp room, f ≠ .finish →
    I.call s f inp room = ⟨s, 0, [], .fin⟩

end Spec.Gzip
