import Verif.Model.Chain
import Verif.Spec.Chunks
/- Vocabulary for C09. -/
namespace Spec.Chain
open Wv
universe u
variable {σ : Type u}

/-- The encoder only ever adds at the end of the output buffer, and does not look at what is already there. -/
structure AppendOnly (I : EncImpl σ) : Prop where
  encode : ∀ e inb out fl, I.encode' e ⟨inb, out⟩ fl =
    ((I.encode' e ⟨inb, []⟩ fl).1, ⟨(I.encode' e ⟨inb, []⟩ fl).2.1.inb, out ++ (I.encode' e ⟨inb, []⟩ fl).2.1.out⟩,
      (I.encode' e ⟨inb, []⟩ fl).2.2)
  finish : ∀ e inb out, I.finish' e ⟨inb, out⟩ =
    ((I.finish' e ⟨inb, []⟩).1, ⟨(I.finish' e ⟨inb, []⟩).2.1.inb, out ++ (I.finish' e ⟨inb, []⟩).2.1.out⟩,
      (I.finish' e ⟨inb, []⟩).2.2)

/-- Run alone on `data`, cut in any way in calls of `encode` whose flush flags satisfy `P`, and then `finish()`, the
    encoder writes `F data`, provided `D data`. -/
def Computes (P : List Bool → Prop) (I : EncImpl σ) (e : Enc σ) (D : List Byte → Prop) (F : List Byte → List Byte) :
    Prop :=
  ∀ cs : List (List Byte × Bool), P (cs.map Prod.snd) → D (flat cs) → (I.run e cs).2.1.out = F (flat cs)

/-- The functions computed by the elements of a chain, applied one after the other. -/
def composed : List (List Byte → List Byte) → List Byte → List Byte
  | [], x => x
  | F :: Fs, x => composed Fs (F x)

/-- Each element computes its function on a set that holds everything the previous ones produce. -/
inductive Stages (P : List Bool → Prop) : List Chain.Elem → (List Byte → Prop) → List (List Byte → List Byte) → Prop
  | nil (D) : Stages P [] D []
  | cons (x : Chain.Elem) (xs D D' F Fs) (hout : x.out = []) (hf : AppendOnly x.I) (hc : Computes P x.I x.e D F)
      (hD : ∀ d, D d → D' (F d)) (h : Stages P xs D' Fs) : Stages P (x :: xs) D (F :: Fs)

end Spec.Chain
