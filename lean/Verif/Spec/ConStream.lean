import Verif.Spec.FdStream
/- What a program sees of the console streams, independent of the model. -/
namespace Spec.ConStream
open Spec.FdStream (Ev)
open Wv

/-- All bytes that reached descriptors. -/
def written : List Ev → List Byte
  | [] => []
  | .wrote _ b :: l => b ++ written l
  | _ :: l => written l

/-- Nothing ends a descriptor. -/
def Keeps (l : List Ev) : Prop := ∀ d, Ev.closed d ∉ l ∧ Ev.shutR d ∉ l ∧ Ev.shutW d ∉ l

end Spec.ConStream
