import Verif.Spec.FdStream
/- What goes through joined descriptors, independent of the model. -/
namespace Spec.Loopback
open Wv
open Spec.FdStream (Ev)

/-- All bytes that were written to descriptors. -/
def sent : List Ev → List Byte
  | [] => []
  | .wrote _ b :: l => b ++ sent l
  | _ :: l => sent l

/-- All bytes that came from descriptors. -/
def received : List Ev → List Byte
  | [] => []
  | .got _ b :: l => b ++ received l
  | _ :: l => received l

/-- The system keeps what was sent on one side and not received on the other, in order. -/
def Holds (here there : List Ev) (q : List Byte) : Prop := sent here = received there ++ q

end Spec.Loopback
