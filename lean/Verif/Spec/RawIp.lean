import Verif.Spec.Addr
/- Packets of an IP protocol: what the user of a socket does, and what is to be sent. -/
namespace Spec.RawIp
open Wv (Byte)
open Spec.Addr (Addr)

/-- What happens, as far as it decides what is to be sent. -/
inductive Act where
  | write (d : List Byte)
  /-- a packet came from this address -/
  | came (p : Addr)
  | nothing

/-- Each write is a packet to the address that was heard of last; empty ones are not sent. -/
def expected (p : Addr) : List Act → List (Addr × List Byte)
  | [] => []
  | .write d :: l => (if d = [] then [] else [(p, d)]) ++ expected p l
  | .came q :: l => expected q l
  | .nothing :: l => expected p l

/-- The address after all of it. -/
def last (p : Addr) : List Act → Addr
  | [] => p
  | .came q :: l => last q l
  | _ :: l => last p l

end Spec.RawIp
