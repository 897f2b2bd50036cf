import Verif.Spec.Addr
/-
Sockets that send datagrams: what the user did, and what arrives of it.
-/
namespace Spec.Datagram
open Wv (Byte)
open Spec.Addr (Addr)

abbrev Data := List Byte

/-- Where datagrams go: an address and a port. -/
abbrev Peer := Addr × Nat

/-- What the user of a UDP socket does, as far as it decides what is to be sent. -/
inductive Act where
  | write (d : Data)
  /-- something came from this peer -/
  | came (p : Peer)
  | setdest (p : Peer)
  | nothing

/-- Each write is a datagram to the last peer that was set or heard of; to 0.0.0.0 nothing is sent, and empty ones are not sent. -/
def expected (p : Peer) : List Act → List (Peer × Data)
  | [] => []
  | .write d :: l => (if p.1 = ⟨0, 0, 0, 0⟩ ∨ d = [] then [] else [(p, d)]) ++ expected p l
  | .came q :: l => expected q l
  | .setdest q :: l => expected q l
  | .nothing :: l => expected p l

/-- The peer after all of it. -/
def peer (p : Peer) : List Act → Peer
  | [] => p
  | .write _ :: l => peer p l
  | .came q :: l => peer q l
  | .setdest q :: l => peer q l
  | .nothing :: l => peer p l

end Spec.Datagram
