import Verif.Model.Basic
/-
Model of how a WvDBusConn gets messages from, and puts messages to, a byte stream: dbus/wvdbusmarshal.cc, dbus/wvdbusconn.cc. The functions of libdbus are
parameters. What the callbacks do is not modelled, nor are authentication and timeouts. The stream gives what the kernel has, as much as it wants to.
-/
namespace Wv.BusWire
open Wv

/-- libdbus: `dbus_message_demarshal_bytes_needed`, `dbus_message_demarshal` (of exactly one message), `dbus_message_marshal`. -/
structure Lib (M : Type) where
  needed : List Byte → Int
  parse : List Byte → Option M
  bytes : M → List Byte

/-- `DBUS_MINIMUM_HEADER_SIZE`. -/
def minHeader : Nat := 16

section
variable {M : Type} (L : Lib M)

/-- `wvdbus_message_length` (dbus/wvdbusmarshal.cc:15-24). -/
def messageLength (b : List Byte) : Nat :=
  let n := L.needed b
  if n > 0 then n.toNat else if n = 0 then minHeader else 0

/-- `WvDBusMsg::demarshal` (dbus/wvdbusmarshal.cc:27-67): the message, or NULL; what is left in the buffer. -/
def demarshal (b : List Byte) : Option M × List Byte :=
  let n := messageLength L b
  if n = 0 then (none, [])
  else if n > b.length then (none, b)
  else (L.parse (b.take n), b.drop n)

/-- The inner loop of `post_select` (dbus/wvdbusconn.cc:457-463): what is delivered, and what is left. Each time the buffer gets shorter. -/
def drain : Nat → List Byte → List M × List Byte
  | 0, b => ([], b)
  | n + 1, b =>
    match demarshal L b with
    | (some m, r) => (m :: (drain n r).1, (drain n r).2)
    | (none, r) => ([], r)

/-- `in_queue`, what the stream can give, what was delivered. -/
structure St (M : Type) where
  inq : List Byte
  avail : List Byte
  delivered : List M

/-- How much is asked for (dbus/wvdbusconn.cc:452-455); `size_t` wraps. -/
def amount (inq : List Byte) : Nat :=
  let amt := (messageLength L inq + 2 ^ 64 - inq.length) % 2 ^ 64
  if amt < 4096 then 4096 else amt

/-- The outer loop of `post_select` (dbus/wvdbusconn.cc:444-464), if there is something to read. The list says how much each `read` gives, at most. The first
    argument limits how often: each time but the last a message is taken out. -/
def loop : Nat → List Nat → St M → St M
  | 0, _, s => s
  | f + 1, os, s =>
    let k := min (min (os.headD 0) (amount L s.inq)) s.avail.length
    let b := s.inq ++ s.avail.take k
    let d := drain L (b.length + 1) b
    let s : St M := ⟨d.2, s.avail.drop k, s.delivered ++ d.1⟩
    match d.1 with
    | [] => s
    | _ :: _ => loop f os.tail s

/-- What happens: bytes arrive; `post_select`. -/
inductive Ev where
  | arrive (b : List Byte)
  | poll (os : List Nat)

def step (s : St M) : Ev → St M
  | .arrive b => { s with avail := s.avail ++ b }
  | .poll os => loop L (s.inq.length + s.avail.length + 1) os s

def run (evs : List Ev) : St M := evs.foldl (step L) ⟨[], [], []⟩

/-- All that arrived. -/
def arrived : List Ev → List Byte
  | [] => []
  | .arrive b :: r => b ++ arrived r
  | .poll _ :: r => arrived r

/-- The sending side: `out_queue`, `authorized`, and what the stream took. -/
structure Out where
  outq : List Byte
  authorized : Bool
  written : List Byte

/-- `send` (dbus/wvdbusconn.cc:194-205), `try_auth` when it succeeds (dbus/wvdbusconn.cc:273-287). The stream takes up to `k` bytes of the queue; the rest stays there. -/
inductive Send (M : Type) where
  | send (m : M) (k : Nat)
  | auth (k : Nat)

def write (o : Out) (k : Nat) : Out := { o with written := o.written ++ o.outq.take k, outq := o.outq.drop k }

def sstep (o : Out) : Send M → Out
  | .send m k =>
    let o := { o with outq := o.outq ++ L.bytes m }
    if o.authorized then write o k else o
  | .auth k => { (if o.outq ≠ [] then write o k else o) with authorized := true }

def sends (l : List (Send M)) : Out := l.foldl (sstep L) ⟨[], false, []⟩

end

/-- The messages sent. -/
def sent {M : Type} : List (Send M) → List M
  | [] => []
  | .send m _ :: r => m :: sent r
  | .auth _ :: r => sent r

end Wv.BusWire
