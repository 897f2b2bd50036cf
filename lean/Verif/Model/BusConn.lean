import Verif.Spec.BusCalls
/-
Model of the requests of a `WvDBusConn` (dbus/wvdbusconn.cc).

Simplifications: messages are their numbers; reading and decoding are left out (a message arrives whole); numbers are not limited to
32 bits; the functions of the program are events: what they do happens while they are on the stack. The hash table of requests is a list: only the
order of requests with the same number matters, and these are in the same slot, in the order they were added. `none` is a use of
freed memory.
-/
namespace Wv.BusConn
open Spec.BusCalls (In Event Outcome Effect)

/-- A `Pending` (include/wvdbusconn.h:223-239). -/
structure Req where
  id : Nat
  serial : Nat
  deadline : Nat
  deriving DecidableEq, Repr

/-- A function of the program that runs, and what is to be done when it returns. -/
inductive Frame where
  /-- `p->cb(msg)` in `filter_func` (dbus/wvdbusconn.cc:339). -/
  | reply (p : Req)
  /-- `xcb(e)` in `cancel_pending`, called by `add_pending` for this request (dbus/wvdbusconn.cc:502, 513). -/
  | cancel (r : Req)
  /-- `i->cb(msg)` in `filter_func` (dbus/wvdbusconn.cc:349), with the filters that come after it. -/
  | filters (m : In) (rest : List Nat)

/-- A `WvDBusConn`: `pending`, `callbacks` (with their priorities), and `global_serial` (dbus/wvdbusmarshal.cc:87). -/
structure Conn where
  pending : List Req := []
  callbacks : List (Nat × Nat) := []
  serial : Nat := 1000
  next : Nat := 0
  stack : List Frame := []
  closed : Bool := false

/-- `pending[serial]`. -/
def Conn.find (c : Conn) (serial : Nat) : Option Req := c.pending.find? (·.serial == serial)

/-- `pending.remove(p)` (include/wvhashtable.h:237-242): the first one with the same number. -/
def Conn.remove (c : Conn) (p : Req) : Conn := { c with pending := c.pending.eraseP (·.serial == p.serial) }

/-- `in_post_select`: the connection is inside of `post_select`, which calls `filter_func`. -/
def Conn.selecting (c : Conn) : Bool := c.stack.any fun | .cancel _ => false | _ => true

/-- The loop over the filters (dbus/wvdbusconn.cc:345-351). -/
def Conn.filter (c : Conn) (m : In) : List Nat → Conn × List Effect
  | [] => (c, [])
  | f :: rest => ({ c with stack := .filters m rest :: c.stack }, [.filter f m])

/-- `add_pending` (dbus/wvdbusconn.cc:507-516) up to the call of the function of the request that is cancelled (`cancel_pending`,
    dbus/wvdbusconn.cc:492-504), if there is one. -/
def Conn.addPending (c : Conn) (r : Req) : Conn × List Effect :=
  match c.find r.serial with
  | some p => ({ c.remove p with stack := .cancel r :: c.stack }, [.called p.id .cancelled])
  | none => ({ c with pending := c.pending ++ [r] }, [])

/-- One event: `send` (dbus/wvdbusconn.cc:194-214; `marshal`, dbus/wvdbusmarshal.cc:83-99); a message in `post_select`, given to
    `filter_func` (dbus/wvdbusconn.cc:328-354, 443-465); the return of a function; the expiry of requests in `post_select`
    (dbus/wvdbusconn.cc:428-441), where `expire_pending` uses `p->msg` of the `p` that `pending.remove(p)` has deleted
    (dbus/wvdbusconn.cc:479-489). While the connection is inside of `post_select` it reads nothing and looks at no clock.
    `close` (dbus/wvdbusconn.cc:168-173) does nothing about the requests, and `post_select` is not called any more. `sort` is the sorting of the filters by priority (`WvListSorter`, `qsort`). -/
def Conn.step (sort : List (Nat × Nat) → List (Nat × Nat)) (c : Conn) : Event → Option (Conn × List Effect)
  | .send serial fn deadline =>
    let (serial, c) := if serial = 0 then (c.serial + 1, { c with serial := c.serial + 1 }) else (serial, c)
    if fn then
      let id := c.next
      let (c, l) := { c with next := c.next + 1 }.addPending { id, serial, deadline }
      some (c, .sent serial (some id) :: l)
    else some (c, [.sent serial none])
  | .recv m =>
    if c.closed || c.selecting then some (c, [])
    else
      match if m.reply = 0 then none else c.find m.reply with
      | some p => some ({ c with stack := .reply p :: c.stack }, [.called p.id (.answer m)])
      | none => some (c.filter m ((sort c.callbacks).map (·.2)))
  | .ret handled =>
    match c.stack with
    | [] => some (c, [])
    | .reply p :: st => if p ∈ c.pending then some ({ c with stack := st }.remove p, []) else none
    | .cancel r :: st => some ({ c with stack := st, pending := c.pending ++ [r] }, [])
    | .filters m rest :: st => if handled then some ({ c with stack := st }, []) else some ({ c with stack := st }.filter m rest)
  | .poll now =>
    if c.closed || c.selecting then some (c, [])
    else if c.pending.any (·.deadline < now) then none
    else some (c, [])
  | .close => some ({ c with closed := true }, [])

/-- Everything that happens, from a connection with these filters on. -/
def Conn.run (sort : List (Nat × Nat) → List (Nat × Nat)) (c : Conn) : List Event → Option (Conn × List Effect)
  | [] => some (c, [])
  | e :: es => (c.step sort e).bind fun (c, l) => (Conn.run sort c es).map fun (c, k) => (c, l ++ k)

end Wv.BusConn
