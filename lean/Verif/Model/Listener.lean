import Verif.Spec.Listener
/-!
Listeners: ipstreams/wvlistener.cc and `WvUnixListener` in ipstreams/wvunixsocket.cc, with a file system and the kernel's queues of
connections as far as they are used. Nobody else changes the file system. `WvTCPListener` (ipstreams/wvtcp.cc:405-460) differs in
that it has no file.
-/
namespace Wv.Listener
open Spec.Listener (Peer Ev)

abbrev Path := List Byte

/-- What is at a path: a socket (of the listener with that number, and its mode), or another file. -/
inductive Node where
  | sock (i : Nat) (mode : Nat)
  | file
deriving DecidableEq, Repr

/-- `WvListener` (include/wvlistener.h:17-24) and `WvUnixListener`: `ok` is that no error was set, `live` that the descriptor is open and
    listening, `queue` the kernel's queue for it. A wrapper is what it wraps in, the innermost first. -/
structure Lst where
  path : Path
  ok : Bool
  bound : Bool
  live : Bool
  queue : List Peer
  acceptor : Option Nat
  wrapper : Option (List Nat)
deriving DecidableEq, Repr

structure World where
  fs : Path → Option Node
  umask : Nat
  l : Nat → Option Lst
  next : Nat
  log : List Ev

/-- Change one value of a function. -/
def upd {α β : Type} [DecidableEq α] (f : α → β) (a : α) (b : β) : α → β := fun x => if x = a then b else f x

/-- The listener a connection to a path goes to, if there is one and there is room: a queue is full with more than 50 (the second
    argument of `listen`, ipstreams/wvunixsocket.cc:181). -/
def World.listening (w : World) (p : Path) : Option (Nat × Lst) :=
  match w.fs p with
  | some (.sock i _) =>
    match w.l i with
    | some s => if s.live && s.queue.length ≤ 50 then some (i, s) else none
    | none => none
  | _ => none

/-- `connect`: whether it succeeds. -/
def World.connect (w : World) (p : Path) (c : Peer) : World × Bool :=
  match w.listening p with
  | some (i, s) => ({ w with l := upd w.l i (some { s with queue := s.queue ++ [c] }), log := w.log ++ [.arrived i c] }, true)
  | none => (w, false)

/-- `umask(m)`: the new state and the old mask. -/
def World.setmask (w : World) (m : Nat) : World × Nat := ({ w with umask := m }, w.umask)

/-- `bind` and `listen`: the mode of the socket is what the mask leaves of 0777. It fails if there is something at the path, or for other
    reasons (`can`). -/
def World.bind (w : World) (p : Path) (i : Nat) (can : Bool) : World × Bool :=
  if can ∧ w.fs p = none then ({ w with fs := upd w.fs p (some (.sock i (0o777 &&& (0o777 ^^^ (w.umask &&& 0o777))))) }, true) else (w, false)

/-- `unlink`. -/
def World.unlink (w : World) (p : Path) : World := { w with fs := upd w.fs p none }

/-- `WvUnixListener::WvUnixListener` (ipstreams/wvunixsocket.cc:146-190). `~create_mode & 0777` is computed with 9 bits. -/
def World.create (w : World) (p : Path) (create_mode : Nat) (can : Bool) : World :=
  let i := w.next
  let w := { w with next := i + 1 }
  let r := w.connect p (.probe i)
  if r.2 then { r.1 with l := upd r.1.l i (some ⟨p, false, false, false, [], none, none⟩) }
  else
    let m := r.1.setmask 0o777
    let w := (m.1.setmask (m.2 ||| (0o777 ^^^ (create_mode &&& 0o777)))).1
    let w := w.unlink p
    let b := w.bind p i can
    let w := { b.1 with l := upd b.1.l i (some ⟨p, b.2, b.2, b.2, [], none, none⟩) }
    (w.setmask m.2).1

/-- `WvUnixListener::close` (ipstreams/wvunixsocket.cc:199-211). -/
def World.close (w : World) (i : Nat) : World :=
  match w.l i with
  | some s =>
    let w := if s.bound then w.unlink s.path else w
    { w with l := upd w.l i (some { s with live := false, queue := [] }) }
  | none => w

/-- The destructor (ipstreams/wvunixsocket.cc:193-196). -/
def World.destroy (w : World) (i : Nat) : World :=
  let w := w.close i
  { w with l := upd w.l i none }

/-- `addwrap` (ipstreams/wvlistener.cc:54-65): `wrapper_runner` (:46-50) calls the new wrapper only. -/
def Lst.addwrap (s : Lst) (x : Nat) : Lst :=
  { s with wrapper := match s.wrapper with
    | some _ => some [x]
    | none => some [x] }

/-- `wrap` (ipstreams/wvlistener.cc:78-84). -/
def Lst.wrap (s : Lst) : List Nat := s.wrapper.getD []

/-- `accept` (ipstreams/wvunixsocket.cc:214-231); `fail`: the system answers with an error. -/
def Lst.accept (s : Lst) (fail : Bool) : Lst × Option (Peer × List Nat) :=
  if !(s.ok && s.live) then (s, none)
  else if fail then ({ s with ok := false }, none)
  else
    match s.queue with
    | [] => (s, none)
    | p :: q => ({ s with queue := q }, some (p, s.wrap))

/-- `callback` (ipstreams/wvlistener.cc:68-75). -/
def World.callback (w : World) (i : Nat) (fail : Bool) : World :=
  match w.l i with
  | some s =>
    match s.acceptor with
    | some a =>
      let r := s.accept fail
      let w := { w with l := upd w.l i (some r.1) }
      match r.2 with
      | some (p, x) => { w with log := w.log ++ [.given i a p x] }
      | none => w
    | none => w
  | none => w

/-- What is done with listeners. `onaccept` is ipstreams/wvlistener.cc:87-92. -/
inductive Op where
  | create (p : Path) (mode : Nat) (can : Bool)
  | close (i : Nat)
  | destroy (i : Nat)
  | addwrap (i : Nat) (x : Nat)
  | onaccept (i : Nat) (a : Option Nat)
  | callback (i : Nat) (fail : Bool)
  | connect (p : Path) (n : Nat)
  | setmask (m : Nat)
deriving DecidableEq

def World.step (w : World) : Op → World
  | .create p m can => w.create p m can
  | .close i => w.close i
  | .destroy i => w.destroy i
  | .addwrap i x => match w.l i with
    | some s => { w with l := upd w.l i (some (s.addwrap x)) }
    | none => w
  | .onaccept i a => match w.l i with
    | some s => { w with l := upd w.l i (some { s with acceptor := a }) }
    | none => w
  | .callback i fail => w.callback i fail
  | .connect p n => (w.connect p (.client n)).1
  | .setmask m => { w with umask := m }

/-- No listeners yet. -/
def begin (fs : Path → Option Node) (mask : Nat) : World := ⟨fs, mask, fun _ => none, 0, []⟩

end Wv.Listener
