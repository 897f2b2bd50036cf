import Verif.Spec.Bus
import Verif.Model.Num
/-
Model of `WvDBusServer` (dbus/wvdbusserver.cc), with what it uses of `WvDBusConn` and `WvDBusMsg`.

Simplifications: connections are numbers, messages are records (libdbus is not modelled, nor the coding of messages); the
handshake is left out: what is sent before it is over waits in a queue and is sent then; texts of errors are left out; strings
that are NULL are empty. The server is a step function: what a connection sends or that it closed is an event, the result is the
list of what is sent. `none` is a failed assertion. What is outside of the
server (the user and the certificate of a connection, the names of users, fingerprints) is the `Env`.
-/
namespace Wv.Bus
open Spec.Bus (Bytes Kind Val Msg Event Env)

/-- A `WvDBusServer` (include/wvdbusserver.h:90-91): `all_conns`, `name_to_conn` (an association list; `none` is NULL); and
    `conncount` (dbus/wvdbusconn.cc:110), `global_serial` (dbus/wvdbusmarshal.cc:87), and which connections are closed. -/
structure Server where
  conns : List Nat := []
  names : List (Bytes × Option Nat) := []
  count : Nat := 0
  serial : Nat := 1000
  closed : List Nat := []

/-- The name set in `init` (dbus/wvdbusconn.cc:141): `":%s.0"`. -/
def uniquename (c : Nat) : Bytes := ch ':' :: (Num.ofUnsigned c ++ [ch '.', ch '0'])

/-- `name_to_conn[name]`; an entry that is not there is made, with NULL. -/
def Server.at (s : Server) (name : Bytes) : Option Nat × Server :=
  match s.names.lookup name with
  | some c => (c, s)
  | none => (none, { s with names := (name, none) :: s.names })

/-- `name_to_conn.find(name)`, or NULL. -/
def Server.find (s : Server) (name : Bytes) : Option Nat := (s.names.lookup name).join

/-- `name_to_conn.erase(name)`. -/
def Server.erase (s : Server) (name : Bytes) : Server := { s with names := s.names.filter (·.1 != name) }

/-- `register_name` (dbus/wvdbusserver.cc:169-172). -/
def Server.registerName (s : Server) (name : Bytes) (c : Nat) : Server :=
  { s with names := (name, some c) :: s.names.filter (·.1 != name) }

/-- `unregister_name` (dbus/wvdbusserver.cc:175-179). -/
def Server.unregisterName (s : Server) (name : Bytes) (c : Nat) : Option Server :=
  let (x, s) := s.at name
  if x = some c then some (s.erase name) else none

/-- The loop of `unregister_conn` (dbus/wvdbusserver.cc:184-196): from the beginning again after each name; `n` is a bound. -/
def Server.eraseConn (s : Server) (c : Nat) : Nat → Server
  | 0 => s
  | n + 1 =>
    match s.names.find? (·.2 == some c) with
    | some (name, _) => (s.erase name).eraseConn c n
    | none => s

/-- `unregister_conn` (dbus/wvdbusserver.cc:182-199); the loop is run at most once for each name. -/
def Server.unregisterConn (s : Server) (c : Nat) : Server :=
  let s := s.eraseConn c s.names.length
  { s with conns := s.conns.erase c }

/-- `send` (dbus/wvdbusconn.cc:194-205) to a connection: nothing comes through one that is closed. -/
def Server.send (s : Server) (c : Nat) (m : Msg) : List (Nat × Msg) := if c ∈ s.closed then [] else [(c, m)]

/-- `marshal` (dbus/wvdbusmarshal.cc:83-99) of a new message: it gets a number. -/
def Server.number (s : Server) (m : Msg) : Msg × Server := ({ m with serial := s.serial + 1 }, { s with serial := s.serial + 1 })

/-- `reply()` (dbus/wvdbusmsg.cc:629-632, 647-651, `dbus_message_new_method_return`). -/
def reply (m : Msg) (args : List Val) : Msg := { kind := .ret, serial := 0, reply := m.serial, dest := m.sender, args := args }

/-- `WvDBusError` (dbus/wvdbusmsg.cc:662-671, `dbus_message_new_error`). -/
def error (m : Msg) (name : Bytes) : Msg := { kind := .err, serial := 0, reply := m.serial, dest := m.sender, error := name }

def sBus : Bytes := str ['o', 'r', 'g', '.', 'f', 'r', 'e', 'e', 'd', 'e', 's', 'k', 't', 'o', 'p', '.', 'D', 'B', 'u', 's']
def sLocal : Bytes :=
  str ['/', 'o', 'r', 'g', '/', 'f', 'r', 'e', 'e', 'd', 'e', 's', 'k', 't', 'o', 'p', '/', 'D', 'B', 'u', 's', '/', 'L', 'o', 'c', 'a', 'l']
def sDisconnected : Bytes := str ['D', 'i', 's', 'c', 'o', 'n', 'n', 'e', 'c', 't', 'e', 'd']
def sHello : Bytes := str ['H', 'e', 'l', 'l', 'o']
def sRequestName : Bytes := str ['R', 'e', 'q', 'u', 'e', 's', 't', 'N', 'a', 'm', 'e']
def sReleaseName : Bytes := str ['R', 'e', 'l', 'e', 'a', 's', 'e', 'N', 'a', 'm', 'e']
def sNameHasOwner : Bytes := str ['N', 'a', 'm', 'e', 'H', 'a', 's', 'O', 'w', 'n', 'e', 'r']
def sGetNameOwner : Bytes := str ['G', 'e', 't', 'N', 'a', 'm', 'e', 'O', 'w', 'n', 'e', 'r']
def sAddMatch : Bytes := str ['A', 'd', 'd', 'M', 'a', 't', 'c', 'h']
def sStart : Bytes :=
  str ['S', 't', 'a', 'r', 't', 'S', 'e', 'r', 'v', 'i', 'c', 'e', 'B', 'y', 'N', 'a', 'm', 'e']
def sUnixUser : Bytes :=
  str ['G', 'e', 't', 'C', 'o', 'n', 'n', 'e', 'c', 't', 'i', 'o', 'n', 'U', 'n', 'i', 'x', 'U', 's', 'e', 'r']
def sUnixUserName : Bytes := sUnixUser ++ str ['N', 'a', 'm', 'e']
def sCert : Bytes := str ['G', 'e', 't', 'C', 'o', 'n', 'n', 'e', 'c', 't', 'i', 'o', 'n', 'C', 'e', 'r', 't']
def sCertFingerprint : Bytes := sCert ++ str ['F', 'i', 'n', 'g', 'e', 'r', 'p', 'r', 'i', 'n', 't']
def sError : Bytes := sBus ++ str ['.', 'E', 'r', 'r', 'o', 'r', '.']
def sNoOwner : Bytes := sError ++ str ['N', 'a', 'm', 'e', 'H', 'a', 's', 'N', 'o', 'O', 'w', 'n', 'e', 'r']
def sFailed : Bytes := sError ++ str ['F', 'a', 'i', 'l', 'e', 'd']
def sUnknown : Bytes := sError ++ str ['U', 'n', 'k', 'n', 'o', 'w', 'n', 'M', 'e', 't', 'h', 'o', 'd']

/-- The first argument, by `args.getnext()` (dbus/wvdbusmsg.cc:120-157). -/
def arg (m : Msg) : Bytes :=
  match m.args with
  | [] => []
  | .text s :: _ => s
  | .num n :: _ => Num.ofUnsigned n
  | .flag b :: _ => Num.ofUnsigned b.toNat

/-- What is answered to a call of the bus, and the new state (dbus/wvdbusserver.cc:219-367). -/
def Server.answer (e : Env) (s : Server) (c : Nat) (m : Msg) : Option (Msg × Server) :=
  if m.member = sHello then some (reply m [.text (uniquename c)], s)
  else if m.member = sRequestName then some (reply m [.num 1], s.registerName (arg m) c)
  else if m.member = sReleaseName then (s.unregisterName (arg m) c).map fun s => (reply m [.num 1], s)
  else if m.member = sNameHasOwner then
    let (x, s) := s.at (arg m)
    some (reply m [.flag x.isSome], s)
  else if m.member = sGetNameOwner then
    let (x, s) := s.at (arg m)
    match x with
    | some d => some (reply m [.text (uniquename d)], s)
    | none => some (error m sNoOwner, s)
  else if m.member = sAddMatch then some (reply m [], s)
  else if m.member = sStart then some (reply m [], s)
  else if m.member = sUnixUser ∨ m.member = sUnixUserName then
    let (x, s) := s.at (arg m)
    match x.bind e.uid with
    | none => some (error m sFailed, s)
    | some uid =>
      if m.member = sUnixUser then some (reply m [.num uid], s)
      else
        match e.user uid with
        | some name => some (reply m [.text name], s)
        | none => some (error m sFailed, s)
  else if m.member = sCert ∨ m.member = sCertFingerprint then
    let (x, s) := s.at (arg m)
    match x.bind e.cert with
    | none => some (error m sFailed, s)
    | some cert => some (reply m [.text (if m.member = sCertFingerprint then e.finger cert else cert)], s)
  else some (error m sUnknown, s)

/-- A message from a connection, through the callbacks in the order of their priorities: `do_server_msg`, `do_bridge_msg`,
    `do_broadcast_msg`, `do_gaveup_msg` (dbus/wvdbusserver.cc:202-217, 371-423; dbus/wvdbusconn.cc:328-354). -/
def Server.message (e : Env) (s : Server) (c : Nat) (m : Msg) : Option (Server × List (Nat × Msg)) :=
  if m.path = sLocal ∧ m.member = sDisconnected then some (s, [])
  else if m.dest = sBus then
    (s.answer e c m).map fun (a, s) =>
      let (a, s) := s.number a
      (s, s.send c a)
  else if m.dest ≠ [] then
    let m := { m with sender := uniquename c }
    match s.find m.dest with
    | some d => some (s, s.send d m)
    | none =>
      let (a, s) := s.number (error m sNoOwner)
      some (s, s.send c a)
  else some (s, s.conns.flatMap fun d => s.send d m)

/-- One event: a new connection (`new_connection_cb`, dbus/wvdbusserver.cc:434-468), a message, a connection that closes, the
    call of `conn_closed` (dbus/wvdbusserver.cc:426-431) some time after that. -/
def Server.step (e : Env) (s : Server) : Event → Option (Server × List (Nat × Msg))
  | .connect =>
    let c := s.count + 1
    some ({ s with count := c, conns := s.conns ++ [c] }.registerName (uniquename c) c, [])
  | .msg c m => s.message e c m
  | .close c => some ({ s with closed := c :: s.closed }, [])
  | .gone c => some (s.unregisterConn c, [])

/-- All that happened, the newest event first. -/
def Server.run (e : Env) : List Event → Option (Server × List (Nat × Msg))
  | [] => some ({}, [])
  | x :: h => (Server.run e h).bind fun (s, _) => s.step e x

end Wv.Bus
