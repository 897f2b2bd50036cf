import Verif.Model.Basic
/-
What a message bus does (D-Bus specification, "Message Bus Specification"): which connection has which name, who gets which
message. Histories are lists of events, the newest one first.
-/
namespace Spec.Bus
open Wv

abbrev Bytes := List Byte

inductive Kind where
  | call | ret | err | signal
  deriving DecidableEq, Repr

/-- An argument. -/
inductive Val where
  | text (s : Bytes)
  | num (n : Nat)
  | flag (b : Bool)
  deriving DecidableEq, Repr

/-- A message; what is not there is empty or 0. -/
structure Msg where
  kind : Kind
  serial : Nat
  reply : Nat := 0
  dest : Bytes := []
  sender : Bytes := []
  path : Bytes := []
  member : Bytes := []
  error : Bytes := []
  args : List Val := []
  deriving DecidableEq, Repr

/-- A new connection is made (they are numbered from 1 on); a message comes over a connection; a connection breaks; the bus has
    taken notice of that. -/
inductive Event where
  | connect
  | msg (c : Nat) (m : Msg)
  | close (c : Nat)
  | gone (c : Nat)
  deriving DecidableEq, Repr

/-- How many connections there have been. -/
def connects : List Event → Nat
  | [] => 0
  | .connect :: h => connects h + 1
  | _ :: h => connects h

/-- The digits of a number. -/
def dec (n : Nat) : Bytes := (Nat.toDigits 10 n).map ch

/-- The unique name of a connection. -/
def unique (c : Nat) : Bytes := ch ':' :: (dec c ++ [ch '.', ch '0'])

def bus : Bytes := str ['o', 'r', 'g', '.', 'f', 'r', 'e', 'e', 'd', 'e', 's', 'k', 't', 'o', 'p', '.', 'D', 'B', 'u', 's']
def requestName : Bytes := str ['R', 'e', 'q', 'u', 'e', 's', 't', 'N', 'a', 'm', 'e']
def releaseName : Bytes := str ['R', 'e', 'l', 'e', 'a', 's', 'e', 'N', 'a', 'm', 'e']

/-- The first argument, as a text. -/
def Msg.name (m : Msg) : Bytes :=
  match m.args with
  | .text s :: _ => s
  | .num n :: _ => dec n
  | .flag b :: _ => dec b.toNat
  | [] => []

/-- The owner of a name is the connection that claimed it last, unless the name was released or the owner has gone since. -/
def owner : List Event → Bytes → Option Nat
  | [], _ => none
  | .connect :: h, n => if n = unique (connects h + 1) then some (connects h + 1) else owner h n
  | .msg c m :: h, n =>
    if m.dest = bus ∧ m.member = requestName ∧ m.name = n then some c
    else if m.dest = bus ∧ m.member = releaseName ∧ m.name = n then none
    else owner h n
  | .close _ :: h, n => owner h n
  | .gone c :: h, n => if owner h n = some c then none else owner h n

/-- The connections that are there. -/
def here (h : List Event) : List Nat := ((List.range (connects h)).map (· + 1)).filter fun c => Event.gone c ∉ h

/-- Nothing happens with connections that do not exist, and a connection is removed after it broke. -/
def Proper : List Event → Prop
  | [] => True
  | .connect :: h => Proper h
  | .msg c _ :: h => Proper h ∧ c ∈ here h
  | .close c :: h => Proper h ∧ c ∈ here h
  | .gone c :: h => Proper h ∧ c ∈ here h ∧ .close c ∈ h

/-- What is sent to a connection that is broken gets lost. -/
def deliver (h : List Event) (l : List (Nat × Msg)) : List (Nat × Msg) := l.filter fun x => Event.close x.1 ∉ h

/-- What is known about connections: the user, the certificate; the names of users, the fingerprint of a certificate. -/
structure Env where
  uid : Nat → Option Nat
  user : Nat → Option Bytes
  cert : Nat → Option Bytes
  finger : Bytes → Bytes

def hello : Bytes :=
  str ['H', 'e', 'l', 'l', 'o']
def nameHasOwner : Bytes :=
  str ['N', 'a', 'm', 'e', 'H', 'a', 's', 'O', 'w', 'n', 'e', 'r']
def getNameOwner : Bytes :=
  str ['G', 'e', 't', 'N', 'a', 'm', 'e', 'O', 'w', 'n', 'e', 'r']
def addMatch : Bytes :=
  str ['A', 'd', 'd', 'M', 'a', 't', 'c', 'h']
def startService : Bytes :=
  str ['S', 't', 'a', 'r', 't', 'S', 'e', 'r', 'v', 'i', 'c', 'e', 'B', 'y', 'N', 'a', 'm', 'e']
def unixUser : Bytes :=
  str ['G', 'e', 't', 'C', 'o', 'n', 'n', 'e', 'c', 't', 'i', 'o', 'n', 'U', 'n', 'i', 'x', 'U', 's', 'e', 'r']
def unixUserName : Bytes :=
  str ['G', 'e', 't', 'C', 'o', 'n', 'n', 'e', 'c', 't', 'i', 'o', 'n', 'U', 'n', 'i', 'x', 'U', 's', 'e', 'r', 'N',
    'a', 'm', 'e']
def cert : Bytes :=
  str ['G', 'e', 't', 'C', 'o', 'n', 'n', 'e', 'c', 't', 'i', 'o', 'n', 'C', 'e', 'r', 't']
def certFingerprint : Bytes :=
  str ['G', 'e', 't', 'C', 'o', 'n', 'n', 'e', 'c', 't', 'i', 'o', 'n', 'C', 'e', 'r', 't', 'F', 'i', 'n', 'g', 'e',
    'r', 'p', 'r', 'i', 'n', 't']
def disconnected : Bytes :=
  str ['D', 'i', 's', 'c', 'o', 'n', 'n', 'e', 'c', 't', 'e', 'd']
def localPath : Bytes :=
  str ['/', 'o', 'r', 'g', '/', 'f', 'r', 'e', 'e', 'd', 'e', 's', 'k', 't', 'o', 'p', '/', 'D', 'B', 'u', 's', '/',
    'L', 'o', 'c', 'a', 'l']
def noOwner : Bytes :=
  str ['o', 'r', 'g', '.', 'f', 'r', 'e', 'e', 'd', 'e', 's', 'k', 't', 'o', 'p', '.', 'D', 'B', 'u', 's', '.', 'E',
    'r', 'r', 'o', 'r', '.', 'N', 'a', 'm', 'e', 'H', 'a', 's', 'N', 'o', 'O', 'w', 'n', 'e', 'r']
def failed : Bytes :=
  str ['o', 'r', 'g', '.', 'f', 'r', 'e', 'e', 'd', 'e', 's', 'k', 't', 'o', 'p', '.', 'D', 'B', 'u', 's', '.', 'E',
    'r', 'r', 'o', 'r', '.', 'F', 'a', 'i', 'l', 'e', 'd']
def unknownMethod : Bytes :=
  str ['o', 'r', 'g', '.', 'f', 'r', 'e', 'e', 'd', 'e', 's', 'k', 't', 'o', 'p', '.', 'D', 'B', 'u', 's', '.', 'E',
    'r', 'r', 'o', 'r', '.', 'U', 'n', 'k', 'n', 'o', 'w', 'n', 'M', 'e', 't', 'h', 'o', 'd']

/-- The answer to a call: it says which call it answers and goes to who sent that. -/
def Msg.ret (m : Msg) (args : List Val) : Msg := { kind := .ret, serial := 0, reply := m.serial, dest := m.sender, args := args }
def Msg.fail (m : Msg) (name : Bytes) : Msg := { kind := .err, serial := 0, reply := m.serial, dest := m.sender, error := name }

/-- What the bus answers when it is called itself. -/
def answer (e : Env) (h : List Event) (c : Nat) (m : Msg) : Msg :=
  let of (x : Option Val) (err : Bytes) : Msg := match x with | some v => m.ret [v] | none => m.fail err
  let who := owner h m.name
  if m.member = hello then m.ret [.text (unique c)]
  else if m.member = requestName then m.ret [.num 1]
  else if m.member = releaseName then m.ret [.num (match who with | none => 2 | some d => if d = c then 1 else 3)]
  else if m.member = nameHasOwner then m.ret [.flag who.isSome]
  else if m.member = getNameOwner then of (who.map fun d => .text (unique d)) noOwner
  else if m.member = addMatch ∨ m.member = startService then m.ret []
  else if m.member = unixUser then of ((who.bind e.uid).map .num) failed
  else if m.member = unixUserName then of (((who.bind e.uid).bind e.user).map .text) failed
  else if m.member = cert then of ((who.bind e.cert).map .text) failed
  else if m.member = certFingerprint then of ((who.bind e.cert).map fun x => .text (e.finger x)) failed
  else m.fail unknownMethod

/-- Where a message goes that is not for the bus itself. A message without destination goes to all; another one to the owner of
    the name, with the true sender; if there is none the sender gets an error. -/
def route (h : List Event) (c : Nat) (m : Msg) : List (Nat × Msg) :=
  if m.dest = [] then (here h).map (·, m)
  else
    match owner h m.dest with
    | some d => [(d, { m with sender := unique c })]
    | none => [(c, { m with sender := unique c }.fail noOwner)]

/-- A notice that libdbus makes by itself. -/
def Msg.isNotice (m : Msg) : Prop := m.path = localPath ∧ m.member = disconnected

instance (m : Msg) : Decidable m.isNotice := inferInstanceAs (Decidable (_ ∧ _))

/-- Does the bus make a message of its own on account of this one? -/
def own (h : List Event) (m : Msg) : Bool :=
  !decide m.isNotice && (decide (m.dest = bus) || (decide (m.dest ≠ []) && (owner h m.dest).isNone))

/-- How many messages of its own the bus made. -/
def answers : List Event → Nat
  | [] => 0
  | .msg _ m :: h => answers h + (own h m).toNat
  | _ :: h => answers h

/-- Everything that is sent when a message comes; the messages that the bus makes are numbered. -/
def out (e : Env) (h : List Event) (c : Nat) (m : Msg) : List (Nat × Msg) :=
  if m.isNotice then []
  else
    let l := if m.dest = bus then [(c, answer e h c m)] else route h c m
    if own h m then l.map fun (d, a) => (d, { a with serial := 1001 + answers h }) else l

/-- All names that were released were released by the owner. -/
def ReleasesOk : List Event → Prop
  | [] => True
  | .msg c m :: h => ReleasesOk h ∧ (m.dest = bus ∧ m.member = releaseName → owner h m.name = some c)
  | _ :: h => ReleasesOk h

end Spec.Bus
