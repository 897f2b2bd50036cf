import Verif.Model.Addr
import Verif.Spec.Resolver
/-
Name lookups in the background (ipstreams/wvresolver.cc, include/wvresolver.h), with processes (WVRESOLVER_SKIP_FORK not defined). The lookups are
numbered in the order they are started; the process of lookup `k` is the child `k`. What a child writes comes through the pipe as one line.
Not modelled: other children of the program; that a child may be halfway through its line when the pipe becomes readable; `findname`, which has no body.
-/
namespace Wv.Resolver
open Spec.Addr Spec.Resolver

abbrev Text := List Byte

/-- A `pid_t`: 0, -1 after a fork that failed, or a child. -/
inductive Pid where
  | zero
  | minus
  | child (k : Nat)
  deriving DecidableEq

/-- WvResolverHost (ipstreams/wvresolver.cc:28-60). `id`: the lookup whose pipe `loop` is; `addr` is the first of `addrlist` or NULL. -/
structure Host where
  name : Text
  id : Nat
  addrs : List Addr
  done : Bool
  negative : Bool
  pid : Pid
  tried : Int

/-- `hostmap`, the lookups that were started, the children that were waited for, and those that were killed after that (when the number may be
    that of another process). -/
structure St where
  hosts : List Host
  starts : List Lookup
  reaped : List Nat
  stray : List Nat

def St.new : St := ⟨[], [], [], []⟩

/-- One turn of the loop that waits: the children that have ended, and whose pipes are readable. -/
structure Turn where
  dead : List Nat
  ready : Nat → Bool

/-- A call of `findaddr`. `forever`: the timeout is negative. `list`: an address list is given. -/
structure Call where
  name : Text
  forever : Bool
  list : Bool
  now : Int
  turns : List Turn

/-- What comes back; no `code` if the call does not return within the turns given. -/
structure Ret where
  code : Option Int
  addr : Option Addr
  addrs : List Addr

/-- What a child prints (`namelookup`, ipstreams/wvresolver.cc:78-115), without the newline, as getline hands it over. -/
def output (l : List Addr) : Text := l.flatMap fun a => Addr.printable a ++ [ch ' ']

/-- `strtok(…, " \n")` until there is nothing left (ipstreams/wvresolver.cc:272-290). -/
def tokens : Text → Text → List Text
  | acc, [] => if acc = [] then [] else [acc.reverse]
  | acc, c :: s =>
    if c = ch ' ' ∨ c = ch '\n' then (if acc = [] then tokens [] s else acc.reverse :: tokens [] s) else tokens (c :: acc) s

/-- The children nobody has waited for. -/
def unreaped (w : World) (st : St) : List Nat := (List.range st.starts.length).filter fun k => w.forked k && !st.reaped.contains k

/-- `waitpid(host->pid, NULL, WNOHANG)` (ipstreams/wvresolver.cc:235-236). With -1 it waits for any child, and returns -1 if there is none. -/
def poll (w : World) (t : Turn) (st : St) : Pid → St × Pid
  | .zero => (st, .zero)
  | .minus =>
    if unreaped w st = [] then (st, .zero) else
    match (unreaped w st).find? fun k => t.dead.contains k with
    | none => (st, .minus)
    | some k => ({ st with reaped := k :: st.reaped }, .minus)
  | .child k => if k ∉ st.reaped ∧ k ∈ t.dead then ({ st with reaped := k :: st.reaped }, .zero) else (st, .child k)

/-- `waitpid(host->pid, NULL, 0)` (ipstreams/wvresolver.cc:296-297). -/
def waitEnd (w : World) (st : St) : Pid → St × Pid
  | .zero => (st, .zero)
  | .minus => match unreaped w st with
    | [] => (st, .zero)
    | k :: _ => ({ st with reaped := k :: st.reaped }, .minus)
  | .child k => if k ∈ st.reaped then (st, .child k) else ({ st with reaped := k :: st.reaped }, .zero)

inductive Wait where
  | block
  | timeout
  | dead
  | ready

/-- The loop that waits for the child (ipstreams/wvresolver.cc:233-259). -/
def waitLoop (w : World) (forever : Bool) (id : Nat) : List Turn → St → Pid → Wait × St × Pid
  | [], st, pid => (.block, st, pid)
  | t :: ts, st, pid =>
    let r := poll w t st pid
    if t.ready id then (.ready, r.1, r.2)
    else if r.2 = .zero then (.dead, r.1, r.2)
    else if !forever then (.timeout, r.1, r.2)
    else waitLoop w forever id ts r.1 r.2

def put (st : St) (h : Host) : St := { st with hosts := st.hosts.map fun g => if g.name = h.name then h else g }

/-- `~WvResolverHost` (ipstreams/wvresolver.cc:41-55), and the removal from `hostmap`. -/
def remove (st : St) (h : Host) : St :=
  let st := { st with hosts := st.hosts.filter fun g => g.name ≠ h.name }
  match h.pid with
  | .child k => if k ∈ st.reaped then { st with stray := k :: st.stray } else { st with reaped := k :: st.reaped }
  | _ => st

/-- `findaddr` from the loop on (ipstreams/wvresolver.cc:229-303). -/
def await (w : World) (c : Call) (st : St) (h : Host) : Ret × St :=
  match waitLoop w c.forever h.id c.turns st h.pid with
  | (.block, st, pid) => (⟨none, none, []⟩, put st { h with pid := pid })
  | (.timeout, st, pid) => (⟨some (-1), none, []⟩, put st { h with pid := pid })
  | (.dead, st, pid) => (⟨some 0, none, []⟩, put st { h with pid := pid, negative := true })
  | (.ready, st, pid) =>
    let line : Text := if w.forked h.id then ((w.answer h.id).map output).getD [] else []
    let e := waitEnd w st pid
    if line ≠ [] then
      let l := (tokens [] line).map Addr.parse
      (⟨some l.length, l.head?, if c.list then l else []⟩, put e.1 { h with pid := e.2, done := true, addrs := l })
    else (⟨some 0, none, []⟩, put e.1 { h with pid := e.2, negative := true })

/-- A new lookup (ipstreams/wvresolver.cc:197-226). -/
def start (w : World) (c : Call) (st : St) : Ret × St :=
  let k := st.starts.length
  let h : Host := ⟨c.name, k, [], false, false, if w.forked k then .child k else .minus, c.now⟩
  await w c { st with hosts := st.hosts ++ [h], starts := st.starts ++ [⟨c.name, c.now⟩] } h

/-- The entry is too old (ipstreams/wvresolver.cc:159-160). -/
def expired (h : Host) (now : Int) : Bool := (h.done && h.tried + 60 * 5 < now) || (!h.done && h.tried + 60 < now)

def lookup (st : St) (name : Text) : Option Host := st.hosts.find? fun h => h.name = name

/-- `findaddr` (ipstreams/wvresolver.cc:144-304). -/
def find (w : World) (c : Call) (st : St) : Ret × St :=
  match lookup st c.name with
  | none => start w c st
  | some h =>
    if expired h c.now then start w c (remove st h)
    else if h.done then (⟨some (if c.list then h.addrs.length else 1), h.addrs.head?, if c.list then h.addrs else []⟩, st)
    else if h.negative then (⟨some 0, none, []⟩, st)
    else await w c st h

/-- `clearhost` (ipstreams/wvresolver.cc:306-311). -/
def clear (name : Text) (st : St) : St := match lookup st name with
  | none => st
  | some h => remove st h

/-- `post_select` (ipstreams/wvresolver.cc:329-343): `loop` is there as long as the lookup goes on. -/
def postSelect (t : Turn) (name : Text) (st : St) : Bool := match lookup st name with
  | none => false
  | some h => if !h.done && !h.negative then t.ready h.id else true

/-- `~WvResolver` of the last one (ipstreams/wvresolver.cc:131-141). -/
def fini (st : St) : St := st.hosts.foldl remove st

inductive Op where
  | find (c : Call)
  | clear (name : Text)

def Op.name : Op → Text
  | .find c => c.name
  | .clear n => n

def step (w : World) (st : St) : Op → St
  | .find c => (find w c st).2
  | .clear n => clear n st

def run (w : World) (st : St) (ops : List Op) : St := ops.foldl (step w) st

end Wv.Resolver
