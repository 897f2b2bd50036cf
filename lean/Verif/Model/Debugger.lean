import Verif.Model.Tcl
import Verif.Spec.Debugger
/-
The debugger (utils/wvstreamsdebugger.cc, include/wvstreamsdebugger.h) and its server (ipstreams/wvstreamsdebuggerserver.cc). Not modelled: commands that add
commands or end instances while they run; listeners. The instances, a set of pointers, and the data of one,
a map, are in the order they were made.
-/
namespace Wv.Debugger
open Spec.Debugger

abbrev Text := List Byte

/-- The data of an instance: `command_data` (include/wvstreamsdebugger.h:63-64). -/
structure Inst where
  id : Nat
  data : List (Text × Option Nat)

/-- `commands` and `debuggers`, and what was called so far. `nextData`: what the next `init_cb` returns. -/
structure St where
  cmds : List (Text × Cmd)
  insts : List Inst
  nextId : Nat
  nextData : Nat
  log : List Ev

def St.new : St := ⟨[], [], 0, 0, []⟩

/-- `strcmp(a, b) < 0`, as in WvFastString::operator< (utils/wvstring.cc:399-405). -/
def less : Text → Text → Bool
  | [], [] => false
  | [], _ :: _ => true
  | _ :: _, [] => false
  | a :: s, b :: t => if a = b then less s t else a < b

/-- `std::map::insert` of a key that is not there. -/
def place (k : Text) (v : Cmd) : List (Text × Cmd) → List (Text × Cmd)
  | [] => [(k, v)]
  | p :: l => if less k p.1 then (k, v) :: p :: l else p :: place k v l

/-- `add_command` (utils/wvstreamsdebugger.cc:112-122). -/
def add (st : St) (k : Text) (v : Cmd) : St × Bool :=
  match st.cmds.lookup k with
  | some _ => (st, false)
  | none => ({ st with cmds := place k v st.cmds }, true)

/-- `get_command_data` (utils/wvstreamsdebugger.cc:41-68), with the command given: the instance and what was made. -/
def data (st : St) (i : Inst) (k : Text) (v : Cmd) : St × Inst × Option Nat :=
  match i.data.lookup k with
  | some x => (st, i, x)
  | none =>
    if v.init then
      ({ st with nextData := st.nextData + 1, log := st.log ++ [.init i.id k st.nextData] }, { i with data := i.data ++ [(k, some st.nextData)] }, some st.nextData)
    else (st, { i with data := i.data ++ [(k, none)] }, none)

/-- The loop of the constructor. -/
def initAll (st : St) (i : Inst) : List (Text × Cmd) → St × Inst
  | [] => (st, i)
  | p :: l => let r := data st i p.1 p.2; initAll r.1 r.2.1 l

/-- `WvStreamsDebugger::WvStreamsDebugger` (utils/wvstreamsdebugger.cc:71-81). -/
def make (st : St) : St :=
  let r := initAll { st with nextId := st.nextId + 1 } ⟨st.nextId, []⟩ st.cmds
  { r.1 with insts := r.1.insts ++ [r.2] }

/-- The loop of the destructor. -/
def cleanups (cmds : List (Text × Cmd)) (d : Nat) (l : List (Text × Option Nat)) : List Ev :=
  l.flatMap fun p => match cmds.lookup p.1 with
    | some v => if v.cleanup then [.cleanup d p.1 p.2] else []
    | none => []

/-- `WvStreamsDebugger::~WvStreamsDebugger` (utils/wvstreamsdebugger.cc:84-97). -/
def destroy (st : St) (d : Nat) : St :=
  match st.insts.find? (·.id = d) with
  | none => st
  | some i => { st with insts := st.insts.filter (·.id ≠ d), log := st.log ++ cleanups st.cmds d i.data ++ [.gone d] }

/-- A use of a command in an instance. -/
def use (st : St) (d : Nat) (k : Text) (v : Cmd) : St :=
  match st.insts.find? (·.id = d) with
  | none => st
  | some i =>
    let r := data st i k v
    { r.1 with insts := r.1.insts.map (fun j => if j.id = d then r.2.1 else j), log := r.1.log ++ [.use d k r.2.2] }

/-- `run` (utils/wvstreamsdebugger.cc:100-110): whether there is such a command. -/
def run (st : St) (d : Nat) (k : Text) : St × Bool :=
  match st.cmds.lookup k with
  | none => (st, false)
  | some v => (use st d k v, true)

/-- `foreach` (utils/wvstreamsdebugger.cc:125-143). -/
def foreach (st : St) (k : Text) : St × Bool :=
  match st.cmds.lookup k with
  | none => (st, false)
  | some v => ((st.insts.map (·.id)).foldl (fun st d => use st d k v) st, true)

/-- `help_run_cb` (utils/wvstreamsdebugger.cc:146-156), after the title. -/
def help (st : St) : List Text := st.cmds.map (·.1)

inductive Op where
  | add (k : Text) (v : Cmd)
  | make
  | destroy (d : Nat)
  | run (d : Nat) (k : Text)
  | foreach (k : Text)

def step (st : St) : Op → St
  | .add k v => (add st k v).1
  | .make => make st
  | .destroy d => destroy st d
  | .run d k => (run st d k).1
  | .foreach k => (foreach st k).1

def exec (st : St) (ops : List Op) : St := ops.foldl step st

/-! ### The server -/

/-- `Connection::send` (ipstreams/wvstreamsdebuggerserver.cc:50-54). -/
def send (code : Text) (results : List Text) : Text := Tcl.escape Tcl.spaces code ++ ch ' ' :: Tcl.encode Tcl.spaces Tcl.spaces results ++ [ch '\n']

/-- The callbacks a connection may have. -/
inductive Mode where
  | ready
  | authRequest
  | authResponse (salt : Text)
  deriving DecidableEq

/-- What a command does: the lists it passes to `result_cb`, and its error. -/
abbrev Runner := Text → List Text → List (List Text) × Text

def okWord : Text := str ['O', 'K']
def errorWord : Text := str ['E', 'R', 'R', 'O', 'R']
def emptyCommand : Text := str ['E', 'm', 'p', 't', 'y', ' ', 'c', 'o', 'm', 'm', 'a', 'n', 'd']
def successful : Text := str ['C', 'o', 'm', 'm', 'a', 'n', 'd', ' ', 's', 'u', 'c', 'c', 'e', 's', 's', 'f', 'u', 'l']
def noSuchCommand : Text := str ['N', 'o', ' ', 's', 'u', 'c', 'h', ' ', 'c', 'o', 'm', 'm', 'a', 'n', 'd']

/-- `ready_cb` with a line (ipstreams/wvstreamsdebuggerserver.cc:171-193): the messages, and what was run. `run`: `none` if there is no such command. -/
def ready (known : Text → Bool) (run : Runner) (line : Text) : List (Text × List Text) × Option (Text × List Text) :=
  match Tcl.decode Tcl.spaces true line with
  | [] => ([(errorWord, [emptyCommand])], none)
  | cmd :: args =>
    if cmd = [] then ([(errorWord, [emptyCommand])], none)
    else if known cmd then
      let r := run cmd args
      (r.1.map (fun l => (str ['-'], l)) ++ [if r.2 ≠ [] then (errorWord, [r.2]) else (okWord, [successful])], some (cmd, args))
    else ([(errorWord, [noSuchCommand])], none)

/-- `unix_listener_cb` and `tcp_listener_cb` (ipstreams/wvstreamsdebuggerserver.cc:96-103, 112-119): the callback a new connection gets. -/
def unixAccept : Mode := .ready
def tcpAccept : Mode := .ready

/-- One line from the client (ipstreams/wvstreamsdebuggerserver.cc:128-168): the messages, what was run, and the callback from then on. In `authRequest` the
    salt is sent before the line is read. -/
def serve (auth : Text → Text → Text → Bool) (salt : Text) (known : Text → Bool) (run : Runner) (m : Mode) (line : Text) :
    List (Text × List Text) × Option (Text × List Text) × Mode :=
  let response (salt : Text) (before : List (Text × List Text)) : List (Text × List Text) × Option (Text × List Text) × Mode :=
    let args := Tcl.decode Tcl.spaces true line
    let user := args.getD 0 []
    let pw := args.getD 1 []
    if user = [] ∨ pw = [] ∨ auth user salt pw = false then
      (before ++ [(errorWord, [str ['A', 'u', 't', 'h', 'e', 'n', 't', 'i', 'c', 'a', 't', 'i', 'o', 'n', ' ', 'f', 'a', 'i', 'l', 'u', 'r', 'e']])], none, .authRequest)
    else (before ++ [(okWord, [str ['A', 'u', 't', 'h', 'e', 'n', 't', 'i', 'c', 'a', 't', 'e', 'd']])], none, .ready)
  match m with
  | .ready => let r := ready known run line; (r.1, r.2, .ready)
  | .authRequest => response salt [(str ['A', 'U', 'T', 'H'], [salt])]
  | .authResponse salt => response salt []

end Wv.Debugger
