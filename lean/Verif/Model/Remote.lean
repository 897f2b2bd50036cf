import Verif.Model.UniConn
import Verif.Model.RecIter
import Verif.Model.Num
import Verif.Spec.Remote
/-
Model of a UniConf client and a daemon: uniconf/uniclientgen.cc and uniconf/daemon/uniconfdaemonconn.cc, with the connection between
them (Model/UniConn). The vocabulary of operations and answers is that of Spec/Remote.

Simplifications: the connection stays open and no command times out. The daemon's configuration is one generator, seen from its root. One
command is executed at a time and what it writes is written message by message; other clients and notifications may come in between
messages, but the values sent are those at the start of the command, and `do_remove` does not give up its timeslice. Which notifications are sent is left open: any may be sent at any
time. The commands `quit` and `help` are left out, and so are recursive iterators. `wvassert`s are left out.
-/
namespace Wv.Remote
open UniConn
open TempGen (Value)
open Spec.Remote (Op Ans)

/-! The daemon -/

/-- `getdirname` (utils/wvstrutils.cc:462-480). -/
def getdirname (s : List Byte) : List Byte :=
  let t := (s.reverse.dropWhile (· == 47)).reverse
  if t.isEmpty then []
  else if !t.contains 47 then [46]
  else
    let d := ((t.reverse.dropWhile (· != 47)).drop 1).reverse
    if d.isEmpty then [47] else d

/-- The loop that turns slashes at the end into spaces (uniconf/daemon/uniconfdaemonconn.cc:184-192), on the reversed string. The first
    character is not looked at. -/
def blankSlashes : List Byte → List Byte
  | [] => []
  | [c] => [c]
  | c :: cs => if c == 47 then 32 :: blankSlashes cs else c :: cs

/-- The key that is removed (uniconf/daemon/uniconfdaemonconn.cc:184-196). `trim_string` cuts the string off at its end in place; that it
    returns a pointer behind the space at the start is not used. -/
def removeKey (key : Key) : Key := Key.parse ((blankSlashes (Key.printable key).reverse).dropWhile isspace).reverse

section
variable {σ : Type} (I : IGen σ) (n : Nat)

/-- The loop of `do_remove` (uniconf/daemon/uniconfdaemonconn.cc:203-224): the configuration afterwards and `single_key`. -/
def removeLoop (top : Key) : Nat → σ → RecIter.It → Bool → σ × Bool
  | 0, s, _, single => (s, single)
  | n + 1, s, it, single =>
    let r := RecIter.next I s it
    if r.2 then
      let fullkey := Key.join top (RecIter.key r.1)
      let sect := getdirname (Key.printable fullkey)
      let s := I.set s fullkey none
      let sect := if sect = [46] then [] else Key.parse sect
      let s := if !I.haschildren s sect then I.set s sect none else s
      removeLoop top n s r.1 false
    else (s, single)

/-- `do_remove` (uniconf/daemon/uniconfdaemonconn.cc:179-229); `n` is the number of steps after which the loop is given up. -/
def doRemove (s : σ) (key : Key) : σ :=
  let key := removeKey key
  if I.exists s key then
    let r := removeLoop I key n s (RecIter.rewind I s key) true
    if r.2 then I.set r.1 key none else r.1
  else s

/-- What `do_subtree` writes (uniconf/daemon/uniconfdaemonconn.cc:232-275) when it is not recursive. -/
def doSubtree (s : σ) (key : Key) : List (List Byte) :=
  if I.exists s key then
    (((I.iterator s key).getD []).map fun x => writevalue (Key.printable ((Key.subkey key (Key.join key x.1)).getD [])) x.2) ++ [writeok []]
  else [writefail []]

/-- `do_malformed` (uniconf/daemon/uniconfdaemonconn.cc:143-147). -/
def malformed (c : Command) : List Byte :=
  writefail (str ['m', 'a', 'l', 'f', 'o', 'r', 'm', 'e', 'd', ' ', 'r', 'e', 'q', 'u', 'e', 's', 't', ':', ' '] ++ name c)

/-- The daemon's execution of a command with its arguments (uniconf/daemon/uniconfdaemonconn.cc:65-132, 150-176, 277-298): the
    configuration and what is to be written. -/
def serve (s : σ) (command : Got) (text : List Byte) (arg1 arg2 : Option (List Byte)) : σ × List (List Byte) :=
  match command with
  | .none => (s, [])
  | .invalid => (s, [do_invalid text])
  | .cmd c =>
    match c.val with
    | 0 => (s, [writeok []])
    | 1 =>
      match arg1 with
      | none => (s, [malformed c])
      | some k =>
        match I.get s (Key.parse k) with
        | none => (s, [writefail []])
        | some v => (s, [writeonevalue (Key.printable (Key.parse k)) v])
    | 2 =>
      match arg1, arg2 with
      | some k, some v => (I.set s (Key.parse k) (some v), [])
      | _, _ => (s, [malformed c])
    | 4 =>
      match arg1 with
      | none => (s, [malformed c])
      | some k => (doRemove I n s (Key.parse k), [])
    | 5 =>
      match arg1 with
      | none => (s, [malformed c])
      | some k => (s, doSubtree I s (Key.parse k))
    | 6 =>
      match arg1 with
      | none => (s, [malformed c])
      | some k =>
        (s, [writecmd 13 (some (spacecat (Tcl.escape Tcl.spaces (Key.printable (Key.parse k)))
          (if I.haschildren s (Key.parse k) then str ['T', 'R', 'U', 'E'] else str ['F', 'A', 'L', 'S', 'E'])))])
    | 7 => (I.commit s, [writeok []])
    | 8 => let r := I.refresh s; (r.1, [if r.2 then writeok [] else writefail []])
    | _ => (s, [do_invalid text])

/-- `UniConfDaemonConn::execute` (uniconf/daemon/uniconfdaemonconn.cc:53-134). -/
def execute (s : σ) (d : Conn) : Conn × σ × List (List Byte) :=
  let r := readcmd d
  if r.1 = .none then (r.2.2, s, [])
  else
    let a1 := readarg r.2.2
    let a2 := readarg a1.2
    let q := serve I n s r.1 r.2.1 a1.1 a2.1
    (a2.2, q)

end

/-- What the constructor writes (uniconf/daemon/uniconfdaemonconn.cc:15-23; include/uniclientconn.h:17). -/
def hello : List Byte :=
  writecmd 17 (some (spacecat (Tcl.escape Tcl.spaces (str ['U', 'n', 'i', 'C', 'o', 'n', 'f', ' ', 'S', 'e', 'r', 'v', 'e', 'r', ' ', 'r', 'e', 'a', 'd', 'y', '.']))
    (Tcl.escape Tcl.spaces (str ['1', '9']))))

/-- What `deltacallback` writes (uniconf/daemon/uniconfdaemonconn.cc:316-334). -/
def notice (key : Key) : Option Value → List Byte
  | none => writecmd 18 (some (Tcl.escape Tcl.spaces (Key.printable key)))
  | some v => writecmd 18 (some (spacecat (Tcl.escape Tcl.spaces (Key.printable key)) (Tcl.escape Tcl.spaces v)))

/-! The client -/

/-- UniClientGen (include/uniclientgen.h:27-44). `deltas` are the calls of `delta`, with null keys as empty ones. -/
structure Client where
  conn : Conn := {}
  cmdinprogress : Bool := false
  cmdsuccess : Bool := false
  result_key : Option (List Byte) := none
  result : Option (List Byte) := none
  result_list : Option (List (Key × Value)) := none
  version : Int := 0
  deltas : List (Key × Option Value) := []

/-- Two words, read with `nasty_space` (uniconf/uniclientgen.cc:280, 300-301). -/
def words (p : List Byte) : Option (List Byte) × Option (List Byte) :=
  match Tcl.getword [32] true p with
  | none => (none, (Tcl.getword [32] true p).map Prod.fst)
  | some (w, r) => (some w, (Tcl.getword [32] true r).map Prod.fst)

/-- A word and a word that are not null are the result (uniconf/uniclientgen.cc:300-309, 316-326). -/
def takeResult (c : Client) (w : Option (List Byte) × Option (List Byte)) : Client :=
  match w with
  | (some k, some v) => { c with result_key := some k, result := some v, cmdsuccess := true, cmdinprogress := false }
  | _ => { c with cmdinprogress := false }

/-- What the client does with a message (uniconf/uniclientgen.cc:281-378). -/
def handle (c : Client) (command : Got) (payload : List Byte) : Client :=
  match command with
  | .cmd n =>
    match n.val with
    | 11 => { c with cmdsuccess := true, cmdinprogress := false }
    | 12 => { c with result_key := none, cmdsuccess := false, cmdinprogress := false }
    | 13 => takeResult c (words payload)
    | 14 => takeResult c (words payload)
    | 15 =>
      match words payload, c.result_list with
      | (some k, some v), some l => { c with result_list := some (l ++ [(Key.parse k, v)]) }
      | _, _ => c
    | 17 =>
      let g := Tcl.decode [32] true payload
      match g.head? with
      | some server =>
        if server.take 7 = str ['U', 'n', 'i', 'C', 'o', 'n', 'f'] then { c with version := (Num.num ((g.drop 1).headD [])).getD 0 }
        else { c with cmdinprogress := false, cmdsuccess := false, conn := { c.conn with closed := true } }
      | none => { c with cmdinprogress := false, cmdsuccess := false, conn := { c.conn with closed := true } }
    | 18 => { c with deltas := c.deltas ++ [(Key.parse ((words payload).1.getD []), (words payload).2)] }
    | _ => c
  | _ => c

/-- `conncallback` (uniconf/uniclientgen.cc:277-379). -/
def callback (c : Client) : Client :=
  let r := readcmd c.conn
  handle { c with conn := r.2.2 } r.1 r.2.2.payloadbuf

/-- What is written for an operation (uniconf/uniclientgen.cc:147-149, 160-162, 166-169, 182-192, 228-230, 242-248). -/
def request : Op → List Byte
  | .get k => writecmd 1 (some (Tcl.escape Tcl.spaces (Key.printable (Key.parse k))))
  | .set k v => writecmd 2 (some (spacecat (Tcl.escape Tcl.spaces (Key.printable (Key.parse k))) (Tcl.escape Tcl.spaces v)))
  | .remove k => writecmd 4 (some (Tcl.escape Tcl.spaces (Key.printable (Key.parse k))))
  | .haschildren k => writecmd 6 (some (Tcl.escape Tcl.spaces (Key.printable (Key.parse k))))
  | .iterator k => writecmd 5 (some (Tcl.escape Tcl.spaces (Key.printable (Key.parse k)) ++ 32 :: str ['0']))
  | .commit => writecmd 7 none
  | .refresh => writecmd 8 none

/-- What `setv` writes (uniconf/uniclientgen.cc:199-225); values that are null are left out here. -/
def requestv (version : Int) (l : List (List Byte × List Byte)) : List Byte :=
  if 19 ≤ version then
    (l.flatMap fun x => writecmd 3 (some (spacecat (Tcl.escape Tcl.spaces (Key.printable (Key.parse x.1))) (Tcl.escape Tcl.spaces x.2)))) ++ writecmd 3 none
  else l.flatMap fun x => request (.set x.1 x.2)

/-- The start of an operation that waits: the beginnings of `do_iterator` and `do_select` (uniconf/uniclientgen.cc:245-246, 389-390). -/
def begin (c : Client) : Op → Client
  | .iterator _ => { c with result_list := some [], cmdinprogress := true, cmdsuccess := false }
  | _ => { c with cmdinprogress := true, cmdsuccess := false }

/-- The end of it, once no command is in progress (uniconf/uniclientgen.cc:150, 163, 171-178, 232-238, 250-261, 436): what is returned. -/
def finish (c : Client) : Op → Ans
  | .get k => .value (if c.cmdsuccess ∧ c.result_key = some (Key.printable (Key.parse k)) then c.result else none)
  | .haschildren k =>
    .flag (decide (c.cmdsuccess ∧ c.result_key = some (Key.printable (Key.parse k)) ∧ c.result = some (str ['T', 'R', 'U', 'E'])))
  | .iterator _ => .list (if c.cmdsuccess then c.result_list.map fun l => l.map fun x => (Key.printable x.1, x.2) else none)
  | .refresh => .flag c.cmdsuccess
  | _ => .done

/-! Both together -/

/-- What can happen. -/
inductive Act where
  | call (op : Op)                                -- the program calls the client
  | callback                                      -- the client looks at the connection
  | up (n : Nat)                                  -- bytes arrive at the daemon
  | down (n : Nat)                                -- bytes arrive at the client
  | execute                                       -- the daemon looks at the connection
  | emit                                          -- the daemon writes a message of what it has to write
  | notice (k : List Byte) (v : Option Value)     -- the daemon writes a notification
  | other (k : List Byte) (v : Option Value)      -- someone else changes the configuration

/-- Client, network and daemon. The last three fields are only a record of what happened. -/
structure Sys (σ : Type) where
  client : Client := {}
  waiting : Option Op := none
  toDaemon : List Byte := []
  toClient : List Byte := hello
  daemon : Conn := {}
  out : List (List Byte) := []
  conf : σ
  called : List Op := []
  hist : List Spec.Remote.Event := []
  answers : List Ans := []

/-- The operation a message asks for, for the record. -/
def asked (s : List Op) (hist : List Spec.Remote.Event) : List Spec.Remote.Event :=
  ((s.drop (Spec.Remote.own hist).length).head?).toList.map .own

/-- One thing happens. What cannot happen changes nothing. -/
def step {σ : Type} (I : IGen σ) (n : Nat) (s : Sys σ) : Act → Sys σ
  | .call op =>
    if s.waiting.isSome then s
    else if Spec.Remote.asks op then
      { s with client := begin s.client op, waiting := some op, toDaemon := s.toDaemon ++ request op, called := s.called ++ [op] }
    else { s with toDaemon := s.toDaemon ++ request op, called := s.called ++ [op] }
  | .callback =>
    let c := callback s.client
    match s.waiting with
    | none => { s with client := c }
    | some op =>
      if c.cmdinprogress then { s with client := c }
      else { s with client := { c with result_list := none }, waiting := none, answers := s.answers ++ [finish c op] }
  | .up n => { s with toDaemon := s.toDaemon.drop n, daemon := arrive s.daemon (s.toDaemon.take n) }
  | .down n => { s with toClient := s.toClient.drop n, client := { s.client with conn := arrive s.client.conn (s.toClient.take n) } }
  | .execute =>
    if s.out.isEmpty then
      let r := execute I n s.conf s.daemon
      { s with
        daemon := r.1, conf := r.2.1, out := r.2.2
        hist := if (readcmd s.daemon).1 = .none then s.hist else s.hist ++ asked s.called s.hist }
    else s
  | .emit =>
    match s.out with
    | [] => s
    | m :: r => { s with toClient := s.toClient ++ m, out := r }
  | .notice k v => { s with toClient := s.toClient ++ notice (Key.parse k) v }
  | .other k v => { s with conf := I.set s.conf (Key.parse k) v, hist := s.hist ++ [.other k v] }

/-- Some things happen. -/
def run {σ : Type} (I : IGen σ) (n : Nat) (s : Sys σ) (acts : List Act) : Sys σ := acts.foldl (step I n) s

end Wv.Remote
