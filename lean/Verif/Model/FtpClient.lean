import Verif.Model.Addr
import Verif.Model.Num
import Verif.Model.Split
import Verif.Model.TextUtil
import Verif.Spec.FtpClient
/-!
`WvFtpStream` (urlget/wvftpstream.cc): the FTP client of the URL pool.

The lines that the server sends on the control connection and what the data connections carry are given beforehand; as the
theorems are about all of them, nothing is said about the server that way. The text of the pages that are made of listings is left
out (for the lines of listings see C87).
-/
namespace Wv.FtpClient
open Spec.FtpClient (Req Ev)

abbrev Text := List Byte

/-- A data connection: what can be read of it each time the stream runs, as bytes (`read`) and as lines (`blocking_getline`; `none`:
    the end came instead of a line). After the last time it has ended. -/
structure Conn where
  rounds : List (List Text) := []
  lines : List (Option Text) := []
deriving DecidableEq

/-- A `WvFtpStream` (include/wvhttppool.h:208-240, 131-135). -/
structure St where
  /-- `target.username` and `password`. -/
  user : Text := []
  password : Text := []
  /-- `max_requests`. -/
  max : Nat := 100
  /-- What comes on the control connection, and whether it ends with an error. -/
  ctl : List Text := []
  ctlErr : Bool := false
  /-- What comes on the data connections. -/
  conns : List Conn := []
  closed : Bool := false
  /-- `geterr() != 0`. -/
  err : Bool := false
  loggedIn : Bool := false
  /-- `curl`, with its `is_dir`. -/
  curl : Option Req := none
  isDir : Bool := false
  data : Option Conn := none
  urls : List Req := []
  waiting : List Req := []
  /-- `request_count`. -/
  count : Nat := 0
  /-- The requests whose `outstream` is NULL. -/
  dead : List Nat := []
  log : List Ev := []
deriving DecidableEq

/-- `WvUrlRequest::done` (urlget/wvhttppool.cc:64-74). -/
def St.done (s : St) (r : Req) : St :=
  if r.id ∈ s.dead then s else { s with dead := r.id :: s.dead, log := s.log ++ [.eof r.id] }

/-- `close` (urlget/wvftpstream.cc:88-111). -/
def St.close (s : St) : St :=
  let s := { s with closed := true }
  let s :=
    if s.err then
      let s := { s with curl := s.curl.or s.urls.head? }
      let s := { s with curl := s.curl.or s.waiting.head? }
      match s.curl with
      | some r => s.done r
      | none => s
    else s
  match s.curl with
  | some r => s.done r
  | none => s

/-- `seterr` (streams/wvstream.cc:453-460). -/
def St.seterr (s : St) : St := if s.err then s else { s with err := true }.close

/-- `request_next` (urlget/wvftpstream.cc:68-85). -/
def St.requestNext (s : St) : St :=
  match s.waiting with
  | [] => s
  | u :: ws =>
    if s.max ≤ s.count || !s.urls.isEmpty then s
    else { s with waiting := ws, count := s.count + 1, urls := s.urls ++ [u] }

/-- `doneurl` (urlget/wvftpstream.cc:51-65). `none`: `curl` is NULL. -/
def St.doneurl (s : St) : Option St :=
  match s.curl with
  | none => none
  | some r =>
    let s := s.done r
    let s := { s with curl := none, data := none, urls := s.urls.tail }
    let s := s.requestNext
    some (if s.urls.isEmpty && s.waiting.isEmpty then s.close else s)

/-- `addurl` of a URL that is ok (urlget/wvhttppool.cc:77-86). -/
def St.addurl (s : St) (r : Req) : St := { s with waiting := s.waiting ++ [r] }.requestNext

/-- The loop of `get_important_line` (urlget/wvftpstream.cc:114-127) on the lines to come: the line and what is left. `none` is a
    read of `line[3]` behind the end of the line. -/
def important : List Text → Option (Option (Text × List Text))
  | [] => some none
  | l :: ls =>
    if l.length < 3 then none
    else if l[3]? = some (ch '-') then important ls
    else some (some (l, ls))

/-- `get_important_line` (urlget/wvftpstream.cc:114-127). At the end of the control connection the stream closes
    (streams/wvstreamclone.cc:103-117). -/
def St.line (s : St) : Option (Option Text × St) :=
  match important s.ctl with
  | none => none
  | some none =>
    let s := { s with ctl := [] }
    some (none, if s.ctlErr then s.seterr else s.close)
  | some (some (l, ls)) => some (some l, { s with ctl := ls, log := s.log ++ [.reply l] })

/-- `print(...)` of a command. -/
def St.send (s : St) (t : Text) : St := { s with log := s.log ++ [.cmd t] }

/-- `strncmp(line, p, strlen(p)) == 0`. -/
def hasPrefix (cs : List Char) (l : Text) : Bool := (str cs).isPrefixOf l

/-- The end of each command. -/
def crlf : Text := str ['\r', '\n']

def cUser (u : Text) : Text := str ['U', 'S', 'E', 'R', ' '] ++ u ++ crlf
def cPass (p : Text) : Text := str ['P', 'A', 'S', 'S', ' '] ++ p ++ crlf
def cType : Text := str ['T', 'Y', 'P', 'E', ' ', 'I'] ++ crlf
def cCwd (f : Text) : Text := str ['C', 'W', 'D', ' '] ++ f ++ crlf
def cPasv : Text := str ['P', 'A', 'S', 'V'] ++ crlf
def cList (f : Text) : Text := str ['L', 'I', 'S', 'T', ' '] ++ f ++ crlf
def cRetr (f : Text) : Text := str ['R', 'E', 'T', 'R', ' '] ++ f ++ crlf
def cStor (f : Text) : Text := str ['S', 'T', 'O', 'R', ' '] ++ f ++ crlf
def cMkd (f : Text) : Text := str ['M', 'K', 'D', ' '] ++ f ++ crlf

/-- The name that is sent: "anonymous" when there is none (lines 187-188). -/
def St.userName (s : St) : Text :=
  if s.user = [] then str ['a', 'n', 'o', 'n', 'y', 'm', 'o', 'u', 's'] else s.user

/-- The password that is sent: `DEFAULT_ANON_PW` when there is none (line 200; include/wvhttppool.h:28). -/
def St.passText (s : St) : Text :=
  if s.password = [] then str ['w', 'e', 'a', 's', 'e', 'l', 's', '@'] else s.password

/-- Lines 223-234: `TYPE I`. The Bool: `real_execute` goes on. -/
def St.typeI (s : St) : Option (Bool × St) :=
  ({ s with loggedIn := true }.send cType).line.bind fun
  | (none, s) => some (false, s)
  | (some l, s) => if hasPrefix ['2', '0', '0'] l then some (true, s) else some (false, s.seterr)

/-- Lines 198-216: `PASS`. -/
def St.pass (s : St) : Option (Bool × St) :=
  (s.send (cPass s.passText)).line.bind fun
  | (none, s) => some (false, s)
  | (some l, s) => if l.head? = some (ch '2') then s.typeI else some (false, s.seterr)

/-- Lines 172-235: the login. -/
def St.login (s : St) : Option (Bool × St) :=
  s.line.bind fun
  | (none, s) => some (false, s.seterr)
  | (some l, s) =>
    if hasPrefix ['2', '2', '0'] l then
      (s.send (cUser s.userName)).line.bind fun
      | (none, s) => some (false, s)
      | (some l, s) =>
        if hasPrefix ['2', '3', '0'] l then s.typeI
        else if hasPrefix ['3', '3'] l then s.pass
        else some (false, s.seterr)
    else some (false, s.seterr)

/-- `strchr(p, ',')` and the writing of '.' there, `n` times (lines 549-559): what has been passed over with the last comma cut off,
    and what is left. -/
def commas : Nat → Text → Option (Text × Text)
  | 0, s => some ([], s)
  | n + 1, s =>
    if ch ',' ∈ s then
      let w := s.takeWhile (· != ch ',')
      let r := (s.dropWhile (· != ch ',')).drop 1
      (commas n r).map fun x => (if n = 0 then w else w ++ ch '.' :: x.1, x.2)
    else none

/-- `parse_pasv_response` (urlget/wvftpstream.cc:524-579). `none`: a number overflows; `some none`: an error. The port is cut to 16
    bits (ipstreams/wvaddr.cc:722). -/
def parsePasv (l : Text) : Option (Option (Spec.Addr.Addr × Nat)) :=
  if hasPrefix ['2', '2', '7', ' '] l then
    let p := (l.drop 3).dropWhile fun c => !isdigit c && c != ch '\r' && c != ch '\n'
    match p with
    | [] => some none
    | c :: _ =>
      if isdigit c then
        match commas 4 p with
        | none => some none
        | some (ip, r) =>
          (Num.num r).bind fun hi =>
          (Num.store 32 (hi * 256)).bind fun hi =>
          match Addr.after (ch ',') r with
          | none => some none
          | some r =>
            (Num.num r).bind fun lo =>
            (Num.store 32 (hi + lo)).map fun port => some (Addr.parse ip, (port % 65536).toNat)
      else some none
  else some none

/-- The loop over the directories (lines 338-351): `MKD` of each of them; `cur` is `current_dir`. -/
def St.mkdirs : List Text → Text → St → Option (Bool × St)
  | [], _, s => some (true, s)
  | d :: ds, cur, s =>
    let cur := cur ++ ch '/' :: d
    (s.send (cMkd cur)).line.bind fun
    | (none, s) => some (false, s)
    | (some _, s) => St.mkdirs ds cur s

/-- Lines 324-354: the command that stores a file, after those that make its directory. -/
def St.store (s : St) (r : Req) : Option (Bool × St) :=
  if r.mkdirs then
    (s.send (cCwd (TextUtil.getdirname r.path))).line.bind fun
    | (none, s) => some (false, s)
    | (some l, s) =>
      (if hasPrefix ['2', '5', '0'] l then some (true, s)
       else St.mkdirs (Split.split [ch '/'] 0 (TextUtil.getdirname r.path)) [] s).map fun
      | (true, s) => (true, s.send (cStor r.path))
      | (false, s) => (false, s)
  else some (true, s.send (cStor r.path))

/-- Lines 269-354: the command for the file. -/
def St.command (s : St) (r : Req) : Option (Bool × St) :=
  if s.isDir then
    if r.put.isNone then some (true, s.send (cList r.path))
    else s.seterr.doneurl.map fun s => (false, s)
  else if r.put.isNone then some (true, s.send (cRetr r.path))
  else s.store r

/-- Lines 356-371: the answer to it. -/
def St.answer (s : St) : Option St :=
  s.line.bind fun
  | (none, s) => s.doneurl
  | (some l, s) => if hasPrefix ['1', '5', '0'] l then some s else s.seterr.doneurl

/-- Lines 237-373: the next request is begun. The Bool: `real_execute` goes on. -/
def St.start (s : St) (r : Req) : Option (Bool × St) :=
  ({ s with curl := some r, isDir := false }.send (cCwd r.path)).line.bind fun
  | (none, s) => some (false, s)
  | (some l, s) =>
    ({ s with isDir := hasPrefix ['2', '5', '0'] l }.send cPasv).line.bind fun
    | (none, s) => some (false, s)
    | (some l, s) =>
      (parsePasv l).bind fun
      | none => some (false, s.seterr)
      | some (a, port) =>
        let s := { s with log := s.log ++ [Ev.dial a port], data := some (s.conns.headD {}), conns := s.conns.tail }
        (s.command r).bind fun
        | (false, s) => some (false, s)
        | (true, s) => s.answer.map fun s => (true, s)

/-- Lines 377-425: what can be read now is passed on. The Bool: the connection, or what is put, has ended. `none`: `data` or
    `outstream` is NULL. That the user closes the output is left out. -/
def St.pump (s : St) (r : Req) : Option (Bool × St) :=
  match s.data with
  | none => none
  | some c =>
    if s.isDir then
      let s := match c.lines.head? with
        | some (some l) => if r.id ∈ s.dead then s else { s with log := s.log ++ [Ev.entry r.id l] }
        | _ => s
      some (c.lines.tail.isEmpty, { s with data := some { c with lines := c.lines.tail } })
    else match r.put with
      | some (ready, _) => some (true, { s with log := s.log ++ ready.map (.sent r.id) })
      | none =>
        let now := c.rounds.headD []
        if r.id ∈ s.dead && !now.isEmpty then none
        else some (c.rounds.tail.isEmpty,
          { s with log := s.log ++ now.map (.out r.id), data := some { c with rounds := c.rounds.tail } })

/-- Lines 427-460: the end of a transfer. -/
def St.finish (s : St) : Option St :=
  s.line.bind fun
  | (none, s) => s.doneurl
  | (some _, s) =>
    if s.isDir then
      (s.send (cCwd (str ['/']))).line.bind fun
      | (none, s) => some s
      | (some _, s) => s.doneurl
    else s.doneurl

/-- Lines 375-466: `if (curl)`. -/
def St.transfer (s : St) : Option St :=
  match s.curl with
  | none => some s
  | some r => (s.pump r).bind fun
    | (true, s) => s.finish
    | (false, s) => some s

/-- `real_execute` (urlget/wvftpstream.cc:160-468), when there is no time-out. -/
def St.execute (s : St) : Option St :=
  (if s.loggedIn then some (true, s) else s.login).bind fun
  | (false, s) => some s
  | (true, s) =>
    match s.curl, s.urls with
    | none, r :: _ => (s.start r).bind fun
      | (false, s) => some s
      | (true, s) => s.transfer
    | _, _ => s.transfer

/-- What is done with the stream. -/
inductive Op where
  | add (r : Req)
  | exec
  /-- The stream runs as its time is up (lines 165-172). -/
  | tick

/-- The requests that are made. -/
def adds : List Op → List Req
  | [] => []
  | .add r :: os => r :: adds os
  | _ :: os => adds os

/-- The pool adds URLs to a stream, and lets it run, only while it is ok (urlget/wvhttppool.cc:158-167, 209-218). -/
def St.step (s : St) (o : Op) : Option St :=
  if s.closed then some s
  else match o with
    | .add r => some (s.addurl r)
    | .exec => s.execute
    | .tick => some (if s.urls.isEmpty then s.close else s)

def St.run (s : St) : List Op → Option St
  | [] => some s
  | o :: os => (s.step o).bind fun s => s.run os

/-- A new stream (urlget/wvftpstream.cc:39-48) to a server that sends this. -/
def St.new (user password : Text) (max : Nat) (ctl : List Text) (ctlErr : Bool) (conns : List Conn) : St :=
  { user := user, password := password, max := max, ctl := ctl, ctlErr := ctlErr, conns := conns }

end Wv.FtpClient
