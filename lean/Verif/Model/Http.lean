import Verif.Spec.Http
import Verif.Model.Log
import Verif.Model.Num
/-
Model of `WvHttpStream` (urlget/wvhttpstream.cc, include/wvhttppool.h): how requests are sent over one connection and how the
answers of the server are given to the requests.

Simplifications: no time-outs; nothing is uploaded (`putstream` is NULL); writing to the server always succeeds while the
stream is open, what is written is recorded as the list of requests sent (not their text); bytes that have arrived and were not
read (in the socket, the buffer of the TCP stream and `inbuf`) are one list, and how many of them a `read` gets is a parameter
of `execute`; the program does not close the stream it gets its page from; `done_count` and the log are left out. `none` is a
failed assertion or undefined behaviour. `bytes_remaining` and counters do not overflow.
-/
namespace Wv.Http
open Spec.Http (Bytes Hdr Out)

/-- A `WvUrlRequest` (include/wvhttppool.h:43-65): one that was added by the user, with the number of it and whether it is a
    HEAD request; or a test of pipelining, which is always HEAD and has no `outstream`. The number tells objects apart. -/
inductive Req where
  | get (id : Nat) (head : Bool)
  | test (n : Nat)
  deriving DecidableEq, Repr

def Req.head : Req → Bool
  | .get _ h => h
  | .test _ => true

def Req.isTest : Req → Bool
  | .get _ _ => false
  | .test _ => true

def Req.id? : Req → Option Nat
  | .get id _ => some id
  | .test _ => none

/-- `encoding` (include/wvhttppool.h:188-190). -/
inductive Enc where
  | unknown | chunked | contentLength | infinity
  | postHeadInfinity | postHeadChunked | postHeadStream
  | chuckInfinity | chuckChunked | chuckStream
  deriving DecidableEq, Repr

def Enc.postHead : Enc → Bool
  | .postHeadInfinity | .postHeadChunked | .postHeadStream => true
  | _ => false

/-- A `WvHttpStream` (include/wvhttppool.h:137-192): the lists of requests, `curl`, counters, settings, the state of the parser;
    `broken` is whether the server is in `pipeline_incompatible`. `sent` are the requests that were written, `inbuf` the bytes
    that arrived, `eof` whether the server closed the connection after them, `outs` what the user sees. -/
structure St where
  urls : List Req := []
  waiting : List Req := []
  curl : Option Req := none
  count : Nat := 0
  max : Nat
  pipe : Bool
  keep : Bool := true
  tests : Nat := 0
  lastTest : Bool := false
  response : Bytes := []
  testResponse : Bytes := []
  enc : Enc := .unknown
  remaining : Nat := 0
  trailer : Bool := false
  broken : Bool := false
  closed : Bool := false
  err : Bool := false
  sent : List Req := []
  inbuf : Bytes := []
  eof : Bool := false
  outs : Nat → Out := fun _ => {}

/-- Changing what the user sees, if the request has an `outstream`. -/
def St.out (s : St) (u : Req) (f : Out → Out) : St :=
  match u with
  | .get id _ => { s with outs := fun i => if i = id then f (s.outs i) else s.outs i }
  | .test _ => s

/-- `send_request` (urlget/wvhttpstream.cc:217-226). -/
def St.send (s : St) (u : Req) : St :=
  { s with count := s.count + 1, sent := if s.closed then s.sent else s.sent ++ [u] }

/-- `start_pipeline_test` (urlget/wvhttpstream.cc:229-240). -/
def St.startTest (s : St) : St :=
  let u := Req.test s.count
  let s := s.send u
  { s with urls := s.urls ++ [u] }

/-- `request_next` (urlget/wvhttpstream.cc:243-267). -/
def St.requestNext (s : St) : St :=
  match s.waiting with
  | [] => s
  | u :: ws =>
    if s.count ≥ s.max then s
    else if !s.pipe && !s.urls.isEmpty then s
    else
      let s := { s with waiting := ws }
      let s := if s.pipe && s.count == 0 && 1 < s.max then s.startTest else s
      let s := s.send u
      { s with urls := s.urls ++ [u] }

/-- `close` (urlget/wvhttpstream.cc:65-105), where `doneurl()` is `done`. -/
def St.closeWith (done : St → Option St) (s : St) : Option St :=
  let failure := s.pipe && decide (1 < s.max) && (decide (s.tests < 1) || (s.tests == 1 && s.lastTest))
  let s := { s with broken := s.broken || failure, closed := true }
  (if s.err && !failure then
    match s.curl.or (s.urls.head?.or s.waiting.head?) with
    | some u => done { s with curl := some u }
    | none => some s
   else some s).bind fun s =>
  let s := { s with waiting := [] }
  if s.curl.isSome then done s else some s

/-- The rest of `doneurl` (urlget/wvhttpstream.cc:124-160): `in_doneurl` is set, so that `doneurl` inside `close` returns at
    once. -/
def St.doneurl (s : St) : Option St :=
  match s.curl, s.urls with
  | some c, u :: us =>
    if c ≠ u then none
    else
      let last := s.response
      let s := { s with response := [], enc := .unknown, trailer := false, remaining := 0, lastTest := u.isTest }
      let broken := u.isTest && s.tests != 0 && s.testResponse != last
      let s :=
        if u.isTest then
          let s := { s with tests := s.tests + 1 }
          let s := if s.tests == 1 then s.startTest else if broken then { s with broken := true } else s
          { s with testResponse := last }
        else s
      let s := s.out u fun o => { o with done := true }
      let s := { s with curl := none, urls := s.urls.tail }
      (if broken then s.closeWith some else some s).map St.requestNext
  | _, _ => none

/-- `close` (urlget/wvhttpstream.cc:65-105). -/
def St.close (s : St) : Option St := s.closeWith St.doneurl

/-- `seterr` (streams/wvstream.cc:445-452). -/
def St.seterr (s : St) : Option St := if s.err then some s else { s with err := true }.close

/-- `addurl` of a request with a good URL (urlget/wvhttppool.cc:71-80). -/
def St.addurl (s : St) (u : Req) : St := { s with waiting := s.waiting ++ [u] }.requestNext

/-- `read(buf, n)` (streams/wvstream.cc:487-525, streams/wvstreamclone.cc:103-117, streams/wvfdstream.cc:140-159), where at
    most `k` bytes come at once: at the end of the data the stream is closed. -/
def St.read (s : St) (n k : Nat) : Option (Bytes × St) :=
  if n = 0 then some ([], s)
  else if s.inbuf = [] then
    if s.eof then s.close.map fun s => ([], s) else some ([], s)
  else some (s.inbuf.take (min n k), { s with inbuf := s.inbuf.drop (min n k) })

/-- `getline()` (streams/wvstream.cc:604-690): a line that has arrived completely, without its newline; at the end of the data
    the stream is closed and what is left is a line. A NUL ends the string. -/
def St.getline (s : St) : Option (Option Bytes × St) :=
  if (10 : Byte) ∈ s.inbuf then
    some (some ((s.inbuf.takeWhile (· != 10)).takeWhile (· != 0)), { s with inbuf := (s.inbuf.dropWhile (· != 10)).drop 1 })
  else if s.eof then
    s.close.map fun s =>
      if s.inbuf = [] then (none, s) else (some (s.inbuf.takeWhile (· != 0)), { s with inbuf := [] })
  else some (none, s)

/-- `!strncasecmp(s, p, strlen(p))`. -/
def ciPrefix (p s : Bytes) : Bool := (s.take p.length).map tolower == p.map tolower

/-- `strstr(s, p) != NULL`. -/
def strstr (p : Bytes) : Bytes → Bool
  | [] => p.isEmpty
  | c :: s => p.isPrefixOf (c :: s) || strstr p s

/-- What follows the first `c` (`strchr`). -/
def after (c : Byte) (s : Bytes) : Option Bytes := if c ∈ s then some ((s.dropWhile (· != c)).drop 1) else none

def lContentLength : Bytes := str ['C', 'o', 'n', 't', 'e', 'n', 't', '-', 'l', 'e', 'n', 'g', 't', 'h', ':', ' ']
def lTransferEncoding : Bytes :=
  str ['T', 'r', 'a', 'n', 's', 'f', 'e', 'r', '-', 'E', 'n', 'c', 'o', 'd', 'i', 'n', 'g', ':', ' ']
def lChunked : Bytes := str ['c', 'h', 'u', 'n', 'k', 'e', 'd']
def lKeepAlive : Bytes :=
  str ['C', 'o', 'n', 'n', 'e', 'c', 't', 'i', 'o', 'n', ':', ' ', 'k', 'e', 'e', 'p', '-', 'a', 'l', 'i', 'v', 'e']
def lClose : Bytes := str ['C', 'o', 'n', 'n', 'e', 'c', 't', 'i', 'o', 'n', ':', ' ', 'c', 'l', 'o', 's', 'e']
def lHttp : Bytes := str ['H', 'T', 'T', 'P', '/']
def lHttp10 : Bytes := str ['H', 'T', 'T', 'P', '/', '1', '.', '0']

/-- The headers that matter to the stream itself (urlget/wvhttpstream.cc:421-435). A negative length becomes a huge one. -/
def St.framing (s : St) (line : Bytes) : Option St :=
  if ciPrefix lContentLength line then
    (Num.num (line.drop 16)).map fun n => { s with remaining := (n % 2 ^ 64).toNat, enc := .contentLength }
  else if ciPrefix lTransferEncoding line && strstr lChunked (line.drop 19) then some { s with enc := .chunked }
  else if ciPrefix lKeepAlive line then some { s with keep := true }
  else if ciPrefix lClose line then some { s with keep := false }
  else some s

/-- A line that is not blank (urlget/wvhttpstream.cc:437-466). -/
def St.header (s : St) (u : Req) (line : Bytes) : Option St :=
  match after 58 line with
  | some v => some (s.out u fun o => { o with headers := o.headers ++ [(line.takeWhile (· != 58), trimString v)] })
  | none =>
    if ciPrefix lHttp line then
      match after 32 line with
      | some v =>
        if u.isTest then some s
        else (Num.num v).map fun n =>
          s.out u fun o => { o with version := (line.takeWhile (· != 32)).drop 5, status := n }
      | none => some s
    else some s

/-- A blank line (urlget/wvhttpstream.cc:469-497). -/
def St.blank (s : St) (u : Req) : Option St :=
  let s := { s with curl := some u, trailer := false, enc := if s.enc = .unknown then .infinity else s.enc }
  if u.head then
    if lHttp10.isPrefixOf s.response then
      some { s with enc := if s.enc = .infinity then .postHeadInfinity
                           else if s.enc = .chunked then .postHeadChunked else .postHeadStream }
    else s.doneurl
  else some s

/-- What the first line of an answer tells about pipelining (urlget/wvhttpstream.cc:383-411): whether it is broken. -/
def St.suspicious (s : St) (line : Bytes) : Option Bool :=
  if s.lastTest then
    if line = s.testResponse then some true
    else if line = [] then some false
    else
      match after 32 line with
      | some v => (Num.num v).map fun n => n == 400
      | none => some false
  else some false

/-- A line of the header section (urlget/wvhttpstream.cc:371-498). -/
def St.headerLine (s : St) (line : Bytes) : Option St :=
  let first := s.response = []
  let s := if first then { s with response := line, keep := !lHttp10.isPrefixOf line } else s
  (if first then s.suspicious line else some false).bind fun bad =>
  if bad then { s with broken := true }.close
  else
    match s.urls with
    | [] => s.seterr
    | u :: _ =>
      (s.framing line).bind fun s =>
      if line = [] then s.blank u else s.header u line

/-- The digits read by `strtoul(s, NULL, 16)`. -/
def hexDigits (n : Nat) : Bytes → Nat
  | [] => n
  | c :: s => if isxdigit c then hexDigits (n * 16 + Spec.Http.digit c) s else n

/-- `strtoul(s, NULL, 16)`: white space, a sign, perhaps 0x, digits; ULONG_MAX if too large. -/
def strtoul16 (s : Bytes) : Nat :=
  let s := s.dropWhile isspace
  let neg := s.head? = some (ch '-')
  let s := if neg || s.head? = some (ch '+') then s.drop 1 else s
  let s :=
    if s.head? = some (ch '0') && (s.drop 1).head?.map tolower = some (ch 'x') && (s.drop 2).head?.any isxdigit then s.drop 2
    else s
  let n := hexDigits 0 s
  if 2 ^ 64 ≤ n then 2 ^ 64 - 1 else if neg then (2 ^ 64 - n) % 2 ^ 64 else n

/-- A line between the chunks (urlget/wvhttpstream.cc:559-588). -/
def St.chunkLine (s : St) (line : Bytes) : Option St :=
  if s.trailer then (if line = [] then s.doneurl else some s)
  else if line = [] then some s
  else
    let n := strtoul16 line
    some { s with remaining := n, trailer := if n = 0 then true else s.trailer }

/-- Writing to the stream of the current request. -/
def St.deliver (s : St) (data : Bytes) : St :=
  match s.curl with
  | some u => s.out u fun o => { o with body := o.body ++ data }
  | none => s

/-- `execute` (urlget/wvhttpstream.cc:310-671); `sizeof(buf)` is 1024. The statements after `if (!isok()) return` that ask
    again whether the stream is ok are left out: nothing between closes it. -/
def St.execute (s : St) (k : Nat) : Option St :=
  match s.curl with
  | none =>
    s.getline.bind fun (line, s) =>
      match line with
      | none => some s
      | some line => s.headerLine (trimString line)
  | some c =>
    if c.isTest then
      (if s.enc.postHead then some s else { s with tests := s.tests + 1, lastTest := false }.close).bind fun s =>
        if s.curl.isSome then s.doneurl else some s
    else if s.enc.postHead then
      (s.read 5 k).bind fun (data, s) =>
        if data ≠ [] ∧ data.length < 5 then none
        else
          let s :=
            if data ≠ [] ∧ data ≠ lHttp then
              { s with enc := match s.enc with
                  | .postHeadInfinity => .chuckInfinity
                  | .postHeadChunked => .chuckChunked
                  | .postHeadStream => .chuckStream
                  | e => e }
            else s
          (if s.keep then s.doneurl else some s).map fun s => { s with inbuf := data ++ s.inbuf }
    else if s.enc = .chuckInfinity then
      (s.read 1024 k).bind fun (_, s) => if s.closed then s.doneurl else some s
    else if s.enc = .chuckChunked ∧ s.remaining = 0 then some { s with enc := .chunked }
    else if s.enc = .chuckChunked ∨ s.enc = .chuckStream then
      (s.read (min s.remaining 1024) k).bind fun (data, s) =>
        let s := { s with remaining := s.remaining - data.length }
        if s.remaining ≠ 0 ∧ s.closed then s.seterr else some s
    else if s.enc = .chunked ∧ s.remaining = 0 then
      s.getline.bind fun (line, s) =>
        match line with
        | none => some s
        | some line => s.chunkLine (trimString line)
    else if s.enc = .infinity then
      (s.read 1024 k).bind fun (data, s) => if s.closed then some s else some (s.deliver data)
    else
      (s.read (min s.remaining 1024) k).bind fun (data, s) =>
        if s.closed then some s
        else
          let s := { s with remaining := s.remaining - data.length }
          let s := s.deliver data
          if s.remaining = 0 ∧ s.enc = .contentLength ∧ s.curl.isSome then s.doneurl else some s

/-- What can happen to a stream: a request is added; bytes of the server arrive; the server hangs up; `execute` is called. -/
inductive Event where
  | add (head : Bool)
  | arrive (n : Nat)
  | hangup
  | exec (k : Nat)
  deriving DecidableEq, Repr

/-- What a server sends that answers the requests in the order they were sent: the `i`-th one, if it is a HEAD request by
    `ans i true`, otherwise by `ans i false`. -/
def wire (ans : Nat → Bool → Spec.Http.Resp) (sent : List Req) : Bytes :=
  (sent.zipIdx.map fun (u, i) => (ans i u.head).bytes u.head).flatten

/-- A stream and its surroundings (not in the code): the requests that were added, how many bytes of the server have arrived. -/
structure Sys where
  st : St
  asked : List Req := []
  got : Nat := 0

/-- One event. A stream that is closed is not used any more (urlget/wvhttppool.cc:146-156, 216-223). -/
def Sys.step (ans : Nat → Bool → Spec.Http.Resp) (y : Sys) (e : Event) : Option Sys :=
  if y.st.closed then some y
  else
    match e with
    | .add head =>
      let u := Req.get y.asked.length head
      some { y with st := y.st.addurl u, asked := y.asked ++ [u] }
    | .arrive n =>
      let new := ((wire ans y.st.sent).drop y.got).take n
      some { y with st := { y.st with inbuf := y.st.inbuf ++ new }, got := y.got + new.length }
    | .hangup => some { y with st := { y.st with eof := true } }
    | .exec k => (y.st.execute k).map fun s => { y with st := s }

/-- Some events. -/
def Sys.run (ans : Nat → Bool → Spec.Http.Resp) (y : Sys) : List Event → Option Sys
  | [] => some y
  | e :: es => (y.step ans e).bind fun y => y.run ans es

/-- A new stream (urlget/wvhttpstream.cc:29-53): `max_requests`, `enable_pipelining`. -/
def Sys.new (max : Nat) (pipe : Bool) : Sys := { st := { max := max, pipe := pipe } }

end Wv.Http
