import Verif.Spec.UrlPool
/-!
`WvHttpPool` (urlget/wvhttppool.cc): requests for URLs are given to connections, one connection for each address and user.

The streams are abstract here (for those of FTP see C108, of HTTP see C66). What is used of them: a stream looks only at the requests it
was given and has not given back; while it is open, it gives a request back when it has ended it; when it closes or is deleted, it may end any of
those it has. What they do, and what the name service answers, is given beforehand. That a program closes its output itself is left out,
as are the tests for pipelining, which the pool does not see.
-/
namespace Wv.UrlPool
open Spec.UrlPool

/-- A `WvUrlRequest` (include/wvhttppool.h:43-63) with what `WvUrl` knows of the address (include/wvurl.h:62-68). `ended` is
    `outstream == NULL`, `stream` is `instream`. -/
structure Req where
  id : Nat
  url : Url
  addr : Option Spec.Addr.Addr := none
  resolving : Bool := true
  ended : Bool := false
  stream : Option Nat := none
deriving DecidableEq

/-- `WvUrl::isok` (include/wvurl.h:24-25). -/
def Req.isok (r : Req) : Bool := r.url.port != 0 && (r.resolving || r.addr.isSome)

/-- `WvUrl::resolve` (ipstreams/wvurl.cc:165-189). -/
def Req.resolve (r : Req) : Ans → Req × Bool
  | .unknown => ({ r with resolving := false }, false)
  | .waiting => ({ r with resolving := true }, false)
  | .found a => ({ r with resolving := false, addr := some a }, true)

/-- `WvUrlStream::Target target(i->url.getaddr(), i->url.getuser())` (urlget/wvhttppool.cc:180, 208; include/wvurl.h:38-39). -/
def Req.target (r : Req) : Target := ⟨r.addr.getD ⟨0, 0, 0, 0⟩, r.url.port % 65536, r.url.user⟩

/-- A `WvUrlStream` (include/wvhttppool.h:111-173) in `conns`. `open_` is `isok()`, `held` are the requests in `urls` and
    `waiting_urls`. -/
structure Conn where
  sid : Nat
  target : Target
  kind : Kind
  password : Text
  open_ : Bool := true
  held : List Nat := []
deriving DecidableEq

/-- The pool. `count` is the number of the next request, `next` that of the next stream; `eofs` are the requests whose output has ended,
    in order. -/
structure Pool where
  reqs : List Req := []
  conns : List Conn := []
  count : Nat := 0
  next : Nat := 0
  eofs : List Nat := []
deriving DecidableEq

/-- `WvUrlRequest::done` (urlget/wvhttppool.cc:64-74) of some. -/
def Pool.done (w : Pool) (l : List Nat) : Pool :=
  { w with
    reqs := w.reqs.map fun r => if r.id ∈ l then { r with ended := true } else r
    eofs := w.eofs ++ (w.reqs.filter fun r => decide (r.id ∈ l) && !r.ended).map (·.id) }

/-- The requests of this stream. -/
def Pool.held (w : Pool) (sid : Nat) : List Nat := (w.conns.filter (·.sid == sid)).flatMap (·.held)

/-- `unconnect` (urlget/wvhttppool.cc:258-276); `l`: those that the destructor of the stream ends. -/
def Pool.unconnect (w : Pool) (sid : Nat) (l : List Nat) : Pool :=
  let last := l.filter (· ∈ w.held sid)
  let w : Pool := { w with reqs := w.reqs.map fun r => if r.stream = some sid then { r with stream := none } else r }
  let w := w.done last
  { w with conns := w.conns.filter (·.sid != sid) }

/-- `addurl` (urlget/wvhttppool.cc:244-255, 28-55). The constructor of the URL asks for the address. -/
def Pool.addurl (w : Pool) (u : Url) (a : Ans) : Pool :=
  { w with reqs := w.reqs ++ [(({ id := w.count, url := u } : Req).resolve a).1], count := w.count + 1 }

/-- The first loop of `post_select` (urlget/wvhttppool.cc:155-165). -/
def Pool.reap (w : Pool) (last : Nat → List Nat) : Pool :=
  ((w.conns.filter (!·.open_)).map (·.sid)).foldl (fun w s => w.unconnect s (last s)) w

/-- The second loop of `post_select` (urlget/wvhttppool.cc:167-198): what it keeps, the connections and the ends. `delurl`
    (urlget/wvhttppool.cc:89-97) takes the request out of the lists of the stream. -/
def sweep (dns : Nat → Ans) : List Req → List Conn → List Nat → List Req × List Conn × List Nat
  | [], cs, e => ([], cs, e)
  | r :: rs, cs, e =>
    if r.ended || !r.isok then
      sweep dns rs (cs.map fun c => if c.target = r.target then { c with held := c.held.filter (· != r.id) } else c)
        (if r.ended then e else e ++ [r.id])
    else
      let r := if r.stream.isNone then (r.resolve (dns r.id)).1 else r
      let x := sweep dns rs cs e
      (r :: x.1, x.2)

/-- `post_select` (urlget/wvhttppool.cc:149-201). -/
def Pool.postSelect (w : Pool) (dns : Nat → Ans) (last : Nat → List Nat) : Pool :=
  let w := w.reap last
  let x := sweep dns w.reqs w.conns w.eofs
  { w with reqs := x.1, conns := x.2.1, eofs := x.2.2 }

/-- `strncasecmp(a, b, n) == 0` for texts without NUL. -/
def sameStart (n : Nat) (a b : Text) : Bool := (a.take n).map tolower == (b.take n).map tolower

/-- Which stream is made (urlget/wvhttppool.cc:225-231); `none`: none, and the NULL pointer is put into the table. -/
def kindOf (p : Text) : Option Kind :=
  if sameStart 4 p (str ['h', 't', 't', 'p']) then some (.http (p == str ['h', 't', 't', 'p', 's']))
  else if p.map tolower == str ['f', 't', 'p'] then some .ftp
  else none

def Pool.find (w : Pool) (i : Nat) : Option Req := w.reqs.find? (·.id == i)

def Pool.conn (w : Pool) (t : Target) : Option Conn := w.conns.find? (·.target == t)

/-- `new WvHttpStream` or `new WvFtpStream`, `conns.add`, `append` (urlget/wvhttppool.cc:224-236). -/
def Pool.connect (w : Pool) (t : Target) (k : Kind) (password : Text) : Pool :=
  { w with conns := w.conns ++ [{ sid := w.next, target := t, kind := k, password := password }], next := w.next + 1 }

/-- A stream closes and ends some of its requests. -/
def Pool.die (w : Pool) (sid : Nat) (l : List Nat) : Pool :=
  let w' := w.done (l.filter (· ∈ w.held sid))
  { w' with conns := w'.conns.map fun c => if c.sid = sid then { c with open_ := false } else c }

/-- `s->addurl(i.ptr()); i->instream = s` (urlget/wvhttppool.cc:238-242); `fail`: the stream closes at once, as it cannot write. -/
def Pool.give (w : Pool) (i sid : Nat) (fail : Option (List Nat)) : Pool :=
  let w : Pool := { w with
    reqs := w.reqs.map fun r => if r.id = i then { r with stream := some sid } else r
    conns := w.conns.map fun c => if c.sid = sid then { c with held := c.held ++ [i] } else c }
  match fail with
  | none => w
  | some l => w.die sid l

/-- One turn of the loop of `execute` (urlget/wvhttppool.cc:209-242). -/
def Pool.turn (dns : Nat → Ans) (last : Nat → List Nat) (fail : Nat → Option (List Nat)) (w : Pool) (i : Nat) : Option Pool :=
  match w.find i with
  | none => some w
  | some r =>
    if r.ended || !r.isok then some w
    else
      let x := r.resolve (dns i)
      let w : Pool := { w with reqs := w.reqs.map fun q => if q.id = i then x.1 else q }
      if !x.2 then some w
      else
        let t := x.1.target
        let w :=
          match w.conn t with
          | some c => if c.open_ then w else w.unconnect c.sid (last c.sid)
          | none => w
        match w.find i with
        | none => some w
        | some r =>
          if r.ended then some w
          else
            match w.conn t with
            | some c => some (if r.stream.isNone then w.give i c.sid (fail i) else w)
            | none =>
              (kindOf r.url.proto).map fun k =>
                let s := w.next
                let w := w.connect t k r.url.password
                if r.stream.isNone then w.give i s (fail i) else w

/-- The loop. -/
def Pool.turns (dns : Nat → Ans) (last : Nat → List Nat) (fail : Nat → Option (List Nat)) : List Nat → Pool → Option Pool
  | [], w => some w
  | i :: is, w => (w.turn dns last fail i).bind (Pool.turns dns last fail is)

/-- `execute` (urlget/wvhttppool.cc:204-243), after the streams themselves were run. -/
def Pool.execute (w : Pool) (dns : Nat → Ans) (last : Nat → List Nat) (fail : Nat → Option (List Nat)) : Option Pool :=
  Pool.turns dns last fail (w.reqs.map (·.id)) w

/-- An open stream ends a request that it has. -/
def Pool.finish (w : Pool) (sid i : Nat) : Pool :=
  if w.conns.any fun c => c.sid == sid && c.open_ && decide (i ∈ c.held) then
    let w := w.done [i]
    { w with conns := w.conns.map fun c => if c.sid = sid then { c with held := c.held.filter (· != i) } else c }
  else w

/-- `idle` (include/wvhttppool.h:307-308). -/
def Pool.idle (w : Pool) : Bool := w.reqs.isEmpty

inductive Op where
  | add (u : Url) (a : Ans)
  | select (dns : Nat → Ans) (last : Nat → List Nat)
  | exec (dns : Nat → Ans) (last : Nat → List Nat) (fail : Nat → Option (List Nat))
  | finish (sid i : Nat)
  | die (sid : Nat) (l : List Nat)

def Pool.step (w : Pool) : Op → Option Pool
  | .add u a => some (w.addurl u a)
  | .select d l => some (w.postSelect d l)
  | .exec d l f => w.execute d l f
  | .finish s i => some (w.finish s i)
  | .die s l => some (w.die s l)

def Pool.run (w : Pool) : List Op → Option Pool
  | [] => some w
  | o :: os => (w.step o).bind fun w => w.run os

end Wv.UrlPool
