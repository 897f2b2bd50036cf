import Verif.Model.Basic
/-
What a web server sends (RFC 2616, section 6 and 3.6.1), and what a program that asked for a page is to get.
-/
namespace Spec.Http
open Wv

abbrev Bytes := List Byte

/-- A header: name and value. -/
abbrev Hdr := Bytes × Bytes

/-- A chunk of a body: the length as it is written, what else is on that line, the data. -/
structure Chunk where
  size : Bytes
  ext : Bytes
  data : Bytes
  deriving DecidableEq, Repr

/-- How a body is sent: not at all; with its length in a header (spelled `name`, the length written as `text`); or in chunks,
    after a header spelled `name`, with a last chunk and trailers. -/
inductive Body where
  | none
  | length (name text data : Bytes)
  | chunked (name : Bytes) (chunks : List Chunk) (last : Bytes × Bytes) (trailers : List Hdr)
  deriving DecidableEq, Repr

/-- An answer: the status as it is written, the reason, the headers before and after the one about the body, the body. -/
structure Resp where
  code : Bytes
  reason : Bytes
  before : List Hdr := []
  after : List Hdr := []
  body : Body
  deriving DecidableEq, Repr

def crlf : Bytes := [13, 10]

/-- The first line of an answer. -/
def Resp.statusLine (r : Resp) : Bytes := str ['H', 'T', 'T', 'P', '/', '1', '.', '1', ' '] ++ (r.code ++ 32 :: r.reason)

/-- All headers. -/
def Resp.headers (r : Resp) : List Hdr :=
  r.before ++ (match r.body with
    | .none => []
    | .length name text _ => [(name, text)]
    | .chunked name _ _ _ => [(name, str ['c', 'h', 'u', 'n', 'k', 'e', 'd'])]) ++ r.after

/-- The line of a header. -/
def hdrLine (h : Hdr) : Bytes := h.1 ++ 58 :: 32 :: h.2

/-- Lines, each ended by CR LF. -/
def lines (l : List Bytes) : Bytes := l.flatMap (· ++ crlf)

/-- A chunk, with its lengths and line ends. -/
def Chunk.bytes (c : Chunk) : Bytes := c.size ++ c.ext ++ crlf ++ c.data ++ crlf

/-- The end of a body in chunks. -/
def tail (last : Bytes × Bytes) (trailers : List Hdr) : Bytes := last.1 ++ last.2 ++ crlf ++ lines (trailers.map hdrLine) ++ crlf

/-- The bytes of a body. -/
def Body.bytes : Body → Bytes
  | .none => []
  | .length _ _ data => data
  | .chunked _ chunks last trailers => chunks.flatMap Chunk.bytes ++ tail last trailers

/-- The bytes of an answer; an answer to HEAD has the headers only. -/
def Resp.bytes (r : Resp) (head : Bool) : Bytes :=
  r.statusLine ++ crlf ++ lines (r.headers.map hdrLine) ++ crlf ++ (if head then [] else r.body.bytes)

/-- What was sent in a body. -/
def Body.content : Body → Bytes
  | .none => []
  | .length _ _ data => data
  | .chunked _ chunks _ _ => chunks.flatMap Chunk.data

/-- The value of a digit. -/
def digit (b : Byte) : Nat := if b.toNat < 58 then b.toNat - 48 else if b.toNat < 71 then b.toNat - 55 else b.toNat - 87

/-- The number written in a base. -/
def value (base : Nat) (t : Bytes) : Nat := t.foldl (fun n b => n * base + digit b) 0

/-- A text in a line. -/
def Line (t : Bytes) : Prop := ∀ b ∈ t, b ≠ 0 ∧ b ≠ 10 ∧ b ≠ 13

/-- A text that does not begin or end with white space. -/
def Trimmed (t : Bytes) : Prop := (∀ b, t.head? = some b → isspace b = false) ∧ (∀ b, t.getLast? = some b → isspace b = false)

/-- A name of a header. -/
def Name (t : Bytes) : Prop := t ≠ [] ∧ ∀ b ∈ t, b ≠ 0 ∧ b ≠ 58 ∧ isspace b = false

/-- A header that can be written. -/
def HdrOk (h : Hdr) : Prop := Name h.1 ∧ Line h.2 ∧ Trimmed h.2

/-- In lower case. -/
def lower (t : Bytes) : Bytes := t.map tolower

def contentLength : Bytes := str ['c', 'o', 'n', 't', 'e', 'n', 't', '-', 'l', 'e', 'n', 'g', 't', 'h']
def transferEncoding : Bytes := str ['t', 'r', 'a', 'n', 's', 'f', 'e', 'r', '-', 'e', 'n', 'c', 'o', 'd', 'i', 'n', 'g']

/-- The length line of a chunk of `n` bytes. -/
def SizeOk (size ext : Bytes) (n : Nat) : Prop :=
  size ≠ [] ∧ (∀ b ∈ size, isxdigit b = true) ∧ value 16 size = n ∧ n < 2 ^ 64 ∧
  Line ext ∧ (∀ b, ext.head? = some b → b = 59) ∧ (∀ b, ext.getLast? = some b → isspace b = false)

/-- A body that can be sent; the length of one that is not in chunks fits in an int. -/
def Body.Ok : Body → Prop
  | .none => True
  | .length name text data =>
    lower name = contentLength ∧ text ≠ [] ∧ (∀ b ∈ text, isdigit b = true) ∧ value 10 text = data.length ∧ data.length < 2 ^ 31
  | .chunked name chunks last trailers =>
    lower name = transferEncoding ∧ (∀ c ∈ chunks, SizeOk c.size c.ext c.data.length ∧ c.data ≠ []) ∧
    SizeOk last.1 last.2 0 ∧ ∀ h ∈ trailers, HdrOk h

/-- An answer as a server that keeps to HTTP/1.1 sends it. An answer to something else than HEAD has a body, perhaps an empty
    one. There is no colon in the reason. -/
structure Resp.Ok (r : Resp) (head : Bool) : Prop where
  code : r.code ≠ [] ∧ (∀ b ∈ r.code, isdigit b = true) ∧ value 10 r.code < 1000
  reason : (∀ b ∈ r.reason, b ≠ 0 ∧ b ≠ 10 ∧ b ≠ 13 ∧ b ≠ 58) ∧ ∀ b, r.reason.getLast? = some b → isspace b = false
  headers : ∀ h ∈ r.before ++ r.after, HdrOk h ∧ lower h.1 ≠ contentLength ∧ lower h.1 ≠ transferEncoding
  body : r.body.Ok
  none : r.body = .none → head = true

/-- What a program sees of the page it asked for: version, status, headers, contents, and whether that is all. -/
structure Out where
  version : Bytes := []
  status : Int := 0
  headers : List Hdr := []
  body : Bytes := []
  done : Bool := false
  deriving DecidableEq, Repr

/-- All of an answer. -/
def Resp.whole (r : Resp) (head : Bool) : Out :=
  { version := str ['1', '.', '1'], status := value 10 r.code, headers := r.headers,
    body := if head then [] else r.body.content, done := true }

/-- A part of an answer that is not complete. -/
def Part (o w : Out) : Prop :=
  o.done = false ∧ ((o.version = [] ∧ o.status = 0) ∨ (o.version = w.version ∧ o.status = w.status)) ∧
  o.headers <+: w.headers ∧ o.body <+: w.body ∧ (o.body ≠ [] → o.headers = w.headers)

end Spec.Http
