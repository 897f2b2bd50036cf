import Verif.Spec.Tokens
import Verif.Model.Log
/-!
`WvProtoStream` (streams/wvprotostream.cc): lines as lists of words, and a state machine that gets them. The buffer `tokbuf` is the list of its bytes (for
buffers see C10).
-/
namespace Wv.Tokens
open Spec.Tokens

/-- `whitespace` (streams/wvprotostream.cc:54); `sizeof` counts the NUL at the end, too. -/
def whitespace : List Byte := [ch ' ', ch '\t', ch '\r', ch '\n', 0]

/-- `WvBufBase<unsigned char>::_match` (utils/wvbuffer.cc:63-96) with the offset so far: the number of bytes before the first that is not in the list, or that is, if
    `reverse`; for a buffer without such a byte it is its size if `reverse`, but 0 otherwise. -/
def matchLoop (set : List Byte) (reverse : Bool) : List Byte → Nat → Nat
  | [], n => if reverse then n else 0
  | b :: t, n => if (decide (b ∈ set)) == reverse then n else matchLoop set reverse t (n + 1)

/-- `next_token` (streams/wvprotostream.cc:52-63): the token and what is left in the buffer. -/
def nextToken (buf : List Byte) : Option Text × List Byte :=
  let buf := buf.drop (matchLoop whitespace false buf 0)
  let len := matchLoop whitespace true buf 0
  if len = 0 then (none, buf) else (some (buf.take len), buf.drop len)

/-- The buffer after `k` calls of `next_token` or `next_token_str` (streams/wvprotostream.cc:66-74). -/
def after : Nat → List Byte → List Byte
  | 0, buf => buf
  | k + 1, buf => after k (nextToken buf).2

/-- `token_remaining` (streams/wvprotostream.cc:77-81): as a C string, trimmed; the buffer is empty then. -/
def tokenRemaining (buf : List Byte) : Text := trimString ((buf ++ [0]).takeWhile (· != 0))

/-- The loop of `tokenize` (streams/wvprotostream.cc:87-104) and `list_to_array` (streams/wvprotostream.cc:112-129), with a bound on the number of rounds. -/
def tokens : Nat → List Byte → List Text
  | 0, _ => []
  | n + 1, buf =>
    match nextToken buf with
    | (none, _) => []
    | (some t, rest) => t :: tokens n rest

def tokenize (buf : List Byte) : List Text := tokens (buf.length + 1) buf

/-- `tokline` (streams/wvprotostream.cc:137-155) with what was left in the buffer; the log is left out. -/
def tokline (_old : List Byte) (line : Text) : Option Text × List Byte :=
  let buf : List Byte := []
  nextToken (buf ++ line)

/-- `strcasecmp(a, b) == 0`. -/
def sameCase (a b : Text) : Bool := a.map tolower == b.map tolower

/-- The loop of `tokanal` (streams/wvprotostream.cc:161-176). -/
def anal (t : Text) (caseSensitive : Bool) : List Text → Nat → Int
  | [], _ => -1
  | x :: l, i => if (!caseSensitive && sameCase t x) || (caseSensitive && t == x) then i else anal t caseSensitive l (i + 1)

def tokanal (t : Text) (lookup : List Text) (caseSensitive : Bool) : Int := anal t caseSensitive lookup 0

/-- `execute` (streams/wvprotostream.cc:193-204) for each line that is read. `f` is `do_state` with the state of the program: it gets the token and the buffer, and may
    leave anything in it. -/
def executes {σ : Type} (f : σ → Text → List Byte → σ × List Byte) : List Text → σ → List Byte → σ
  | [], s, _ => s
  | line :: l, s, buf =>
    match tokline buf line with
    | (none, buf) => executes f l s buf
    | (some t, buf) =>
      let x := f s t buf
      executes f l x.1 x.2

end Wv.Tokens
