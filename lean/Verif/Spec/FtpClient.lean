import Verif.Model.Basic
import Verif.Spec.Addr
import Verif.Spec.Url
/-!
What an FTP client does (C108): the conversation with the server, and what the user of the client sees.
-/
namespace Spec.FtpClient
open Wv

abbrev Text := List Byte

/-- A file to fetch, or to store when there is something to put. -/
structure Req where
  id : Nat
  path : Text
  /-- What can be read from the source at once, and what comes only later. -/
  put : Option (List Text × List Text) := none
  /-- Directories are to be made. -/
  mkdirs : Bool := false
deriving DecidableEq, Repr

/-- What happens on the wire and on the output of the requests. -/
inductive Ev where
  /-- A command is sent. -/
  | cmd (t : Text)
  /-- The answer to it. -/
  | reply (t : Text)
  /-- A data connection is made. -/
  | dial (a : Spec.Addr.Addr) (port : Nat)
  /-- Data of a file is passed on to the user. -/
  | out (id : Nat) (t : Text)
  /-- A line of a listing is passed on to the user. -/
  | entry (id : Nat) (t : Text)
  /-- Data from the user is sent on the data connection. -/
  | sent (id : Nat) (t : Text)
  /-- The user is told that this request has come to its end. -/
  | eof (id : Nat)
deriving DecidableEq

/-- The text begins with this. -/
def begins (cs : List Char) (t : Text) : Prop := ∃ r, t = str cs ++ r

/-- A command line: a word, a space, an argument and the end of the line. -/
def line (word : List Char) (arg : Text) : Text := str word ++ ch ' ' :: arg ++ str ['\r', '\n']

/-- The conversation up to the point where the server takes the user for known. -/
inductive LoggedIn (user password : Text) : List Ev → Prop where
  | open_ (g r : Text) (hg : begins ['2', '2', '0'] g) (hr : begins ['2', '3', '0'] r) :
      LoggedIn user password [.reply g, .cmd (line ['U', 'S', 'E', 'R'] user), .reply r]
  | pass (g r p : Text) (hg : begins ['2', '2', '0'] g) (hr : begins ['3', '3'] r) (hp : begins ['2'] p) :
      LoggedIn user password [.reply g, .cmd (line ['U', 'S', 'E', 'R'] user), .reply r, .cmd (line ['P', 'A', 'S', 'S'] password), .reply p]

def typeI : Text := line ['T', 'Y', 'P', 'E'] (str ['I'])

/-- The login is over, and the server has agreed to send bytes as they are. -/
def Ready (user password : Text) (l : List Ev) : Prop :=
  ∃ a t rest, l = a ++ .cmd typeI :: .reply t :: rest ∧ LoggedIn user password a ∧ begins ['2', '0', '0'] t

/-- The name of a directory of this path, as far as it matters here: nothing is in it that is not in the path, but dots and slashes. -/
def MadeOf (path d : Text) : Prop := ∀ c ∈ d, c ∈ path ∨ c = ch '.' ∨ c = ch '/'

/-- The commands for a request; a request that only fetches has the first five. -/
inductive Fetch (r : Req) : Text → Prop where
  | cwd : Fetch r (line ['C', 'W', 'D'] r.path)
  | pasv : Fetch r (str ['P', 'A', 'S', 'V', '\r', '\n'])
  | list (h : r.put = none) : Fetch r (line ['L', 'I', 'S', 'T'] r.path)
  | retr (h : r.put = none) : Fetch r (line ['R', 'E', 'T', 'R'] r.path)
  | root (h : r.put = none) : Fetch r (line ['C', 'W', 'D'] (str ['/']))
  | stor (h : r.put ≠ none) : Fetch r (line ['S', 'T', 'O', 'R'] r.path)
  | dir (d : Text) (h : r.put ≠ none) (hm : r.mkdirs = true) (hd : MadeOf r.path d) : Fetch r (line ['C', 'W', 'D'] d)
  | mkd (d : Text) (h : r.put ≠ none) (hm : r.mkdirs = true) (hd : MadeOf r.path d) : Fetch r (line ['M', 'K', 'D'] d)

/-- A command may be sent after this conversation. -/
inductive Allowed (user password : Text) (reqs : List Req) (before : List Ev) : Text → Prop where
  | user (g : Text) (hb : before = [.reply g]) (hg : begins ['2', '2', '0'] g) : Allowed user password reqs before (line ['U', 'S', 'E', 'R'] user)
  | pass (g r : Text) (hb : before = [.reply g, .cmd (line ['U', 'S', 'E', 'R'] user), .reply r]) (hg : begins ['2', '2', '0'] g)
      (hr : begins ['3', '3'] r) : Allowed user password reqs before (line ['P', 'A', 'S', 'S'] password)
  | type (hb : LoggedIn user password before) : Allowed user password reqs before typeI
  | file (r : Req) (c : Text) (hr : r ∈ reqs) (hb : Ready user password before) (hc : Fetch r c) : Allowed user password reqs before c

/-- The requests, by number. -/
def ids (l : List Req) : List Nat := l.map (·.id)

/-- The requests that have come to their end, in order. -/
def ended : List Ev → List Nat
  | [] => []
  | .eof i :: l => i :: ended l
  | _ :: l => ended l

/-- What the user of a request sees: its data, and its end. -/
def seen (i : Nat) (l : List Ev) : List Ev := l.filter fun
  | .out j _ | .entry j _ | .eof j => j == i
  | _ => false

/-- The request an event belongs to, if it carries data. -/
def Ev.carries : Ev → Option Nat
  | .out i _ | .entry i _ | .sent i _ => some i
  | _ => none

/-- The name that is sent to the server: a user without a name is anonymous. -/
def nameOf (user : Text) : Text := if user = [] then str ['a', 'n', 'o', 'n', 'y', 'm', 'o', 'u', 's'] else user

/-- The password that is sent to the server, if it asks. -/
def passwordOf (password : Text) : Text := if password = [] then str ['w', 'e', 'a', 's', 'e', 'l', 's', '@'] else password

/-- A line of the server that is not one of a longer answer. -/
def Plain (l : Text) : Prop := 3 ≤ l.length ∧ l[3]? ≠ some (ch '-')

/-- The text of a number below 256. -/
def dec (b : Byte) : Text := (Nat.toDigits 10 b.toNat).map ch

/-- The answer to PASV (RFC 959): the address and the port as six numbers. -/
def pasv (pre : Text) (a : Spec.Addr.Addr) (p q : Byte) (post : Text) : Text :=
  str ['2', '2', '7', ' '] ++ pre ++ dec a.a ++ ch ',' :: dec a.b ++ ch ',' :: dec a.c ++ ch ',' :: dec a.d
    ++ ch ',' :: dec p ++ ch ',' :: dec q ++ post

end Spec.FtpClient
