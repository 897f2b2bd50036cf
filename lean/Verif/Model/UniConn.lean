import Verif.Model.Tcl
import Verif.Model.Key
/-
Model of uniconf/uniclientconn.cc: how commands and arguments travel between a UniConf client and a daemon.

Simplifications: what has arrived on the connection and was not read yet is one list of bytes, which grows between calls
as the network delivers; `getline(0, '\n', 20480)` gives the first complete line of it (streams/wvstream.cc:604-690 is
modelled by itself in Model/Stream.lean), or, once the connection is closed, what is left. Bytes written are a list.
-/
namespace Wv.UniConn
open Wv.Tcl

/-- The names in `cmdinfos` (uniconf/uniclientconn.cc:24-52), in the order of `enum Command`
    (include/uniclientconn.h:49-79). -/
def names : List (List Byte) :=
  [str ['n', 'o', 'o', 'p'], str ['g', 'e', 't'], str ['s', 'e', 't'], str ['s', 'e', 't', 'v'], str ['d', 'e', 'l'],
   str ['s', 'u', 'b', 't'], str ['h', 'c', 'h', 'i', 'l', 'd'], str ['c', 'o', 'm', 'm', 'i', 't'],
   str ['r', 'e', 'f', 'r', 'e', 's', 'h'], str ['q', 'u', 'i', 't'], str ['h', 'e', 'l', 'p'],
   str ['O', 'K'], str ['F', 'A', 'I', 'L'], str ['C', 'H', 'I', 'L', 'D'], str ['O', 'N', 'E', 'V', 'A', 'L'],
   str ['V', 'A', 'L'], str ['T', 'E', 'X', 'T'], str ['H', 'E', 'L', 'L', 'O'], str ['N', 'O', 'T', 'I', 'C', 'E']]

/-- `enum Command` without NONE and INVALID (include/uniclientconn.h:49-80): the index in `cmdinfos`. -/
abbrev Command := Fin 19

/-- `cmdinfos[cmd].name` (uniconf/uniclientconn.cc:24-52). -/
def name (c : Command) : List Byte := names.getD c.val []

/-- What `readcmd` returns (include/uniclientconn.h:51-52). -/
inductive Got where
  | none
  | invalid
  | cmd (c : Command)
  deriving DecidableEq, Repr

/-- `spacecat(a, b)` with its default parameters (utils/wvstrutils.cc:114-150). -/
def spacecat (a b : List Byte) : List Byte := a ++ 32 :: b

/-- `writecmd` (uniconf/uniclientconn.cc:152-158). -/
def writecmd (c : Command) : Option (List Byte) → List Byte
  | some msg => name c ++ 32 :: (msg ++ [10])
  | none => name c ++ [10]

/-- The payload that all callers make of several arguments (uniconf/uniclientconn.cc:173-191,
    uniconf/uniclientgen.cc:169, 188-192, 210-214, 230, 247-248, uniconf/daemon/uniconfdaemonconn.cc:20-22, 280-281,
    327-333): nothing, one escaped argument, or two escaped arguments put together by `spacecat`. Here for any number. -/
def payload : List (List Byte) → Option (List Byte)
  | [] => none
  | [a] => some (escape spaces a)
  | a :: as => (payload as).map (spacecat (escape spaces a))

/-- `writevalue` (uniconf/uniclientconn.cc:173-179); `none` is the null string. -/
def writevalue (key : List Byte) : Option (List Byte) → List Byte
  | none => writecmd 15 (some (escape spaces key))
  | some v => writecmd 15 (some (spacecat (escape spaces key) (escape spaces v)))

/-- `writeonevalue` (uniconf/uniclientconn.cc:182-185). -/
def writeonevalue (key value : List Byte) : List Byte :=
  writecmd 14 (some (spacecat (escape spaces key) (escape spaces value)))

/-- `writetext` (uniconf/uniclientconn.cc:188-191). -/
def writetext (text : List Byte) : List Byte := writecmd 16 (some (escape spaces text))

/-- `writefail` (uniconf/uniclientconn.cc:167-170). -/
def writefail (payload : List Byte) : List Byte := writecmd 12 (some payload)

/-- `writeok` (uniconf/uniclientconn.cc:161-164). -/
def writeok (payload : List Byte) : List Byte := writecmd 11 (some payload)

/-- The reply to a command that is not known (uniconf/daemon/uniconfdaemonconn.cc:137-140). -/
def do_invalid (command : List Byte) : List Byte :=
  writefail (str ['u', 'n', 'k', 'n', 'o', 'w', 'n', ' ', 'c', 'o', 'm', 'm', 'a', 'n', 'd', ':', ' '] ++ command)

/-- The receiving side of a connection (include/uniclientconn.h:28-37): bytes that arrived and were not read, whether
    the connection has ended, `msgbuf`, `payloadbuf`. -/
structure Conn where
  inbuf : List Byte := []
  closed : Bool := false
  msgbuf : List Byte := []
  payloadbuf : List Byte := []
  deriving DecidableEq, Repr

/-- `getline(0, '\n', 20480)` (streams/wvstream.cc:604-690): the line without its newline and what is left. -/
def getline (c : Conn) : Option (List Byte × List Byte) :=
  if c.inbuf.contains 10 then some (c.inbuf.takeWhile (· != 10), (c.inbuf.dropWhile (· != 10)).drop 1)
  else if c.closed && !c.inbuf.isEmpty then some (c.inbuf, [])
  else none

theorem getline_shorter {c : Conn} {l r : List Byte} (h : getline c = some (l, r)) : r.length < c.inbuf.length := by
  unfold getline at h
  split at h
  · rename_i hc
    simp only [Option.some.injEq, Prod.mk.injEq] at h
    obtain ⟨-, rfl⟩ := h
    have h1 := congrArg List.length (List.takeWhile_append_dropWhile (p := (· != (10 : Byte))) (l := c.inbuf))
    rw [List.length_append] at h1
    have h2 : c.inbuf.dropWhile (· != 10) ≠ [] := by
      intro h0
      rw [List.contains_eq_mem, decide_eq_true_eq] at hc
      have h3 := List.takeWhile_append_dropWhile (p := (· != (10 : Byte))) (l := c.inbuf)
      rw [h0, List.append_nil] at h3
      rw [← h3] at hc
      have := List.all_eq_true.mp (List.all_takeWhile (p := (· != (10 : Byte))) (l := c.inbuf)) 10 hc
      simp at this
    have h3 : 0 < (c.inbuf.dropWhile (· != 10)).length := List.length_pos_iff.mpr h2
    rw [List.length_drop]
    omega
  · split at h
    · rename_i h2
      simp only [Option.some.injEq, Prod.mk.injEq] at h
      obtain ⟨-, rfl⟩ := h
      simp at h2
      exact List.length_pos_iff.mpr h2.2
    · simp at h

/-- `readmsg` (uniconf/uniclientconn.cc:81-109). `putstr` takes the line up to a NUL. -/
def readmsg (c : Conn) : Option (List Byte) × Conn :=
  match getword newlines false c.msgbuf with
  | some (w, r) => (some w, { c with msgbuf := r })
  | none =>
    match h : getline c with
    | some (l, rest) =>
      readmsg { c with msgbuf := c.msgbuf ++ (l.takeWhile (· != 0) ++ [10]), inbuf := rest }
    | none => (none, if c.closed then { c with msgbuf := [] } else c)
termination_by c.inbuf.length
decreasing_by exact getline_shorter h

/-- `readarg` (uniconf/uniclientconn.cc:146-149). `none` is the null string. -/
def readarg (c : Conn) : Option (List Byte) × Conn :=
  match getword spaces true c.payloadbuf with
  | some (w, r) => (some w, { c with payloadbuf := r })
  | none => (none, c)

/-- The search for the name (uniconf/uniclientconn.cc:139-142). -/
def lookup (w : List Byte) : Got :=
  match (List.finRange 19).find? (fun i => Key.strcasecmp (name i) w == 0) with
  | some i => .cmd i
  | none => .invalid

/-- `readcmd` (uniconf/uniclientconn.cc:126-143): what is returned and the text of the command. -/
def readcmd (c : Conn) : Got × List Byte × Conn :=
  match readmsg c with
  | (none, c) => (.none, [], c)
  | (some msg, c) =>
    match readarg { c with payloadbuf := msg } with
    | (none, c) => (.none, [], c)
    | (some command, c) => (lookup command, command, c)

/-- The arguments that repeated calls of `readarg` give until one gives the null string
    (uniconf/daemon/uniconfdaemonconn.cc:63-64 calls it twice). -/
def args (c : Conn) : List (List Byte) := decode spaces true c.payloadbuf

/-- Bytes arriving from the network. -/
def arrive (c : Conn) (bytes : List Byte) : Conn := { c with inbuf := c.inbuf ++ bytes }

end Wv.UniConn
