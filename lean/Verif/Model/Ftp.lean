import Verif.Model.Basic
/-
Model of urlget/ftpparse.cc, which reads a line of an FTP listing. A place in the line is represented by what is left of the line from
there, a word `buf[i..j)` by its bytes. `long` is modelled by unbounded integers, except that reading digits says when it overflows;
`char` is signed.
-/
namespace Wv.Ftp
open Wv

/-- `no` is `return 0`; `oob` is a read behind the end of the line; `overflow` is a signed overflow. -/
inductive Out (α : Type) where
  | ok (a : α)
  | no
  | oob
  | overflow
deriving DecidableEq, Repr

def Out.bind {α β : Type} : Out α → (α → Out β) → Out β
  | .ok a, f => f a
  | .no, _ => .no
  | .oob, _ => .oob
  | .overflow, _ => .overflow

/-! ### Dates -/

/-- The first step of `totai`: years begin in March (urlget/ftpparse.cc:30-32). -/
def march (year month : Int) : Int × Int := if month ≥ 2 then (year, month - 2) else (year - 1, month + 10)

/-- `totai` (urlget/ftpparse.cc:27-45). -/
def totai (year month mday : Int) : Int :=
  let ym := march year month
  let r := ((mday - 1) * 10 + 5 + 306 * ym.2).tdiv 10
  let a : Int × Int := if r = 365 then (ym.1 - 3, 1460) else (ym.1, r + 365 * ym.1.tmod 4)
  let y := a.1.tdiv 4
  let r := a.2 + 1461 * y.tmod 25
  let y := y.tdiv 25
  let b : Int × Int := if r = 36524 then (y - 3, 146096) else (y, r + 36524 * y.tmod 4)
  let y := b.1.tdiv 4
  (b.2 + 146097 * (y - 5) + 11017) * 86400

/-- `initbase` (urlget/ftpparse.cc:53-64), where `gmtime` of 0 is the beginning of 1970. -/
def base : Int := -(totai (70 + 1900) 0 1 + 0 * 3600 + 0 * 60 + 0)

/-- The current year, from the current time (urlget/ftpparse.cc:73-93). -/
def yearOf (now : Int) : Int :=
  let day := now.tdiv 86400
  let day := if now.tmod 86400 < 0 then day - 1 else day
  let day := day - 11017
  let year := 5 + day.tdiv 146097
  let day := day.tmod 146097
  let a : Int × Int := if day < 0 then (year - 1, day + 146097) else (year, day)
  let year := a.1 * 4
  let b : Int × Int := if a.2 = 146096 then (year + 3, 36524) else (year + a.2.tdiv 36524, a.2.tmod 36524)
  let year := b.1 * 25
  let year := year + b.2.tdiv 1461
  let day := b.2.tmod 1461
  let year := year * 4
  let c : Int × Int := if day = 1460 then (year + 3, 365) else (year + day.tdiv 365, day.tmod 365)
  let day := c.2 * 10
  if (day + 5).tdiv 306 ≥ 10 then c.1 + 1 else c.1

/-- The loop of `guesstai` from `year` on (urlget/ftpparse.cc:108-112). -/
def guessFrom (now month mday : Int) : Nat → Int → Int
  | 0, _ => 0
  | n + 1, year =>
    let t := totai year month mday
    if now - t < 350 * 86400 then t else guessFrom now month mday n (year + 1)

/-- `guesstai` (urlget/ftpparse.cc:101-114). `currentyear` is computed when it is first needed. -/
def guesstai (now currentyear month mday : Int) : Int := guessFrom now month mday 101 (currentyear - 1)

/-! ### Words -/

/-- A `char` as an `int`. -/
def signed (c : Byte) : Int := if c.toNat < 128 then c.toNat else (c.toNat : Int) - 256

def fits (i : Int) : Bool := -9223372036854775808 ≤ i && i ≤ 9223372036854775807

/-- `getlong` (urlget/ftpparse.cc:137-143). -/
def getlongFrom : Int → List Byte → Out Int
  | u, [] => .ok u
  | u, c :: r => if fits (u * 10) && fits (u * 10 + (signed c - 48)) then getlongFrom (u * 10 + (signed c - 48)) r else .overflow

def getlong (w : List Byte) : Out Int := getlongFrom 0 w

/-- `check` (urlget/ftpparse.cc:116-122), for a word of three bytes. -/
def check (w m : List Byte) : Bool := (w.zip m).all fun p => p.1 == p.2 || p.1 == p.2 - 32

/-- `months` (urlget/ftpparse.cc:124-126). -/
def months : List (List Byte) := [str ['j', 'a', 'n'], str ['f', 'e', 'b'], str ['m', 'a', 'r'], str ['a', 'p', 'r'], str ['m', 'a', 'y'],
  str ['j', 'u', 'n'], str ['j', 'u', 'l'], str ['a', 'u', 'g'], str ['s', 'e', 'p'], str ['o', 'c', 't'], str ['n', 'o', 'v'],
  str ['d', 'e', 'c']]

/-- `getmonth` (urlget/ftpparse.cc:128-135); `none` is -1. -/
def getmonth (w : List Byte) : Option Nat := if w.length = 3 then months.findIdx? (check w) else none

/-- `while (p(buf[j])) if (++j == len) return 0;`: what was skipped, and the rest. -/
def skip (p : Byte → Bool) : List Byte → Out (List Byte × List Byte)
  | [] => .oob
  | c :: r =>
    if p c then
      if r = [] then .no
      else (skip p r).bind fun x => .ok (c :: x.1, x.2)
    else .ok ([], c :: r)

def until1 (c : Byte) : List Byte → Out (List Byte × List Byte) := skip (· != c)
def while1 (c : Byte) : List Byte → Out (List Byte × List Byte) := skip (· == c)

/-- `if (buf[j] == c) if (++j == len) return 0;`: whether it was there, and the rest. -/
def opt (c : Byte) : List Byte → Out (Bool × List Byte)
  | [] => .oob
  | x :: r => if x == c then (if r = [] then .no else .ok (true, r)) else .ok (false, x :: r)

/-! ### The result -/

inductive Mtime where
  | unknown
  | localTime
  | remoteMinute
  | remoteDay
deriving DecidableEq, Repr

/-- `struct ftpparse` (include/ftpparse.h:22-34); the size and the identifier are there if their type is known. -/
structure Fp where
  name : List Byte
  flagtrycwd : Bool
  flagtryretr : Bool
  size : Option Int
  mtimetype : Mtime
  mtime : Int
  id : Option (List Byte)
deriving DecidableEq, Repr

/-- The start (urlget/ftpparse.cc:157-167). -/
def Fp.new : Fp := ⟨[], false, false, none, .unknown, 0, none⟩

/-- The current time and year. -/
structure Clock where
  now : Int
  currentyear : Int

/-! ### EPLF -/

/-- A fact (urlget/ftpparse.cc:185-205). -/
def fact (fp : Fp) : List Byte → Out Fp
  | [] => .ok fp
  | c :: t =>
    if c == ch '/' then .ok { fp with flagtrycwd := true }
    else if c == ch 'r' then .ok { fp with flagtryretr := true }
    else if c == ch 's' then (getlong t).bind fun n => .ok { fp with size := some n }
    else if c == ch 'm' then (getlong t).bind fun n => .ok { fp with mtimetype := .localTime, mtime := base + n }
    else if c == ch 'i' then .ok { fp with id := some t }
    else .ok fp

/-- The loop (urlget/ftpparse.cc:176-208); `w` is what is between `i` and `j`. -/
def eplf (fp : Fp) (w : List Byte) : List Byte → Out Fp
  | [] => .no
  | c :: r =>
    if c == 9 then .ok { fp with name := r }
    else if c == ch ',' then (fact fp w).bind fun fp => eplf fp [] r
    else eplf fp (w ++ [c]) r

/-! ### UNIX -/

structure Ls where
  state : Nat
  size : Int
  month : Nat
  mday : Int
  fp : Fp
deriving DecidableEq, Repr

/-- The end of the time (urlget/ftpparse.cc:276-295). -/
def Ls.done (s : Ls) (t : Mtime) (time : Int) (r : List Byte) : Ls :=
  { s with state := 8, fp := { s.fp with mtimetype := t, mtime := time, name := r } }

/-- The end of a word `w` (urlget/ftpparse.cc:243-298); `r` is what is after the space. -/
def lsWord (k : Clock) (s : Ls) (w r : List Byte) : Out Ls :=
  match s.state with
  | 1 => .ok { s with state := 2 }
  | 2 => .ok { s with state := if w.length = 6 ∧ w.head? = some (ch 'f') then 4 else 3 }
  | 3 => .ok { s with state := 4 }
  | 4 => (getlong w).bind fun n => .ok { s with size := n, state := 5 }
  | 5 =>
    match getmonth w with
    | some m => .ok { s with month := m, state := 6 }
    | none => (getlong w).bind fun n => .ok { s with size := n }
  | 6 => (getlong w).bind fun n => .ok { s with mday := n, state := 7 }
  | 7 =>
    if w.length = 4 ∧ w[1]? = some (ch ':') then
      (getlong (w.take 1)).bind fun hour => (getlong (w.drop 2)).bind fun minute =>
        .ok (s.done .remoteMinute (base + guesstai k.now k.currentyear s.month s.mday + hour * 3600 + minute * 60) r)
    else if w.length = 5 ∧ w[2]? = some (ch ':') then
      (getlong (w.take 2)).bind fun hour => (getlong (w.drop 3)).bind fun minute =>
        .ok (s.done .remoteMinute (base + guesstai k.now k.currentyear s.month s.mday + hour * 3600 + minute * 60) r)
    else if 4 ≤ w.length then
      (getlong w).bind fun year =>
        .ok (s.done .remoteDay (base + totai year s.month s.mday) r)
    else .no
  | _ => .ok s

/-- The loop (urlget/ftpparse.cc:241-302); `space` says whether `buf[j - 1]` is a space. -/
def lsLoop (k : Clock) (s : Ls) (w : List Byte) (space : Bool) : List Byte → Out Ls
  | [] => .ok s
  | c :: r =>
    if c == ch ' ' then
      if space then lsLoop k s w true r
      else (lsWord k s w r).bind fun s => lsLoop k s [] true r
    else lsLoop k s (w ++ [c]) false r

/-- The name of a link ends before " -> " (urlget/ftpparse.cc:309-317). -/
def cutLink : List Byte → List Byte
  | [] => []
  | c :: t => if (str [' ', '-', '>', ' ']).isPrefixOf (c :: t) then [] else c :: cutLink t

/-- Three spaces that NetWare has before a name (urlget/ftpparse.cc:319-327). -/
def cutSpaces (name : List Byte) : List Byte :=
  if 3 < name.length ∧ name.take 3 = [ch ' ', ch ' ', ch ' '] then name.drop 3 else name

/-- A UNIX line (urlget/ftpparse.cc:235-329). -/
def ls (k : Clock) (c : Byte) (r : List Byte) : Out Fp :=
  let fp := { Fp.new with flagtrycwd := c == ch 'd' || c == ch 'l', flagtryretr := c == ch '-' || c == ch 'l' }
  (lsLoop k ⟨1, 0, 0, 0, fp⟩ [c] false r).bind fun s =>
    if s.state ≠ 8 then .no
    else
      let name := if c == ch 'l' then cutLink s.fp.name else s.fp.name
      let name := if r.head? = some (ch ' ') ∨ r.head? = some (ch '[') then cutSpaces name else name
      .ok { s.fp with size := some s.size, name := name }

/-! ### VMS -/

/-- A line with a semicolon after `name` (urlget/ftpparse.cc:337-383); `s` begins with the semicolon. -/
def vms (name s : List Byte) : Out Fp :=
  let dir : Bool := 4 < name.length && name.drop (name.length - 4) == [ch '.', ch 'D', ch 'I', ch 'R']
  let fp : Fp := if dir then { Fp.new with name := name.take (name.length - 4), flagtrycwd := true }
    else { Fp.new with name := name, flagtryretr := true }
  (until1 (ch ' ') s).bind fun s =>
  (while1 (ch ' ') s.2).bind fun s =>
  (until1 (ch ' ') s.2).bind fun s =>
  (while1 (ch ' ') s.2).bind fun s =>
  (until1 (ch '-') s.2).bind fun s =>
  (getlong s.1).bind fun mday =>
  (while1 (ch '-') s.2).bind fun s =>
  (until1 (ch '-') s.2).bind fun s =>
  match getmonth s.1 with
  | none => .no
  | some month =>
    (while1 (ch '-') s.2).bind fun s =>
    (until1 (ch ' ') s.2).bind fun s =>
    (getlong s.1).bind fun year =>
    (while1 (ch ' ') s.2).bind fun s =>
    (until1 (ch ':') s.2).bind fun s =>
    (getlong s.1).bind fun hour =>
    (while1 (ch ':') s.2).bind fun s =>
    (skip (fun c => c != ch ':' && c != ch ' ') s.2).bind fun s =>
    (getlong s.1).bind fun minute =>
    .ok { fp with mtimetype := .remoteMinute, mtime := base + totai year month mday + hour * 3600 + minute * 60 }

/-! ### MSDOS -/

/-- The last part: directory or size, and name (urlget/ftpparse.cc:418-432). -/
def dosEnd (s : List Byte) : Out Fp :=
  match s with
  | [] => .oob
  | c :: _ =>
    (if c == ch '<' then (until1 (ch ' ') s).bind fun s => .ok ({ Fp.new with flagtrycwd := true }, s.2)
      else (until1 (ch ' ') s).bind fun s => (getlong s.1).bind fun n => .ok ({ Fp.new with size := some n, flagtryretr := true }, s.2)).bind
        fun (a : Fp × List Byte) =>
    (while1 (ch ' ') a.2).bind fun s =>
    .ok { a.1 with name := s.2 }

/-- Two digits stand for a year from 1950 to 2049 (urlget/ftpparse.cc:402-403). -/
def century (year : Int) : Int :=
  let year := if year < 50 then year + 2000 else year
  if year < 1000 then year + 1900 else year

/-- A line that begins with a digit (urlget/ftpparse.cc:389-439). -/
def dos (s : List Byte) : Out Fp :=
  (until1 (ch '-') s).bind fun s =>
  (getlong s.1).bind fun month =>
  (while1 (ch '-') s.2).bind fun s =>
  (until1 (ch '-') s.2).bind fun s =>
  (getlong s.1).bind fun mday =>
  (while1 (ch '-') s.2).bind fun s =>
  (until1 (ch ' ') s.2).bind fun s =>
  (getlong s.1).bind fun year =>
  (while1 (ch ' ') s.2).bind fun s =>
  (until1 (ch ':') s.2).bind fun s =>
  (getlong s.1).bind fun hour =>
  (while1 (ch ':') s.2).bind fun s =>
  (skip (fun c => c != ch 'A' && c != ch 'P') s.2).bind fun s =>
  (getlong s.1).bind fun minute =>
  (opt (ch 'A') s.2).bind fun a =>
  (opt (ch 'P') a.2).bind fun p =>
  (opt (ch 'M') p.2).bind fun m =>
  (while1 (ch ' ') m.2).bind fun s =>
  (dosEnd s.2).bind fun fp =>
  let time := base + totai (century year) (month - 1) mday + ((if hour = 12 then 0 else hour) + if p.1 then 12 else 0) * 3600 + minute * 60
  .ok { fp with mtimetype := .remoteMinute, mtime := time }

/-- `ftpparse` (urlget/ftpparse.cc:145-448). -/
def parse (k : Clock) (buf : List Byte) : Out Fp :=
  match buf with
  | [] => .no
  | [_] => .no
  | c :: r =>
    if c == ch '+' then eplf Fp.new [] r
    else if c ∈ [ch 'b', ch 'c', ch 'd', ch 'l', ch 'p', ch 's', ch '-'] then ls k c r
    else if ch ';' ∈ buf then vms (buf.takeWhile (· != ch ';')) (buf.dropWhile (· != ch ';'))
    else if ch '0' ≤ c ∧ c ≤ ch '9' then dos buf
    else .no

end Wv.Ftp
