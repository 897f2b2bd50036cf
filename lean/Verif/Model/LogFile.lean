import Verif.Spec.LogFile
/-
Model of WvLogFile: streams/wvlogfile.cc:84-198, include/wvlogfile.h. See Model/LogRcv for what a line is, and when `_make_prefix` is called.

Simplifications: the difference to local time (`gmtoffset`) is constant; the names `filename.date.num` of different days and numbers are different; opening and writing do not
fail; nothing else writes to the files. Old files are removed by a child process: this can happen at any time, here one file at a time.
-/
namespace Wv.LogFile
open Spec.LogFile

/-- `filename` (without its directory), `keep_for`, `allow_append`; `off` is `gmtoffset()`; `max` is `MAX_LOGFILE_SZ` (streams/wvlogfile.cc:19). -/
structure Cfg where
  base : List Byte
  keep : Nat
  append : Bool
  off : Int
  max : Nat := 1024 * 1024 * 100

/-- The directory: names, and which file they stand for (`dir`); the files, of which there are `count`; the open file and `last_day`. The name `filename.current`: a link to a
    name, absent, or something else. -/
inductive Link where
  | absent
  | to (n : Name)
  | something
  deriving DecidableEq

structure St where
  dir : List (Name × Nat)
  files : Nat → File
  count : Nat
  cur : Option Nat
  lastDay : Int
  link : Link

/-- `(timenow + gmtoffset())/86400` (streams/wvlogfile.cc:113, 147). -/
def day (c : Cfg) (t : Int) : Int := (t + c.off) / 86400

/-- Find a name. -/
def find (dir : List (Name × Nat)) (n : Name) : Option Nat := (dir.find? fun e => e.1 = n).map Prod.snd

/-- The condition of the loop in `start_log` (streams/wvlogfile.cc:153-155). -/
def busy (c : Cfg) (s : St) (n : Name) : Bool :=
  match find s.dir n with
  | none => false
  | some i => decide (c.max ≤ (s.files i).data.length) || !c.append

/-- The loop in `start_log` (streams/wvlogfile.cc:152-155); fuel. -/
def next (c : Cfg) (s : St) (d : Int) : Nat → Nat → Nat
  | 0, num => num
  | n + 1, num => if busy c s (.log d num) then next c s d n (num + 1) else num

/-- A number above all that exist. -/
def bound (dir : List (Name × Nat)) : Nat :=
  dir.foldl (fun m e => match e.1 with
    | .log _ k => Nat.max m (k + 1)
    | .other _ => m) 0

/-- `start_log` (streams/wvlogfile.cc:140-198), without the removal of old files. -/
def start (c : Cfg) (s : St) (t : Int) : St :=
  let d := day c t
  let name := Name.log d (next c s d (bound s.dir) 0)
  let s := { s with lastDay := d, link := if s.link = Link.something then s.link else .to name }
  match find s.dir name with
  | some i => { s with cur := some i }
  | none =>
    { s with dir := (name, s.count) :: s.dir, files := fun j => if j = s.count then ⟨[], t⟩ else s.files j, count := s.count + 1, cur := some s.count }

/-- The size of the open file (streams/wvlogfile.cc:108-110). -/
def size (s : St) : Nat :=
  match s.cur with
  | some i => (s.files i).data.length
  | none => 0

/-- `_make_prefix` (streams/wvlogfile.cc:99-118); `t1` is its argument, `t2` the time in `start_log`. -/
def makePrefix (c : Cfg) (s : St) (t1 t2 : Int) : St :=
  let s := if s.cur = none then start c s t2 else s
  if s.lastDay ≠ day c t1 ∨ c.max < size s then start c s t2 else s

/-- `_mid_line` (streams/wvlogfile.cc:51-54). -/
def write (s : St) (t : Int) (x : List Byte) : St :=
  match s.cur with
  | some i => { s with files := fun j => if j = i then ⟨(s.files i).data ++ x, t⟩ else s.files j }
  | none => s

/-- One turn of `trim_old_logs` (streams/wvlogfile.cc:120-137). The names of log files begin with the base name. -/
def trim (c : Cfg) (s : St) (t : Int) (n : Name) : St :=
  if c.keep = 0 then s
  else
    match find s.dir n with
    | none => s
    | some i =>
      let begins := match n with
        | .log _ _ => true
        | .other x => c.base.isPrefixOf x
      if begins && decide ((s.files i).mtime < t - c.keep * 86400) then { s with dir := s.dir.filter fun e => e.1 ≠ n } else s

def step (c : Cfg) (s : St) : Ev → St
  | .line t1 t2 x => write (makePrefix c s t1 t2) t2 x
  | .more t x => write s t x
  | .trim t n => trim c s t n

def run (c : Cfg) (s : St) (l : List Ev) : St := l.foldl (step c) s

end Wv.LogFile
