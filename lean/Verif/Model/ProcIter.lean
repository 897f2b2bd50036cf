import Verif.Model.Split
import Verif.Model.Log
import Verif.Model.Addr
import Verif.Model.IntText
import Verif.Model.TextUtil
/-!
Iterating over the running processes, and `wvkillall` (streams/wvprociter.cc). The pipe to `ps` is the list of the lines that
`blocking_getline` will still return (WvPipe: C96); it stays ok until the last of them has been read, since a stream closes itself
only when nothing is buffered (streams/wvstream.cc:585-589), so that `isok` makes no difference. A failed assertion is `none`.
-/
namespace Wv.ProcIter
open Wv

abbrev Text := List Byte

/-- `WvProcEnt` (include/wvprociter.h:18-23). -/
structure Ent where
  pid : Int
  exe : Text
  cmdline : List Text
deriving DecidableEq

/-- `WvProcIter`: `p`, `proc_ent`. -/
structure St where
  p : Option (List Text)
  ent : Option Ent

/-- `WvProcIter::WvProcIter` (streams/wvprociter.cc:17-20). -/
def new : St := ⟨none, none⟩

/-- `WvProcIter::rewind` (streams/wvprociter.cc:32-45), when `ps` prints `out`: the first line is the heading. -/
def rewind (s : St) (out : List Text) : St := { s with p := some out.tail }

/-- The separators of `WvStringList::split` (include/wvstringlist.h:51). -/
def blanks : List Byte := [32, 9, 13, 10]

/-- A line (streams/wvprociter.cc:57-70). `atol` is `strtol` with base 10; its long becomes an int. -/
def parse (line : Text) : Option Ent :=
  let s := trimString line
  match Split.split [32] 2 s with
  | [a, b] =>
    let pid := IntText.toInt (Addr.strtol a)
    if 0 < pid then
      let cmdline := Split.split blanks 0 b
      match cmdline with
      | [] => none
      | e :: _ => some ⟨pid, e, cmdline⟩
    else none
  | _ => none

/-- `WvProcIter::next` (streams/wvprociter.cc:47-71). -/
def next (s : St) : Option (Bool × St) :=
  match s.p with
  | none => none
  | some [] => some (false, s)
  | some (l :: r) => match parse l with
    | none => none
    | some e => some (true, { s with p := some r, ent := some e })

/-- The loop of `wvkillall` (streams/wvprociter.cc:77-88), for at most `n` turns; `kill` says whether the system takes the signal. The signals
    sent, with whether they were taken, and the answer. -/
def killLoop (name : Text) (sig : Int) (kill : Int → Bool) : Nat → St → Bool → List (Int × Int × Bool) × Option Bool
  | 0, _, found => ([], some found)
  | n + 1, s, found =>
    match next s with
    | none => ([], none)
    | some (false, _) => ([], some found)
    | some (true, s) =>
      match s.ent with
      | none => ([], none)
      | some e =>
        if (match e.cmdline with | [] => false | f :: _ => !f.isEmpty && TextUtil.getfilename f == name) && decide (0 < e.pid) then
          let r := killLoop name sig kill n s true
          ((e.pid, sig, kill e.pid) :: r.1, r.2)
        else killLoop name sig kill n s found

/-- `wvkillall` (streams/wvprociter.cc:73-90), when `ps` prints `out`; each turn but the last takes a line. -/
def killall (name : Text) (sig : Int) (kill : Int → Bool) (out : List Text) : List (Int × Int × Bool) × Option Bool :=
  killLoop name sig kill (out.length + 1) (rewind new out) false

end Wv.ProcIter
