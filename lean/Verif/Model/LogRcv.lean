import Verif.Model.Log
import Verif.Model.Split
import Verif.Model.Num
import Verif.Model.Http
import Verif.Spec.LogRcv
/-
Model of the way of a log message: `WvLog` and `WvLogRcvBase` (streams/wvlog.cc:18-217) with the list of receivers, and
`WvLogRcv` and `WvLogConsole` (streams/wvlog.cc:219-435, include/wvlogrcv.h) with the text on the console.

Not modelled: an error or a short write of the file descriptor of the console (`_mid_line` takes no notice of either);
filters (`WvLogFilter`); sources that are null, and levels above 9, for which `loglevels` has no name; receivers that
make or destroy receivers while they hear a message.
-/
namespace Wv.LogRcv
open Wv.Log
open Spec.LogRcv (Rule Who Op)

abbrev Text := List Byte
abbrev Msg := Spec.Log.Msg

/-- `loglevels` (streams/wvlog.cc:24-35); `none` after its end. -/
def loglevels : List Text :=
  [str ['C', 'r', 'i', 't'], str ['E', 'r', 'r'], str ['W', 'a', 'r', 'n'], str ['N', 'o', 't', 'i', 'c', 'e'],
   str ['I', 'n', 'f', 'o'], str ['*', '1'], str ['*', '2'], str ['*', '3'], str ['*', '4'], str ['*', '5']]

/-- `WvLogConsole`: the members of `WvLogRcv` and `WvLogRcvBase` (include/wvlogrcv.h:31-51), and what has been written to
    its file descriptor. `custom` are the rules of `custom_levels` in the order in which its iterator finds them. -/
structure Rcv where
  src : Option Text
  lvl : Nat
  nl : Bool
  max : Nat
  custom : List Rule
  force : Bool
  prefix_ : Text
  out : Text
  deriving DecidableEq

/-- The constructor (streams/wvlog.cc:162-170, 223-230, 420-423). -/
def new (max : Nat) (custom : List Rule) (force : Bool) : Rcv := ⟨none, 10, true, max, custom, force, [], []⟩

/-- `_make_prefix` (streams/wvlog.cc:238-243). -/
def makePrefix (r : Rcv) : Rcv :=
  { r with prefix_ := r.src.getD (str ['(', 'n', 'i', 'l', ')']) ++ str ['<'] ++ (loglevels[r.lvl]?.getD []) ++ str ['>', ':', ' '] }

/-- `mid_line` with the `_mid_line` of the console (include/wvlogrcv.h:70-72, streams/wvlog.cc:432-435). -/
def midLine (r : Rcv) (t : Text) : Rcv :=
  let r := { r with out := r.out ++ t }
  if t.getLast? = some 10 then { r with nl := true } else r

/-- `begin_line` with `_begin_line` (include/wvlogrcv.h:68-69, streams/wvlog.cc:246-249). -/
def beginLine (r : Rcv) : Rcv := if !r.nl then r else { midLine r r.prefix_ with nl := false }

/-- `end_line` (include/wvlogrcv.h:83-85). -/
def endLine (r : Rcv) : Rcv := if r.nl then r else { r with out := r.out ++ [10], nl := true }

/-- The loop of `log` (streams/wvlog.cc:326-373): every turn takes at least one character. -/
def logLoop : Nat → Rcv → Text → Rcv
  | 0, r, _ => r
  | _ + 1, r, [] => r
  | f + 1, r, c :: b =>
    if c = 10 ∨ c = 13 then logLoop f (endLine r) b
    else
      let r := beginLine r
      if c = 9 then logLoop f (midLine r [32]) b
      else if !myIsprint c then logLoop f (midLine r [ch '[', xdigit (c.toNat / 16), xdigit (c.toNat % 16), ch ']']) b
      else
        let text := fun c => !(c == 10 || !myIsprint c)
        logLoop f (midLine r (c :: b.takeWhile text)) (b.dropWhile text)

/-- Lines 277-292: the level up to which a source is shown. -/
def threshold (r : Rcv) (src : Text) : Nat :=
  match r.custom.find? fun x => Http.strstr x.name (src.map tolower) with
  | some x => x.level
  | none => r.max

/-- `log` (streams/wvlog.cc:272-374). The prefix does not depend on the time, so lines 311-320 make the one there is. -/
def log (r : Rcv) (m : Msg) : Rcv :=
  if m.lvl > threshold r m.src then r
  else
    let r := if some m.src ≠ r.src ∨ m.lvl ≠ r.lvl ∨ r.force = true then
        makePrefix { endLine r with src := some m.src, lvl := m.lvl }
      else r
    logLoop m.text.length r m.text

/-- The destructor of the console (streams/wvlog.cc:426-429). -/
def destroy (r : Rcv) : Rcv := endLine r

/-- `trim_string(src.edit())` of which only the effect on `src` is used (utils/wvstrutils.cc:59-79): white space goes at
    the end, not in front. -/
def trimEnd (t : Text) : Text := (t.reverse.dropWhile isspace).reverse

/-- The loop of `set_custom_levels` (streams/wvlog.cc:391-408). `none` when `atoi` is undefined. -/
def levelsLoop (src : Text) (acc : List Rule) : List Text → Option (Bool × List Rule)
  | [] => some (src = [], acc)
  | w :: ws =>
    if src ≠ [] then
      (Num.num w).bind fun n =>
        if n > 0 ∧ n ≤ 10 then levelsLoop [] (acc ++ [⟨src, n.toNat⟩]) ws
        else some (false, acc)
    else levelsLoop ((trimEnd w).map tolower) acc ws

/-- `set_custom_levels` (streams/wvlog.cc:379-413): what it returns, and the rules in the order in which they are added. -/
def setCustomLevels (descr : Text) : Option (Bool × List Rule) :=
  let l := Split.split (str [',', '=', ' ']) 0 descr
  if l = [] then some (true, []) else levelsLoop [] [] l

/-- The static members of `WvLog` (streams/wvlog.cc:18-22). `list` is `none` when `receivers` is null. -/
structure Reg where
  list : Option (List Who)
  num : Int
  logs : Int
  dflt : Bool
  deriving DecidableEq

def Reg.new : Reg := ⟨none, 0, 0, false⟩

/-- `WvLogRcvBase::WvLogRcvBase` (streams/wvlog.cc:162-170). -/
def Reg.addRcv (s : Reg) (w : Who) : Reg := { s with list := some (s.list.getD [] ++ [w]), num := s.num + 1 }

/-- `WvLogRcvBase::~WvLogRcvBase` (streams/wvlog.cc:173-183). `none`: the assertion fails. -/
def Reg.delRcv (s : Reg) (w : Who) : Option Reg :=
  match s.list with
  | none => none
  | some l =>
    let l := l.filter (· ≠ w)
    some { s with list := if l = [] then none else some l, num := s.num - 1 }

/-- `num_receivers++; delete default_receiver; default_receiver = NULL;` (streams/wvlog.cc:66-68, 133-135). -/
def Reg.dropDefault (s : Reg) : Option Reg :=
  (Reg.delRcv { s with num := s.num + 1 } .console).map fun s => { s with dflt := false }

/-- `WvLog::~WvLog` (streams/wvlog.cc:61-72). -/
def Reg.delLog (s : Reg) : Option Reg :=
  let s := { s with logs := s.logs - 1 }
  if s.logs = 0 ∧ s.dflt = true then s.dropDefault else some s

/-- `uwrite` without the receivers (streams/wvlog.cc:112-141): who hears the message. `none`: an assertion fails. -/
def Reg.prepare (s : Reg) : Option (Reg × List Who) :=
  if s.num = 0 then
    let s := if s.dflt then s else { s.addRcv .console with num := (s.addRcv .console).num - 1, dflt := true }
    some (s, [.console])
  else
    (if s.dflt then s.dropDefault else some s).bind fun s => s.list.map fun l => (s, l)

/-- `cleanup_on_fork` (streams/wvlog.cc:208-217) in the child. -/
def Reg.fork (s : Reg) : Option Reg :=
  let s := { s with list := s.list.map fun _ => [] }
  (if s.dflt then s.delRcv .console else some s).map fun s => { s with dflt := false, num := 0 }

/-- `recursion_msg` (streams/wvlog.cc:107-108). -/
def recursionMsg : Text :=
  str ['T', 'o', 'o', ' ', 'm', 'a', 'n', 'y', ' ', 'e', 'x', 't', 'r', 'a', ' ', 'l', 'o', 'g', ' ', 'm', 'e', 's', 's', 'a',
    'g', 'e', 's', ' ', 'w', 'r', 'i', 't', 't', 'e', 'n', ' ', 'w', 'h', 'i', 'l', 'e', ' ', 'w', 'r', 'i', 't', 'i', 'n', 'g',
    ' ', 't', 'o', ' ', 't', 'h', 'e', ' ', 'l', 'o', 'g', '.', ' ', ' ', 'S', 'u', 'p', 'p', 'r', 'e', 's', 's', 'i', 'n', 'g',
    ' ', 'a', 'd', 'd', 'i', 't', 'i', 'o', 'n', 'a', 'l', ' ', 'm', 'e', 's', 's', 'a', 'g', 'e', 's', '.'] ++ [10]

/-- A call of `log` of a receiver, with the `recursion_count` of the call of `uwrite` that makes it. -/
structure Call where
  depth : Nat
  who : Who
  msg : Msg
  deriving DecidableEq

/-- What a receiver is told (streams/wvlog.cc:122-126, 145-149). -/
def told (count : Nat) (m : Msg) : Option Msg :=
  if count < 8 then some m else if count = 8 then some ⟨m.src, 2, recursionMsg⟩ else none

/-- `uwrite` (streams/wvlog.cc:101-154), with `count` the value of `recursion_count` after line 110: the calls it makes, one
    after another. `react` are the messages a receiver writes while it hears one, so that `uwrite` is called again. At a
    count above 8 no receiver is called and `uwrite` does not come back: `fuel` is never used up. -/
def uwrite (react : Who → Msg → List Msg) : Nat → Nat → Reg → Msg → Option (Reg × List Call)
  | 0, _, _, _ => none
  | f + 1, count, s, m =>
    s.prepare.bind fun (s, ws) =>
      ws.foldl (fun st w => st.bind fun (s, tr) =>
        match told count m with
        | none => some (s, tr)
        | some x =>
          (react w x).foldl (fun st y => st.bind fun (s, tr) =>
            (uwrite react f (count + 1) s y).map fun (s, t) => (s, tr ++ t)) (some (s, tr ++ [⟨count, w, x⟩])))
        (some (s, []))

/-- A write from outside, where `recursion_count` is 0. -/
def write (react : Who → Msg → List Msg) (s : Reg) (m : Msg) : Option (Reg × List Call) := uwrite react 9 1 s m

/-- What happens to the static members. -/
def Reg.step (s : Reg) : Op → Option Reg
  | .newRcv n => some (s.addRcv (.user n))
  | .delRcv n => s.delRcv (.user n)
  | .newLog => some { s with logs := s.logs + 1 }
  | .delLog => s.delLog
  | .write => s.prepare.map (·.1)
  | .fork => s.fork

def Reg.run : Reg → List Op → Option Reg
  | s, [] => some s
  | s, o :: os => (s.step o).bind fun s => s.run os

end Wv.LogRcv
