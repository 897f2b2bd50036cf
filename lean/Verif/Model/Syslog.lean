import Verif.Spec.Syslog
import Verif.Model.LogRcv
/-!
`WvSyslog` (streams/wvsyslog.cc): the log receiver that sends lines to syslogd. What `WvLogRcv` does is as in Model/LogRcv; here `out` of it is the buffer
`current`, and `sent` are the calls of `syslog`. The level is at most 9, and the text of a line has no NUL (see `shown`).
-/
namespace Wv.Syslog
open Wv.Log Wv.LogRcv

structure Sys where
  rcv : Rcv
  first : Nat
  app : Bool
  sent : List (Nat × Text) := []
deriving DecidableEq

/-- The constructor (streams/wvsyslog.cc:13-21). -/
def new (max : Nat) (custom : List Spec.LogRcv.Rule) (force : Bool) (first : Nat) (app : Bool) : Sys := ⟨LogRcv.new max custom force, first, app, []⟩

/-- `levmap` (streams/wvsyslog.cc:53-62) without its end. -/
def levmap : List (Nat × Int) := [(0, 2), (1, 3), (2, 4), (3, 5), (4, 6), (5, 7), (6, -1)]

/-- The loop (streams/wvsyslog.cc:66-72) and the rule for debug messages (streams/wvsyslog.cc:74-75). -/
def level (first last : Nat) : Int :=
  let lev := levmap.foldl (fun lev e => if last ≥ e.1 then e.2 else lev) (-1)
  if last < first ∧ lev = 7 then 6 else lev

/-- `_end_line` (streams/wvsyslog.cc:44-85). -/
def sendLine (s : Sys) : Sys :=
  if s.rcv.out = [] then s
  else
    let lev := level s.first s.rcv.lvl
    { s with rcv := { s.rcv with out := [] }
             sent := if lev ≥ 0 then s.sent ++ [(lev.toNat, s.rcv.out)] else s.sent }

/-- `end_line` (include/wvlogrcv.h:83-85) with `_mid_line` (streams/wvsyslog.cc:38-41). -/
def endLine (s : Sys) : Sys :=
  if s.rcv.nl then s
  else
    let s := sendLine { s with rcv := { s.rcv with out := s.rcv.out ++ [10] } }
    { s with rcv := { s.rcv with nl := true } }

/-- `begin_line` (include/wvlogrcv.h:68-69) with `_begin_line` (streams/wvsyslog.cc:31-35). -/
def beginLine (s : Sys) : Sys :=
  if !s.rcv.nl then s
  else { s with rcv := { s.rcv with out := if s.app then s.rcv.out ++ s.rcv.prefix_ else s.rcv.out, nl := false } }

/-- `mid_line` (include/wvlogrcv.h:70-72). -/
def midLine (s : Sys) (t : Text) : Sys := { s with rcv := LogRcv.midLine s.rcv t }

/-- The loop of `log` (streams/wvlog.cc:326-373). -/
def logLoop : Nat → Sys → Text → Sys
  | 0, r, _ => r
  | _ + 1, r, [] => r
  | f + 1, r, c :: b =>
    if c = 10 ∨ c = 13 then logLoop f (endLine r) b
    else
      let r := beginLine r
      if c = 9 then logLoop f (midLine r [32]) b
      else if !myIsprint c then logLoop f (midLine r [ch '[', xdigit (c.toNat / 16), xdigit (c.toNat % 16), ch ']']) b
      else
        let text := fun c => !(c == 10 || !myIsprint c)
        logLoop f (midLine r (c :: b.takeWhile text)) (b.dropWhile text)

/-- `log` (streams/wvlog.cc:272-374). -/
def log (s : Sys) (m : Msg) : Sys :=
  if m.lvl > threshold s.rcv m.src then s
  else
    let s := if some m.src ≠ s.rcv.src ∨ m.lvl ≠ s.rcv.lvl ∨ s.rcv.force = true then
        let s := endLine s
        { s with rcv := makePrefix { s.rcv with src := some m.src, lvl := m.lvl } }
      else s
    logLoop m.text.length s m.text

/-- The destructor (streams/wvsyslog.cc:24-28). -/
def destroy (s : Sys) : Sys := endLine s

end Wv.Syslog
