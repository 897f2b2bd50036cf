import Verif.Model.LogRcv
/-
Model of `WvColorLogConsole` (streams/wvcolorlogconsole.cc), on top of the model of `WvLogConsole` (Model/LogRcv).

`_begin_line`, `_mid_line` and `_end_line` are virtual, so that the `mid_line` in `WvLogRcv::_begin_line` is the one with
colours. Not modelled: what Model/LogRcv leaves out.
-/
namespace Wv.ColorLog
open Wv.Log
open Wv.LogRcv (Text Msg Rcv makePrefix threshold)
open Spec.LogRcv (Rule)

/-- `color_start_seq` (streams/wvcolorlogconsole.cc:112-120). -/
def startSeq (lvl : Nat) : Text :=
  if lvl ≤ 1 then [27] ++ str ['[', '4', '1', ';', '3', '7', ';', '1', 'm']
  else if lvl ≤ 2 then [27] ++ str ['[', '4', '3', ';', '3', '7', ';', '1', 'm']
  else [27] ++ str ['[', '4', '0', ';', '3', '7', ';', '1', 'm']

/-- `clear_to_eol_seq` (streams/wvcolorlogconsole.cc:123-126). -/
def clearSeq : Text := [27] ++ str ['[', '0', 'K']

/-- `color_end_seq` (streams/wvcolorlogconsole.cc:129-132). -/
def endSeq : Text := [27] ++ str ['[', '0', 'm']

/-- `can_colorize` (streams/wvcolorlogconsole.cc:29-37). `tty`: what `is_tty` says. `term`: the variable `TERM`. -/
def canColorize (tty : Bool) (term : Option Text) : Bool :=
  tty && match term with
    | none => false
    | some t => t == str ['l', 'i', 'n', 'u', 'x'] || t == str ['a', 'n', 's', 'i'] || t == str ['x', 't', 'e', 'r', 'm'] ||
        t == str ['r', 'x', 'v', 't']

/-- `uwrite`. -/
def raw (r : Rcv) (t : Text) : Rcv := { r with out := r.out ++ t }

/-- `_mid_line` (streams/wvcolorlogconsole.cc:72-89). -/
def vmid (col : Bool) (r : Rcv) (t : Text) : Rcv :=
  let r := if col then raw r (startSeq r.lvl) else r
  let r := raw r t
  if col then raw (raw r clearSeq) endSeq else r

/-- `mid_line` (include/wvlogrcv.h:70-72). -/
def midLine (col : Bool) (r : Rcv) (t : Text) : Rcv :=
  let r := vmid col r t
  if t.getLast? = some 10 then { r with nl := true } else r

/-- `_begin_line` (streams/wvcolorlogconsole.cc:52-69, streams/wvlog.cc:246-249). -/
def vbegin (col : Bool) (r : Rcv) : Rcv :=
  let r := if col then raw r (startSeq r.lvl) else r
  let r := midLine col r r.prefix_
  if col then raw (raw r clearSeq) endSeq else r

/-- `begin_line` (include/wvlogrcv.h:68-69). -/
def beginLine (col : Bool) (r : Rcv) : Rcv := if !r.nl then r else { vbegin col r with nl := false }

/-- `_end_line` (streams/wvcolorlogconsole.cc:92-105, streams/wvlog.cc:252-255). -/
def vend (col : Bool) (r : Rcv) : Rcv :=
  if col then raw (raw (raw r (startSeq r.lvl)) clearSeq) endSeq else r

/-- `end_line` (include/wvlogrcv.h:83-85). -/
def endLine (col : Bool) (r : Rcv) : Rcv := if r.nl then r else { vend col (vmid col r [10]) with nl := true }

/-- The loop of `WvLogRcv::log` (streams/wvlog.cc:326-373). -/
def logLoop (col : Bool) : Nat → Rcv → Text → Rcv
  | 0, r, _ => r
  | _ + 1, r, [] => r
  | f + 1, r, c :: b =>
    if c = 10 ∨ c = 13 then logLoop col f (endLine col r) b
    else
      let r := beginLine col r
      if c = 9 then logLoop col f (midLine col r [32]) b
      else if !myIsprint c then logLoop col f (midLine col r [ch '[', xdigit (c.toNat / 16), xdigit (c.toNat % 16), ch ']']) b
      else
        let text := fun c => !(c == 10 || !myIsprint c)
        logLoop col f (midLine col r (c :: b.takeWhile text)) (b.dropWhile text)

/-- `WvLogRcv::log` (streams/wvlog.cc:272-374). -/
def log (col : Bool) (r : Rcv) (m : Msg) : Rcv :=
  if m.lvl > threshold r m.src then r
  else
    let r := if some m.src ≠ r.src ∨ m.lvl ≠ r.lvl ∨ r.force = true then
        makePrefix { endLine col r with src := some m.src, lvl := m.lvl }
      else r
    logLoop col m.text.length r m.text

/-- A console made with `WvColorLogConsole` (streams/wvcolorlogconsole.cc:40-44) that has been told these messages. -/
def console (tty : Bool) (term : Option Text) (max : Nat) (custom : List Rule) (force : Bool) (msgs : List Msg) : Rcv :=
  msgs.foldl (log (canColorize tty term)) (LogRcv.new max custom force)

/-- The destructors (streams/wvcolorlogconsole.cc:47-49, streams/wvlog.cc:426-429): in the second one the functions of
    `WvColorLogConsole` are not called any more. -/
def destroy (r : Rcv) : Rcv := LogRcv.endLine r

end Wv.ColorLog
