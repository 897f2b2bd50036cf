import Verif.Spec.Log
/-
`WvLogRcv` (streams/wvlog.cc, include/wvlogrcv.h) and `WvLogBuffer` (streams/wvlogbuffer.cc), and `trim_string`.
Simplifications: no time stamps (and so not `last_time`); `prefix` is not kept, `WvLogBuffer` never prints it; `custom_levels` is a function from
sources to levels; the hash table `counters` is a list of keys and values (the hash tables are verified on their own).
-/
namespace Wv

/-- `trim_string` (utils/wvstrutils.cc:59-79) of a string that is not NULL: first the end, then the front. `isspace` of negative `char`s is false. -/
def trimString (s : List Byte) : List Byte := ((s.reverse.dropWhile isspace).reverse).dropWhile isspace

namespace Log
open Spec.Log (Text Msg Event)

/-- `WvLog::NUM_LOGLEVELS` (include/wvlog.h:59-72). -/
def numLevels : Nat := 10

/-- A `WvLogBuffer`: `last_source`, `last_level`, `at_newline`, `current`, `msgs` (with pointers for names), `counters`, `max_lines`; and the next
    new pointer. -/
structure State where
  src : Option Text
  lvl : Nat
  nl : Bool
  cur : List Byte
  msgs : List (Nat × Msg)
  counters : List (Text × List Nat)
  next : Nat
  max : Nat

/-- The constructors (streams/wvlog.cc:225-232, streams/wvlogbuffer.cc:35-39); `max_lines` is not negative. -/
def new (max : Nat) : State := ⟨none, numLevels, true, [], [], [], 0, max⟩

/-- The name of a counter (streams/wvlogbuffer.cc:59): `"%s:%s"`, for levels of one digit. A null source prints as `(nil)`. -/
def typeName (src : Option Text) (lvl : Nat) : Text := src.getD (str ['(', 'n', 'i', 'l', ')']) ++ [ch ':', UInt8.ofNat (48 + lvl)]

/-- `MsgCounter::add` (streams/wvlogbuffer.cc:19-32): the new list and which message to delete. -/
def counterAdd (l : List Nat) (msg max : Nat) : List Nat × Option Nat :=
  if max < (l ++ [msg]).length then ((l ++ [msg]).tail, (l ++ [msg]).head?) else (l ++ [msg], none)

/-- Replacing the value of a key. -/
def put (c : List (Text × List Nat)) (k : Text) (v : List Nat) : List (Text × List Nat) := c.map fun x => if x.1 = k then (k, v) else x

/-- Making a counter if there is none (streams/wvlogbuffer.cc:60-66). -/
def ensure (c : List (Text × List Nat)) (k : Text) : List (Text × List Nat) :=
  match c.find? (fun x => x.1 = k) with
  | none => c ++ [(k, [])]
  | some _ => c

/-- `handle_msg` (streams/wvlogbuffer.cc:53-73). -/
def handleMsg (s : State) (m : Msg) : State :=
  let id := s.next
  let msgs := s.msgs ++ [(id, m)]
  let type := typeName s.src s.lvl
  let counters := ensure s.counters type
  let l := ((counters.find? (fun x => x.1 = type)).map (·.2)).getD []
  let r := counterAdd l id s.max
  let msgs := match r.2 with
    | none => msgs
    | some kill => msgs.eraseP (fun x => x.1 = kill)
  { s with msgs := msgs, counters := put counters type r.1, next := id + 1 }

/-- `_mid_line` (streams/wvlogbuffer.cc:48-51). -/
def midLine' (s : State) (b : List Byte) : State := { s with cur := s.cur ++ b }

/-- `mid_line` (include/wvlogrcv.h:70-72). -/
def midLine (s : State) (b : List Byte) : State :=
  let s := midLine' s b
  if b.getLast? = some 10 then { s with nl := true } else s

/-- `_end_line` (streams/wvlogbuffer.cc:75-87): the buffer, as a C string, trimmed. -/
def endLine' (s : State) : State :=
  if s.lvl < numLevels then
    let c := s.cur ++ [0]
    handleMsg { s with cur := [] } ⟨s.src.getD [], s.lvl, trimString (c.takeWhile (· ≠ 0))⟩
  else { s with cur := [] }

/-- `end_line` (include/wvlogrcv.h:83-85). -/
def endLine (s : State) : State :=
  if s.nl then s else { endLine' (midLine' s [10]) with nl := true }

/-- `begin_line` (include/wvlogrcv.h:68-69) with the empty `_begin_line` of `WvLogBuffer`. -/
def beginLine (s : State) : State := if !s.nl then s else { s with nl := false }

/-- `my_isprint` (streams/wvlog.cc:262-269). -/
def myIsprint (c : Byte) : Bool := isprint c || 128 ≤ c

/-- A digit of `%02x`. -/
def xdigit (n : Nat) : Byte := if n < 10 then UInt8.ofNat (48 + n) else UInt8.ofNat (97 + (n - 10))

/-- The loop of `log` (streams/wvlog.cc:326-373). -/
def logLoop (s : State) (buf : List Byte) : State :=
  match buf with
  | [] => s
  | c :: r =>
    if c = 10 ∨ c = 13 then logLoop (endLine s) r
    else
      let s := beginLine s
      if c = 9 then logLoop (midLine s [32]) r
      else if !myIsprint c then logLoop (midLine s [ch '[', xdigit (c.toNat / 16), xdigit (c.toNat % 16), ch ']']) r
      else
        let text := fun c => !(c == 10 || !myIsprint c)
        logLoop (midLine s (c :: r.takeWhile text)) (r.dropWhile text)
  termination_by buf.length
  decreasing_by
    all_goals simp only [List.length_cons]
    · omega
    · omega
    · omega
    · have := (List.dropWhile_suffix (l := r) fun c : Byte => !(c == 10 || !myIsprint c)).length_le
      omega

/-- `log` (streams/wvlog.cc:272-374) of text from a source that is not null. `threshold` is `max_level`, or the custom level of the source. -/
def log (threshold : Text → Nat) (s : State) (src : Text) (lvl : Nat) (buf : List Byte) : State :=
  if lvl > threshold src then s
  else
    let s := if some src ≠ s.src ∨ lvl ≠ s.lvl then { endLine s with src := some src, lvl := lvl } else s
    logLoop s buf

/-- An event: `log`, or `messages` (include/wvlogbuffer.h:73-74). -/
def step (threshold : Text → Nat) (s : State) : Event → State
  | .log src lvl buf => log threshold s src lvl buf
  | .ask => endLine s

def run (threshold : Text → Nat) (s : State) (h : List Event) : State := h.foldl (step threshold) s

/-- What `messages` gives. -/
def messages (s : State) : List Msg := (endLine s).msgs.map (·.2)

/-- `feed_receiver` (streams/wvlogbuffer.cc:89-99), to another `WvLogBuffer`. -/
def feedReceiver (threshold : Text → Nat) (s r : State) : State :=
  s.msgs.foldl (fun r m => log threshold r m.2.src m.2.lvl m.2.text) r

end Log
end Wv
