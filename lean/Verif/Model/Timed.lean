import Verif.Model.Time
/-
Model of what waits for a moment: the alarm of a stream (streams/wvstream.cc:403-415, 846-903, 1056-1096), WvTimeStream
(streams/wvtimestream.cc), WvDailyEvent (streams/wvdailyevent.cc) and WvRateAdjust (utils/wvrateadjust.cc). The clock is an
argument of every operation. Integers are unbounded, as in Model/Time; the time zone is a fixed number of seconds ahead
of UTC, so that a day has 86400 seconds.
-/
namespace Wv.Timed
open Wv.Time

/-! ### The alarm of a stream -/

/-- `alarm_time` and `last_alarm_check` (include/wvstream.h:639-640). -/
structure Alarm where
  time : T
  last : T
deriving DecidableEq, Repr

/-- The constructor (streams/wvstream.cc:268-269). -/
def Alarm.init : Alarm := ⟨⟨0, 0⟩, ⟨0, 0⟩⟩

/-- `WvStream::alarm` (streams/wvstream.cc:1056-1062). -/
def Alarm.set (a : Alarm) (now : T) (msec : Int) : Alarm :=
  if msec ≥ 0 then { a with time := msecadd now msec } else { a with time := ⟨0, 0⟩ }

/-- `WvStream::alarm_remaining` (streams/wvstream.cc:1065-1096): the milliseconds that are left, -1 if there is no alarm. -/
def Alarm.remaining (a : Alarm) (now : T) : Int × Alarm :=
  if a.time.sec ≠ 0 then
    let time := if toMicro now < toMicro a.last then tvdiff a.time (tvdiff a.last now) else a.time
    let r := msecdiff time now
    (if r < 0 then 0 else r, ⟨time, now⟩)
  else (-1, a)

/-- What `WvStream::callback` does with the alarm (streams/wvstream.cc:407-414): whether it was ticking, and it is cleared
    if it was. -/
def Alarm.callback (a : Alarm) (now : T) : Bool × Alarm :=
  let r := a.remaining now
  if r.1 = 0 then (true, { r.2 with time := ⟨0, 0⟩ }) else (false, r.2)

/-- `WvStream::pre_select` for a stream that is fine and has nothing to read (streams/wvstream.cc:850-855, 871-873): the
    timeout of the select. -/
def Alarm.preSelect (a : Alarm) (now : T) (timeout : Int) : Int × Alarm :=
  let r := a.remaining now
  if r.1 = 0 then (0, r.2)
  else if r.1 ≥ 0 ∧ (r.1 < timeout ∨ timeout < 0) then (r.1 + 10, r.2)
  else (timeout, r.2)

/-- `WvStream::post_select` for such a stream (streams/wvstream.cc:894-895). -/
def Alarm.postSelect (a : Alarm) (now : T) : Bool × Alarm :=
  let r := a.remaining now
  (r.1 = 0, r.2)

/-- The alarm is looked at at these moments, and at `now` at last. -/
def Alarm.checks (a : Alarm) : List T → T → Int × Alarm
  | [], now => a.remaining now
  | t :: ts, now => (a.remaining t).2.checks ts now

/-! ### WvTimeStream -/

/-- The members of a WvTimeStream (include/wvtimestream.h:24-26). -/
structure Tick where
  last : T
  next : T
  ms : Int
deriving DecidableEq, Repr

/-- The constructor (streams/wvtimestream.cc:9-12). -/
def Tick.init : Tick := ⟨⟨0, 0⟩, ⟨0, 0⟩, 0⟩

/-- `set_timer` (streams/wvtimestream.cc:15-22). -/
def Tick.setTimer (now : T) (msec : Int) : Tick :=
  let ms := if msec > 0 then msec else 0
  ⟨now, msecadd now ms, ms⟩

/-- `pre_select` (streams/wvtimestream.cc:31-61): the timeout `timeout` is what `WvStream::pre_select` left. -/
def Tick.preSelect (s : Tick) (now : T) (timeout : Int) : Int × Tick :=
  if s.ms ≠ 0 then
    let next := if toMicro now < toMicro s.last then tvdiff s.next (tvdiff s.last now) else s.next
    let s' : Tick := { s with next := next, last := now }
    if toMicro next ≤ toMicro now then (0, s')
    else
      let diff := msecdiff next now
      let diff := if diff < 0 then 0 else diff
      (if diff < timeout ∨ timeout < 0 then diff else timeout, s')
  else (timeout, s)

/-- `post_select` (streams/wvtimestream.cc:64-69): `base` is the answer of `WvStream::post_select`. -/
def Tick.postSelect (s : Tick) (now : T) (base : Bool) : Bool :=
  base || (s.ms ≠ 0 && toMicro s.next ≤ toMicro now)

/-- `execute` (streams/wvtimestream.cc:72-97). -/
def Tick.execute (s : Tick) (now : T) (alarmWasTicking : Bool) : Tick :=
  if !alarmWasTicking then
    let next := msecadd s.next s.ms
    if msecdiff next now > s.ms * 100 ∨ msecdiff now next > s.ms * 100 then
      { s with last := now, next := msecadd now s.ms }
    else if msecdiff next now > s.ms * 10 then { s with next := msecadd now s.ms }
    else { s with next := next }
  else s

/-- One round of the main loop: the time at pre_select, the time at post_select and in the callback, whether the stream
    is ready for another reason than the timer, and whether its alarm rang. -/
structure Round where
  pre : T
  post : T
  base : Bool
  alarm : Bool

/-- One round (streams/wvstream.cc:1006-1024: pre_select, waiting, post_select; a stream that is ready is called back). The
    result says whether this was a tick: the timer was due and it was not the alarm that rang. -/
def Tick.round (s : Tick) (r : Round) : Bool × Tick :=
  let s' := (s.preSelect r.pre (-1)).2
  if s'.postSelect r.post r.base then
    (s'.ms ≠ 0 && toMicro s'.next ≤ toMicro r.post && !r.alarm, s'.execute r.post r.alarm)
  else (false, s')

/-- Many rounds. -/
def Tick.rounds (s : Tick) : List Round → List Bool × Tick
  | [] => ([], s)
  | r :: rs =>
    let x := s.round r
    let y := x.2.rounds rs
    (x.1 :: y.1, y.2)

/-! ### WvDailyEvent -/

/-- The members of a WvDailyEvent (include/wvdailyevent.h:82-89). -/
structure Daily where
  hour : Int
  num : Int
  needReset : Bool
  skip : Bool
  prev : Int
  notUntil : Int
deriving DecidableEq, Repr

/-- `set_num_per_day` (streams/wvdailyevent.cc:83-99). -/
def Daily.setNum (d : Daily) (now : Int) (n : Int) : Daily :=
  let n := if n < 0 then 1 else n
  let n := if n > 86400 then 86400 else n
  let max := if n ≠ 0 then (86400 : Int).tdiv n else 21600
  let max := if max > 21600 then 21600 else max
  { d with num := n, prev := now, notUntil := now + max }

/-- `configure` (streams/wvdailyevent.cc:102-113). -/
def Daily.configure (d : Daily) (now hour n : Int) (skip : Bool) : Daily :=
  let n := if n > 1440 then 1440 else n
  { d with hour := hour, skip := skip }.setNum now n

/-- The constructor (streams/wvdailyevent.cc:29-35). -/
def Daily.new (now hour n : Int) (skip : Bool) : Daily :=
  Daily.configure ⟨0, 0, false, false, now, 0⟩ now hour n skip

/-- `tm_hour` of `localtime` in a zone `off` seconds ahead. -/
def localHour (off t : Int) : Int := (t + off) % 86400 / 3600

/-- `mktime` of the day of `t` with the hour set to `hour`, and no minutes and seconds (streams/wvdailyevent.cc:134-136).
    -/
def atHour (off t hour : Int) : Int := (t + off) / 86400 * 86400 + hour * 3600 - off

/-- `while (skip_first && next < not_until) next += interval` (streams/wvdailyevent.cc:147-148), `fuel` times at most. -/
def skipTo (interval notUntil : Int) : Nat → Int → Int
  | 0, next => next
  | fuel + 1, next => if next < notUntil then skipTo interval notUntil fuel (next + interval) else next

/-- `next_event` (streams/wvdailyevent.cc:117-151). `none`: an assertion fails and the program ends. -/
def Daily.nextEvent (off : Int) (d : Daily) : Option Int :=
  if d.num = 0 then some 0
  else if d.prev = 0 then none
  else
    let interval := (86400 : Int).tdiv d.num
    let start := d.prev + interval
    let start := if localHour off start < d.hour then d.prev - 86400 + 1 else start
    let start := atHour off start d.hour
    let next := d.prev + interval
    let next := if (next - start).tmod interval ≠ 0 then start + (next - start).tdiv interval * interval else next
    if next ≤ 100000 then none
    else some (if d.skip then skipTo interval d.notUntil (d.notUntil - next).toNat next else next)

/-- `pre_select` (streams/wvdailyevent.cc:39-65). `now` in seconds. `msecdiff(now, next)` makes its two numbers of seconds
    into times with the constructor that takes microseconds. -/
def Daily.preSelect (off : Int) (d : Daily) (now : Int) (timeout : Int) : Option (Int × Daily) :=
  if d.num ≠ 0 then
    match d.nextEvent off with
    | none => none
    | some next =>
      if d.prev ≤ 100000 ∨ next ≤ 100000 then none
      else if now < next then
        some (if d.needReset then 0 else msecdiff (ofMicro now) (ofMicro next), d)
      else if !d.needReset then some (0, { d with needReset := true, prev := next })
      else some (0, d)
  else some (if d.needReset then 0 else timeout, d)

/-- `post_select` (streams/wvdailyevent.cc:69-80). `prev = next` makes a time into a number of microseconds. -/
def Daily.postSelect (off : Int) (d : Daily) (now : T) (base : Bool) : Option (Bool × Daily) :=
  match d.nextEvent off with
  | none => none
  | some n =>
    let next : T := ⟨n, 0⟩
    if toMicro next < toMicro now then some (true, { d with prev := toMicro next })
    else some (base || d.needReset, d)

/-- One round of the main loop: whether the stream was ready. `now` is the stepped time, in seconds, `wall` the time of
    day after waiting. -/
def Daily.round (off : Int) (d : Daily) (now : Int) (wall : T) : Option (Bool × Daily) :=
  match d.preSelect off now (-1) with
  | none => none
  | some (_, d') => d'.postSelect off wall false

/-! ### WvRateAdjust -/

/-- The members of a WvRateAdjust (include/wvrateadjust.h:29-42), without `sampsize` (a sample is one element here) and
    `match_rate` (the rate to match is an argument of `encode`). -/
structure Rate where
  iN : Int
  iD : Int
  oN : Int
  oD : Int
  epoch : T
  bucket : Int
deriving DecidableEq, Repr

/-- The constructors and `init` (utils/wvrateadjust.cc:12-49). -/
def Rate.new (now : T) (base oN oD : Int) : Rate :=
  ⟨base * 10, 10, oN, oD, ⟨now.sec - 1, now.usec⟩, 0⟩

/-- `while (bucket >= minus)` (utils/wvrateadjust.cc:117-127): how many samples are put out, and what is left in the
    bucket. `none`: the loop does not end within `fuel` turns. -/
def drain (minus : Int) : Nat → Int → Option (Nat × Int)
  | fuel, bucket =>
    if bucket ≥ minus then
      match fuel with
      | 0 => none
      | fuel + 1 => (drain minus fuel (bucket - minus)).map fun r => (r.1 + 1, r.2)
    else some (0, bucket)

/-- The loop over the samples (utils/wvrateadjust.cc:112-128). That the room for the output is made in pieces is left
    out. -/
def copy {α : Type} (plus minus : Int) (bucket : Int) : List α → Option (List α × Int)
  | [] => some ([], bucket)
  | x :: xs =>
    match drain minus (bucket + plus).toNat (bucket + plus) with
    | none => none
    | some (k, b) => (copy plus minus b xs).map fun r => (List.replicate k x ++ r.1, r.2)

/-- The estimate of the input rate (utils/wvrateadjust.cc:69-98). `isamps` samples came at `now`. -/
def Rate.estimate (r : Rate) (now : T) (isamps : Int) : Rate :=
  let epoch := if r.epoch.sec = 0 then now else r.epoch
  let n := r.iN + isamps * 10
  let d := (msecdiff now epoch).tdiv 100
  let d := if d = 0 then 1 else d
  if d > 100 then
    { r with epoch := ⟨epoch.sec + 1, epoch.usec⟩, iN := (n * (d - 10)).tdiv d, iD := d - 10 }
  else { r with epoch := epoch, iN := n, iD := d }

/-- `if (match_rate)` (utils/wvrateadjust.cc:62-67). -/
def Rate.matching (r : Rate) : Option (Int × Int) → Rate
  | none => r
  | some (n, d) => { r with oN := n, oD := d }

/-- `_encode` (utils/wvrateadjust.cc:54-135). `rate` is the rate to match, if there is one. -/
def Rate.encode {α : Type} (r : Rate) (now : T) (rate : Option (Int × Int)) (xs : List α) : Option (List α × Rate) :=
  if xs.isEmpty then some ([], r)
  else
    let r := (r.matching rate).estimate now xs.length
    match copy (r.oN * r.iD) (r.iN * r.oD) r.bucket xs with
    | none => none
    | some (out, b) => some (out, { r with bucket := b })

end Wv.Timed
