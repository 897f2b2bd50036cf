import Verif.Spec.Modem
/-
Model of `WvModem` and `WvModemBase` (streams/wvmodem.cc, include/wvmodem.h).

What reading, writing, `select` and the carrier line give is a list of answers, used one after another. Simplifications: a
write is done or fails as a whole, and nothing is left in the output buffer, so that `flush` in `WvStream::close` has nothing
to do; `drain` reads once; delays and `tcflush` are left out; `tcsetattr` and `tcgetattr` do not fail on an open port after the first.
-/
namespace Wv.Modem
open Spec.Modem (Setting Io Op)

/-- `speeds` (streams/wvmodem.cc:37-53). -/
def speeds : List (Int × Nat) :=
  [(460800, 4100), (230400, 4099), (115200, 4098), (57600, 4097), (38400, 15), (19200, 14), (9600, 13), (4800, 12), (2400, 11),
   (1200, 9), (300, 7)]

/-- The driver of the port: the output speed it takes when it is told one, and what `setup_modem` makes of the other flags
    (streams/wvmodem.cc:218-227), and `cfmakeraw`. -/
structure Driver where
  take : Nat → Nat
  flags : Bool → Nat → Nat
  raw : Nat → Nat

/-- A `WvModem`, its port, and the answers to come. `wait`: whether the port waits when it is closed (`closing_wait`).
    `closes`: how often the file has been closed. -/
structure St where
  t : Setting
  oldT : Setting
  haveOld : Bool
  baud : Int
  dieFast : Bool
  noReset : Bool
  closing : Bool
  closed : Bool
  err : Bool
  fd : Bool
  closes : Nat
  port : Setting
  wait : Bool
  ios : List Io
  carrier : List Bool
  ready : List Bool
  deriving DecidableEq

/-- `isok` (streams/wvfdstream.cc:134-137). -/
def St.isok (s : St) : Bool := !s.closed && !s.err && s.fd

/-- `tcsetattr(getrfd(), TCSANOW, &x)`. -/
def tcset (D : Driver) (s : St) (x : Setting) : St :=
  if s.fd then { s with port := { x with ospeed := D.take x.ospeed } } else s

/-- The end of `close` (streams/wvmodem.cc:272-283) with `WvFdStream::close` (streams/wvfdstream.cc:117-131). -/
def closeTail (D : Driver) (s : St) : St :=
  let s := if s.fd && s.haveOld then tcset D s s.oldT else s
  let s := if s.closed then s else { s with closed := true, closes := s.closes + (if s.fd then 1 else 0), fd := false }
  { s with closing := false }

/-- `seterr` of an error (streams/wvstream.cc:453-460) with the `close` it calls (streams/wvmodem.cc:255-284): `hangup` returns at
    once, as the stream is not ok any more, and so do `drain` and `write`. -/
def fail (D : Driver) (s : St) : St :=
  if s.err then s
  else
    let s := { s with err := true }
    if s.closed then s
    else closeTail D (if !s.closing && s.noReset then { s with t := { s.t with ospeed := 0 } } else s)

/-- Reading or writing (streams/wvfdstream.cc:140-180). `atEof`: the `close` that `seterr(0)` calls, which leaves no error. -/
def io (D : Driver) (atEof : St → St) (s : St) : St :=
  if !s.isok then s
  else
    let s' := { s with ios := s.ios.tail }
    match s.ios.head?.getD .ok with
    | .ok => s'
    | .err => fail D s'
    | .eof => atEof s'

/-- `carrier` (streams/wvmodem.cc:308-320). -/
def getCarrier (s : St) : Bool × St :=
  if !s.isok then (false, s) else (s.carrier.head?.getD false, { s with carrier := s.carrier.tail })

/-- `for (i = 0; carrier() && i < n; i++) usleep(…)`. -/
def waitCarrier : Nat → St → St
  | 0, s => (getCarrier s).2
  | n + 1, s => let r := getCarrier s; if r.1 then waitCarrier n r.2 else r.2

/-- `for (i = 0; !select(200, false, true) && i < n; i++) write("\r", 1)` (streams/wvmodem.cc:119-120). -/
def nudge (D : Driver) (atEof : St → St) : Nat → St → St
  | 0, s => { s with ready := s.ready.tail }
  | n + 1, s =>
    let s' := { s with ready := s.ready.tail }
    if s.ready.head?.getD true then s' else nudge D atEof n (io D atEof s')

/-- `get_real_speed` (streams/wvmodem.cc:68-86). -/
def realSpeed (s : St) : Int × St :=
  if !s.isok then (0, s)
  else
    let s := { s with t := s.port }
    let s := match speeds.find? fun e => e.2 == s.t.ospeed with
      | some e => { s with baud := e.1 }
      | none => s
    (s.baud, s)

/-- The loop of `speed` (streams/wvmodem.cc:290-299). -/
def codeFor (b : Int) : Nat := ((speeds.find? fun e => decide (e.1 ≤ b)).map (·.2)).getD 0

/-- `speed` (streams/wvmodem.cc:287-306). -/
def speed (D : Driver) (s : St) (b : Int) : Int × St :=
  let s := { s with baud := 0, t := { s.t with ispeed := 0, ospeed := codeFor b } }
  realSpeed (tcset D s s.t)

/-- `hangup` (streams/wvmodem.cc:107-148). -/
def hangup (D : Driver) (atEof : St → St) (s : St) : St :=
  let old := s.baud
  if s.dieFast || !s.isok then s
  else
    let s := io D atEof s
    let s := io D atEof s
    let s := nudge D atEof 10 s
    let s := io D atEof s
    let r := getCarrier s
    let s := if r.1 then
        let s := { r.2 with t := { r.2.t with ospeed := 0 } }
        let s := tcset D s s.t
        (speed D (waitCarrier 10 s) old).2
      else r.2
    let r := getCarrier s
    if r.1 then
      let s := io D atEof r.2
      let s := io D atEof s
      waitCarrier 5 s
    else r.2

/-- The `close` that is called while `closing` is set (streams/wvmodem.cc:255-284). -/
def closeAgain (D : Driver) (s : St) : St := if s.closed then s else closeTail D s

/-- `close` (streams/wvmodem.cc:255-284). -/
def close (D : Driver) (s : St) : St :=
  if s.closed then s
  else
    let s := if s.closing then s
      else
        let s := { s with closing := true }
        if !s.noReset then hangup D (closeAgain D) s
        else
          let s := io D (closeAgain D) s
          io D (closeAgain D) { s with t := { s.t with ospeed := 0 } }
    closeTail D s

/-- `setup_modem` (streams/wvmodem.cc:171-252). `tty`: whether `tcgetattr` succeeds. `serial`: whether the port has serial
    information to set. -/
def setup (D : Driver) (rtscts tty serial : Bool) (s : St) : St :=
  if !s.isok then s
  else if !tty then fail D { s with closing := true }
  else
    let s := { s with t := s.port, oldT := s.port, haveOld := true }
    let s := io D (close D) s
    let s := if serial && s.fd then { s with wait := false } else s
    let s := { s with t := { s.t with clocal := true, flags := D.flags rtscts s.t.flags } }
    let s := tcset D s s.t
    let s := { s with oldT := { s.oldT with clocal := true } }
    let s := if s.t.ospeed ≠ 0 ∧ s.noReset = false then
        io D (close D) (io D (close D) (io D (close D) (io D (close D) (io D (close D) s))))
      else s
    let s := { s with t := { s.t with ispeed := 0, ospeed := 0, flags := D.raw s.t.flags } }
    let s := tcset D s s.t
    let s := (getCarrier s).2
    let s := (speed D s s.baud).2
    io D (close D) s

/-- The port and the answers to come, before the object is made. -/
structure Env where
  port : Setting
  wait : Bool
  ios : List Io
  carrier : List Bool
  ready : List Bool
  lock : Bool
  opens : Bool
  tty : Bool
  serial : Bool
  deriving DecidableEq

/-- `WvModem::WvModem` (streams/wvmodem.cc:152-175). An object without a file is closed at once. -/
def make (D : Driver) (e : Env) (baud : Int) (rtscts noReset : Bool) : St :=
  let s : St := ⟨e.port, e.port, false, baud, false, noReset, false, false, false, false, 0, e.port, e.wait, e.ios, e.carrier, e.ready⟩
  if !e.lock || !e.opens then fail D s
  else setup D rtscts e.tty e.serial { s with fd := true }

/-- What is done with it. -/
def step (D : Driver) (s : St) : Op → St
  | .speed b => (speed D s b).2
  | .hangup => hangup D (close D) s
  | .io => io D (close D) s
  | .close => close D s

def run (D : Driver) (s : St) (l : List Op) : St := l.foldl (step D) s

/-- `WvModemBase::WvModemBase(int)` (streams/wvmodem.cc:56-59): `baud`, if `get_real_speed` sets it. `none`: it is not
    initialised. -/
def baseBaud (port : Setting) : Option Int := (speeds.find? fun e => e.2 == port.ospeed).map (·.1)

end Wv.Modem
