/-
Model of utils/wvtimeutils.cc:14-65 and include/wvtimeutils.h:17-33, 57-62. Fields are unbounded integers: overflow of
`long` and `long long` is not modelled. `/` and `%` of C++ truncate towards zero: `Int.tdiv`, `Int.tmod`.
-/
namespace Wv.Time

/-- `WvTime`, a `struct timeval` (include/wvtimeutils.h:17). -/
structure T where
  sec : Int
  usec : Int
deriving DecidableEq, Repr

/-- `WvTime(long long t)` (include/wvtimeutils.h:22-23). -/
def ofMicro (t : Int) : T := ⟨t.tdiv 1000000, t.tmod 1000000⟩

/-- `operator long long` (include/wvtimeutils.h:31-32), which is also what times are compared by. -/
def toMicro (t : T) : Int := t.sec * 1000000 + t.usec

/-- `normalize` (include/wvtimeutils.h:57-62). -/
def normalize (t : T) : T :=
  let sec := t.sec + (if t.usec < 0 then t.usec.tdiv 1000000 - 1 else t.usec.tdiv 1000000)
  let usec := t.usec.tmod 1000000
  ⟨sec, usec + (if usec < 0 then 1000000 else 0)⟩

/-- `msecdiff` (utils/wvtimeutils.cc:14-28). -/
def msecdiff (a b : T) : Int :=
  let secdiff := a.sec - b.sec
  let usecdiff := a.usec - b.usec
  let msecs := secdiff * 1000 + usecdiff.tdiv 1000
  if msecs > 2147483647 then 2147483647 else if msecs < -2147483648 then -2147483648 else msecs

/-- `msecadd` (utils/wvtimeutils.cc:39-46). -/
def msecadd (a : T) (msec : Int) : T :=
  normalize ⟨a.sec + msec.tdiv 1000, a.usec + msec.tmod 1000 * 1000⟩

/-- `tvdiff` (utils/wvtimeutils.cc:49-65). -/
def tvdiff (a b : T) : T :=
  let c : T := ⟨a.sec - b.sec, a.usec⟩
  let c : T := if b.usec > a.usec then ⟨c.sec - 1, c.usec + 1000000⟩ else c
  normalize ⟨c.sec, c.usec - b.usec⟩

/-- `wvstime_sync_forward` (utils/wvtimeutils.cc:77-89, 98-101): the new stepped time, given the old one and the time of
    day. -/
def syncForward (cur now : T) : T := if toMicro cur < toMicro now then now else cur

end Wv.Time
