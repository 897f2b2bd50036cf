/-
The life of a daemon: load, then start, run as often as needed, stop, and again, then unload.
-/
namespace Spec.Daemon

inductive Cb where
  | load
  | start
  | run
  | stop
  | unload
  deriving DecidableEq

inductive Phase where
  | before
  | idle
  | running
  | after
  deriving DecidableEq

/-- What a callback means; `none` where it must not be called. -/
def next : Phase → Cb → Option Phase
  | .before, .load => some .idle
  | .idle, .start => some .running
  | .running, .run => some .running
  | .running, .stop => some .idle
  | .idle, .unload => some .after
  | _, _ => none

def phase (l : List Cb) : Option Phase := l.foldl (fun p c => p.bind fun p => next p c) (some .before)

end Spec.Daemon
