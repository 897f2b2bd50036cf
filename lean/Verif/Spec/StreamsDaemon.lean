import Verif.Model.Basic
/-!
Daemons that run streams, for C123.
-/
namespace Spec.StreamsDaemon

/-- What closing a stream of a daemon means to it. -/
inductive Kind where
  | plain
  | restart
  | die
deriving DecidableEq, Repr

/-- What happens while the daemon starts or runs. Streams are known by their addresses: a new stream is put at an address; the daemon adds one, to be
    freed when it is removed or not; somebody else puts one in the list of all streams; one closes; the daemon is told to restart, to die, or to close
    all connections when it restarts. -/
inductive Act where
  | new (a : Nat) (ok : Bool)
  | add (a : Nat) (free : Bool) (k : Kind)
  | append (a : Nat) (free : Bool)
  | close (a : Nat)
  | restart
  | die
  | full
deriving DecidableEq, Repr

end Spec.StreamsDaemon
