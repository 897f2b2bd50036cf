import Verif.Model.Basic
/- Serial ports and their speeds. -/
namespace Spec.Modem

/-- The speeds a port can be set to, in bits per second, and the numbers that stand for them (termios.h of Linux). -/
def codes : List (Nat × Nat) :=
  [(300, 7), (1200, 9), (2400, 11), (4800, 12), (9600, 13), (19200, 14), (38400, 15), (57600, 4097), (115200, 4098),
   (230400, 4099), (460800, 4100)]

/-- The greatest speed that is not greater than `b`. -/
def Best (b r : Int) : Prop :=
  (∃ c ∈ codes, (c.1 : Int) = r) ∧ r ≤ b ∧ ∀ c ∈ codes, (c.1 : Int) ≤ b → (c.1 : Int) ≤ r

/-- How a port is set: its speeds, whether it takes no notice of the modem's lines (so that it can be opened without a carrier), and
    all other settings. -/
structure Setting where
  ispeed : Nat
  ospeed : Nat
  clocal : Bool
  flags : Nat
  deriving DecidableEq

/-- What comes of an attempt to read or write. -/
inductive Io where
  | ok
  | err
  | eof
  deriving DecidableEq

/-- What is done with a modem. -/
inductive Op where
  | speed (b : Int)
  | hangup
  /-- reading or writing -/
  | io
  | close
  deriving DecidableEq

end Spec.Modem
