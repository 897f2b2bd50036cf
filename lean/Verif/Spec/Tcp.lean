import Verif.Spec.Addr
/-
What a connection does with the system, and what follows from it. Numbers of errors are those of Linux; they are never 0.
-/
namespace Spec.Tcp
open Wv (Byte ch)
open Spec.Addr (Addr)

abbrev Text := List Byte

inductive Err where
  | errno (e : Nat)
  | host (name : Text)
  deriving DecidableEq

inductive Ev where
  /-- `socket` made this one -/
  | opened (fd : Nat)
  /-- or failed -/
  | nosocket (e : Nat)
  /-- `connect` to an address and a port: 0, or an error -/
  | connect (fd : Nat) (a : Addr) (port : Nat) (res : Option Nat)
  /-- `getsockopt(SO_ERROR)` failed, or gave an error -/
  | sockerr (e : Nat)
  /-- `write` took these bytes -/
  | wrote (fd : Nat) (d : List Byte)
  /-- or failed -/
  | wfail (e : Nat)
  /-- `read` failed -/
  | rfail (e : Nat)
  /-- there is no such host -/
  | nohost (name : Text)
  | shut (fd : Nat)
  deriving DecidableEq

/-- These say that the connection is still being made: EINPROGRESS, EAGAIN, EALREADY; and EINVAL. -/
def pending (e : Nat) : Bool := e = 115 || e = 11 || e = 114 || e = 22

/-- The connection was made: 0, or EISCONN. -/
def Ev.success (n : Nat) : Ev → Bool
  | .connect fd _ _ res => fd = n && (res = none || res = some 106)
  | _ => false

/-- What failed. -/
def Ev.failure : Ev → Option Err
  | .nosocket e => some (.errno e)
  | .connect _ _ _ (some e) => if e = 106 || pending e then none else some (.errno e)
  | .sockerr e => some (.errno e)
  | .wfail e => some (.errno e)
  | .rfail e => some (.errno e)
  | .nohost n => some (.host n)
  | _ => none

/-- What was written. -/
def sent (log : List Ev) : List Byte := log.flatMap fun
  | .wrote _ d => d
  | _ => []

/-- Every write comes after the connection was made, on that socket. -/
def Ordered (log : List Ev) : Prop := ∀ l fd d r, log = l ++ .wrote fd d :: r → ∃ e ∈ l, e.success fd = true

/-- The separator between the name and the port: a colon, else a tab, else a space. -/
def separator (s : Text) : Option Byte := [ch ':', 9, ch ' '].find? (· ∈ s)

/-- The name, and the port if there is one. -/
def host (s : Text) : Text := match separator s with
  | none => s
  | some c => s.takeWhile (· ≠ c)

def service (s : Text) : Option Text := (separator s).map fun c => (s.dropWhile (· ≠ c)).tail

end Spec.Tcp
