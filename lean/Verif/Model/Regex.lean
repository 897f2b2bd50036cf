import Verif.Model.ErrorObj
import Verif.Spec.Regex
/-!
`WvRegex` (utils/wvregex.cc, include/wvregex.h). The functions of the C library are parameters. `none` is reading memory that was not written.
-/
namespace Wv.Regex
open Wv Spec.Regex

/-- `have_preg`, `preg` and the flags it was compiled with, and the error. -/
structure Obj (R : Type) where
  preg : Option (R × Nat)
  err : ErrorObj.Obj

def new (R : Type) : Obj R := ⟨none, ⟨0, none, 0⟩⟩

/-- `seterr` (utils/wvregex.cc:14-25): the description is asked for only if there is an expression. -/
def seterr {R : Type} (L : Lib R) (o : Obj R) (code : Nat) : Option (Obj R) :=
  if o.preg.isSome then (ErrorObj.seterrBoth o.err code (L.message code)).map fun e => { o with err := e }
  else (ErrorObj.seterr o.err code).map fun e => { o with err := e }

/-- `set` (utils/wvregex.cc:27-38). -/
def setRe {R : Type} (L : Lib R) (o : Obj R) (regex : Text) (cflags : Nat) : Option (Bool × Obj R) :=
  match L.comp regex cflags with
  | .error code => (seterr L o code).map fun o => (false, { o with preg := none })
  | .ok r => some (true, { o with preg := some (r, cflags) })

/-- Strings of the caller, by number; null is `none`. -/
abbrev Vars := Nat → Option Text

/-- What is matched: a string of the caller's or another text. -/
inductive Subject where
  | var (n : Nat)
  | text (t : Text)
deriving DecidableEq, Repr

/-- The characters of the subject. A null string is not looked at. -/
def Subject.get (v : Vars) : Subject → Option Text
  | .var n => v n
  | .text t => some t

def upd {β : Type} (f : Nat → β) (a : Nat) (b : β) : Nat → β := fun x => if x = a then b else f x

/-- `__WVRE_STORE_REGS(n)` (include/wvregex.h:82-89): the new buffer of the register is got before the characters are copied from the subject. -/
def store (subj : Subject) (t : Text) (v : Vars) (reg : Nat) (e : Option Extent) : Option Vars :=
  match e with
  | none => some v
  | some e =>
    if subj = .var reg then none
    else some (upd v reg (some ((t.drop e.1).take (e.2 - e.1))))

/-- All registers (include/wvregex.h:91-100), from number `i` on. -/
def stores (subj : Subject) (t : Text) (m : Nat → Option Extent) : (i : Nat) → List Nat → Vars → Option Vars
  | _, [], v => some v
  | i, r :: l, v => (store subj t v r (m (i + 1))).bind fun v => stores subj t m (i + 1) l v

/-- What a call gives: whether it matches, where, and the strings. -/
structure Res where
  ok : Bool
  start : Nat
  stop : Nat
  vars : Vars

/-- `_match` (include/wvregex.h:56-103) and `match` (utils/wvregex.cc:45-51): with at most 20 registers. With `NOSUB` the library does not say where. `start` and `stop` are
    those of the caller, which are kept if there is no match. -/
def match_ {R : Type} (L : Lib R) (o : Obj R) (v : Vars) (subj : Subject) (eflags : Nat) (regs : List Nat) (start stop : Nat) : Option Res :=
  match o.preg with
  | none => some ⟨false, start, stop, v⟩
  | some (r, cflags) =>
    (subj.get v).bind fun t =>
    match L.exec r t eflags with
    | none => some ⟨false, start, stop, v⟩
    | some m =>
      if L.nosub cflags then none
      else
        match m 0 with
        | none => none
        | some e => (stores subj t m 0 regs v).map fun v => ⟨true, e.1, e.2, v⟩

/-- The loop of the documentation (include/wvregex.h:215-226), with at most `n` rounds: where it matched, and whether it ended. -/
def loop {R : Type} (L : Lib R) (o : Obj R) (line : Text) : (n : Nat) → (start : Nat) → List Extent × Bool
  | 0, _ => ([], false)
  | n + 1, start =>
    match match_ L o (fun _ => none) (.text (line.drop start)) 0 [] 0 0 with
    | some ⟨true, a, b, _⟩ => let r := loop L o line n (start + b); ((start + a, start + b) :: r.1, r.2)
    | _ => ([], true)

end Wv.Regex
