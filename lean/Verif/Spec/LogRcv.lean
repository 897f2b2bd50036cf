import Verif.Spec.Log
import Verif.Spec.Split
/- What a log prints on a console, and who is told of a message. -/
namespace Spec.LogRcv
open Wv Spec.Log

/-- The names of the levels 0 to 9. -/
def levelName (n : Nat) : Text :=
  match n with
  | 0 => str ['C', 'r', 'i', 't']
  | 1 => str ['E', 'r', 'r']
  | 2 => str ['W', 'a', 'r', 'n']
  | 3 => str ['N', 'o', 't', 'i', 'c', 'e']
  | 4 => str ['I', 'n', 'f', 'o']
  | n + 5 => [42, UInt8.ofNat (49 + n)]

/-- `source<Level>: ` -/
def heading (m : Msg) : Text := m.src ++ str ['<'] ++ levelName m.lvl ++ str ['>', ':', ' ']

/-- Ends of lines. -/
def lineEnd (c : Byte) : Bool := c == 10 || c == 13

/-- A line of the message `m`, with its heading. An empty one is not shown. -/
def line (m : Msg) (t : Text) : Text := if t = [] then [] else heading m ++ t.flatMap shown

/-- The same, with the end of the line. -/
def fullLine (m : Msg) (t : Text) : Text := if t = [] then [] else line m t ++ [10]

/-- The lines of `m`, all with their ends. -/
def closed (m : Msg) : Text := (Split.pieces lineEnd m.text).flatMap (fullLine m)

/-- The lines of `m`: the last one may go on, so it has no end. -/
def opened (m : Msg) : Text :=
  (Split.pieces lineEnd m.text).dropLast.flatMap (fullLine m) ++ line m ((Split.pieces lineEnd m.text).getLast?.getD [])

/-- Messages that follow each other, with the same source and level, are one. -/
def together : List Msg → List Msg
  | [] => []
  | m :: l =>
    match together l with
    | [] => [m]
    | n :: l => if n.src = m.src ∧ n.lvl = m.lvl then ⟨m.src, m.lvl, m.text ++ n.text⟩ :: l else m :: n :: l

/-- What has been printed after these messages. -/
def printed (l : List Msg) : Text := l.dropLast.flatMap closed ++ (l.getLast?.map opened).getD []

/-- Small letters. -/
def small (t : Text) : Text := t.map tolower

/-- A rule: sources that have `name` in them, in capitals or not, are shown up to `level`. -/
structure Rule where
  name : Text
  level : Nat
  deriving DecidableEq

def Rule.applies (r : Rule) (src : Text) : Prop := small r.name <:+: small src

/-- `n` is a level up to which `src` may be shown: that of a rule that applies, or `max` if none does. -/
def Limit (max : Nat) (rules : List Rule) (src : Text) (n : Nat) : Prop :=
  (∃ r ∈ rules, r.applies src ∧ r.level = n) ∨ ((∀ r ∈ rules, ¬ r.applies src) ∧ n = max)

/-- A numeral of a level. -/
def numeral (n : Nat) : Text := if n < 10 then [UInt8.ofNat (48 + n)] else [49, 48]

/-- A rule that can be written down: a name without white space, commas and signs of equality, and a level from 1 to 10. -/
def Rule.plain (r : Rule) : Prop :=
  r.name ≠ [] ∧ (∀ c ∈ r.name, c ≠ 44 ∧ c ≠ 61 ∧ ¬ space c) ∧ 1 ≤ r.level ∧ r.level ≤ 10

/-- Separators: the comma, the sign of equality, the space. -/
def sep (c : Byte) : Bool := c == 44 || c == 61 || c == 32

/-- The words of a list of rules: name, level, name, level and so on. -/
def ruleWords (l : List Rule) : List Text := l.flatMap fun r => [r.name, numeral r.level]

/-- Who hears a message: a receiver somebody made, or the console that stands in for all when there is none. -/
inductive Who where
  | console
  | user (n : Nat)
  deriving DecidableEq

/-- What happens to the log of a process. -/
inductive Op where
  | newRcv (n : Nat)
  | delRcv (n : Nat)
  | newLog
  | delLog
  | write
  /-- the process goes on as the child of a fork -/
  | fork
  deriving DecidableEq

/-- The receivers somebody made, oldest first, and the number of logs. -/
structure World where
  rcvs : List Nat
  logs : Nat
  deriving DecidableEq

/-- `none`: this cannot be done, as there is no such receiver or log, or there is one already. -/
def World.step (w : World) : Op → Option World
  | .newRcv n => if n ∈ w.rcvs then none else some { w with rcvs := w.rcvs ++ [n] }
  | .delRcv n => if n ∈ w.rcvs then some { w with rcvs := w.rcvs.filter (· ≠ n) } else none
  | .newLog => some { w with logs := w.logs + 1 }
  | .delLog => if w.logs = 0 then none else some { w with logs := w.logs - 1 }
  | .write => if w.logs = 0 then none else some w
  | .fork => some { w with rcvs := [] }

def World.run : World → List Op → Option World
  | w, [] => some w
  | w, o :: os => (w.step o).bind fun w => w.run os

/-- Who hears what is written. -/
def World.audience (w : World) : List Who := if w.rcvs = [] then [.console] else w.rcvs.map .user

/-- The messages written while messages are heard: `react` is what a receiver writes into the log when it hears one.
    At depth 1 there is the first message, at depth `n + 1` what is written because of those at depth `n`. -/
def written (aud : List Who) (react : Who → Msg → List Msg) (m : Msg) : Nat → List Msg
  | 0 => []
  | 1 => [m]
  | n + 1 => (written aud react m n).flatMap fun x => aud.flatMap fun w => react w x

/-- The warning that there are too many messages. -/
def tooMany : Text :=
  str ['T', 'o', 'o', ' ', 'm', 'a', 'n', 'y', ' ', 'e', 'x', 't', 'r', 'a', ' ', 'l', 'o', 'g', ' ', 'm', 'e', 's', 's', 'a',
    'g', 'e', 's', ' ', 'w', 'r', 'i', 't', 't', 'e', 'n', ' ', 'w', 'h', 'i', 'l', 'e', ' ', 'w', 'r', 'i', 't', 'i', 'n', 'g',
    ' ', 't', 'o', ' ', 't', 'h', 'e', ' ', 'l', 'o', 'g', '.', ' ', ' ', 'S', 'u', 'p', 'p', 'r', 'e', 's', 's', 'i', 'n', 'g',
    ' ', 'a', 'd', 'd', 'i', 't', 'i', 'o', 'n', 'a', 'l', ' ', 'm', 'e', 's', 's', 'a', 'g', 'e', 's', '.'] ++ [10]

end Spec.LogRcv
