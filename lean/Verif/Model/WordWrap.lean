import Verif.Model.Encoder
/- Model of utils/wvwordwrap.cc. -/
namespace Wv.WordWrap

/-- Fields of WvWordWrapEncoder (include/wvwordwrap.h:22-27). `line` is the content of the array up to `curindex`, so
    `curindex` is its length. The array has `maxwidth` cells: `Wv.WordWrap.WInv` shows that `line` stays within it.
    `width` is an int that grows without bound on blanks; no overflow is modelled. -/
structure St where
  line : List Byte := []
  width : Nat := 0
  wordindex : Nat := 0
  inword : Bool := false
deriving DecidableEq, Repr

/-- `flushline` (utils/wvwordwrap.cc:106-111): new state, bytes put out. -/
def flushline (s : St) : St × List Byte := ({ s with line := [], wordindex := 0, inword := false }, s.line)

/-- The body of the loop of `_encode` (utils/wvwordwrap.cc:37-98). -/
def step (maxwidth : Nat) (s : St) (c : Byte) : St × List Byte :=
  if c = 10 then
    let s := if s.inword then s else { s with line := [] }
    let (s, o) := flushline s
    ({ s with width := 0 }, o ++ [10])
  else if c = 32 then
    let (s, o) := if s.inword then flushline s else (s, [])
    let s := { s with width := s.width + 1 }
    (if s.width ≤ maxwidth then { s with line := s.line ++ [c] } else s, o)
  else if c = 9 then
    let (s, o) := if s.inword then flushline s else (s, [])
    let s := { s with width := (s.width + 8) / 8 * 8 }
    (if s.width ≤ maxwidth then { s with line := s.line ++ [c] } else s, o)
  else
    let (s, o) :=
      if s.width ≥ maxwidth then
        if !s.inword then ({ s with line := [], wordindex := 0, width := 0 }, [10])
        else if s.wordindex = 0 then
          let (s, o) := flushline s
          ({ s with width := 0 }, o ++ [10])
        else
          let line := s.line.drop s.wordindex
          ({ s with line := line, wordindex := 0, width := line.length }, [10])
      else (s, [])
    let s := if !s.inword then { s with inword := true, wordindex := s.line.length } else s
    ({ s with width := s.width + 1, line := s.line ++ [c] }, o)

/-- The loop of `_encode` (utils/wvwordwrap.cc:35-99). -/
def loop (maxwidth : Nat) (s : St) : List Byte → St × List Byte
  | [] => (s, [])
  | c :: cs =>
    let (s, o) := step maxwidth s c
    let (s, o') := loop maxwidth s cs
    (s, o ++ o')

/-- WvWordWrapEncoder (utils/wvwordwrap.cc). -/
def encoder (maxwidth : Nat) : EncImpl St where
  encode' e io flush :=
    let (s, o) := loop maxwidth e.st io.inb
    let (s, o') := if flush then flushline s else (s, [])
    ({ e with st := s }, ⟨[], io.out ++ o ++ o'⟩, true)
  reset' e := ({ e with st := {} }, true)

def new : Enc St := { st := {} }

end Wv.WordWrap
