import Verif.Spec.StringMask
/-!
`WvStringMask` (utils/wvstringmask.cc).
-/
namespace Wv.StringMask
open Spec.StringMask (Op)

/-- `_set` and `_first` (include/wvstringmask.h:57-58). -/
structure Mask where
  bits : List Bool
  first : Byte
deriving DecidableEq

/-- `zap` (utils/wvstringmask.cc:35-39). -/
def Mask.zap : Mask := ⟨List.replicate 256 false, 0⟩

/-- `operator[]` (utils/wvstringmask.cc:24-28): the index is an unsigned char. -/
def Mask.has (m : Mask) (c : Byte) : Bool := m.bits[c.toNat]?.getD false

/-- `_set[unsigned(c)] = value` (utils/wvstringmask.cc:46, 60). `char` has a sign, so for bytes from 0x80 the index is one of the last 128 `unsigned`s: outside of the array, which is undefined. -/
def Mask.put (m : Mask) (c : Byte) (v : Bool) : Option Mask :=
  let i := if c.toNat < 128 then c.toNat else 4294967296 - 256 + c.toNat
  if i < m.bits.length then some { m with bits := m.bits.set i v } else none

/-- `if (!_first) _first = c` (utils/wvstringmask.cc:43-44, 55-56). -/
def Mask.see (m : Mask) (c : Byte) : Mask := if m.first = 0 then { m with first := c } else m

/-- `set` for a character (utils/wvstringmask.cc:41-47). -/
def Mask.setChar (m : Mask) (c : Byte) (v : Bool) : Option Mask := (m.see c).put c v

/-- The loop of `set` for a string (utils/wvstringmask.cc:58-62). -/
def Mask.loop (v : Bool) : List Byte → Mask → Option Mask
  | [], m => some m
  | c :: s, m => (m.put c v).bind (Mask.loop v s)

/-- `set` for a string (utils/wvstringmask.cc:49-64). Of the empty string the first character is the NUL at its end. -/
def Mask.setStr (m : Mask) (s : List Byte) (v : Bool) : Option Mask := Mask.loop v s (m.see (s.headD 0))

def Mask.step (m : Mask) : Op → Option Mask
  | .zap => some Mask.zap
  | .char c v => m.setChar c v
  | .str s v => m.setStr s v

/-- What is done to a mask after its constructor (utils/wvstringmask.cc:12-22), which empties it. -/
def Mask.run : List Op → Mask → Option Mask
  | [], m => some m
  | o :: os, m => (m.step o).bind (Mask.run os)

/-- The constructors (utils/wvstringmask.cc:12-22). -/
def ofStr (s : List Byte) : Option Mask := Mask.zap.setStr s true
def ofChar (c : Byte) : Option Mask := Mask.zap.setChar c true

end Wv.StringMask
