import Verif.Model.Basic
/- Model of utils/wvhash.cc. -/
namespace Wv

/-- `WvHash(const char *)` (utils/wvhash.cc:5-17), from the running value `h`. `unsigned` is 32 bits: `slide` is 27 and
    `andval` 0xF8000000. -/
def wvHashFrom (h : UInt32) : List Byte → UInt32
  | [] => h
  | c :: cs => wvHashFrom ((h <<< 4) ^^^ (c &&& 0x1F).toUInt32 ^^^ ((h &&& 0xF8000000) >>> 27)) cs

/-- `WvHash(WvStringParm)` (utils/wvhash.cc:19-22); `none` is a NULL string. -/
def wvHash : Option (List Byte) → UInt32
  | none => 0
  | some s => wvHashFrom 0 s

end Wv
