/-
What base64 is (RFC 4648 section 4), written from the RFC, independent of the model: the data is a stream of bits
(most significant bit of each byte first), cut in groups of six bits, the last group completed with zero bits, each
group written as a digit of the alphabet, and '=' added to get a multiple of four characters.
-/
namespace Spec.Base64

/-- The `w` low bits of `n`, most significant first. -/
def bitsOf : Nat → Nat → List Bool
  | 0, _ => []
  | w + 1, n => bitsOf w (n / 2) ++ [n % 2 == 1]

/-- The number written by a list of bits, most significant first. -/
def valOf (bits : List Bool) : Nat := bits.foldl (fun a b => 2 * a + b.toNat) 0

/-- The bits of a byte string. -/
def stream (data : List UInt8) : List Bool := data.flatMap fun b => bitsOf 8 b.toNat

/-- Cut in groups of six, completing the last one with zeros. -/
def groups : List Bool → List (List Bool)
  | [] => []
  | b :: bs => ((b :: bs).take 6 ++ List.replicate (6 - (b :: bs).length) false) :: groups ((b :: bs).drop 6)
termination_by l => l.length
decreasing_by simp; omega

/-- The alphabet of RFC 4648 table 1. -/
def digit (v : Nat) : UInt8 :=
  if v < 26 then UInt8.ofNat ('A'.toNat + v)
  else if v < 52 then UInt8.ofNat ('a'.toNat + (v - 26))
  else if v < 62 then UInt8.ofNat ('0'.toNat + (v - 52))
  else if v = 62 then UInt8.ofNat '+'.toNat
  else UInt8.ofNat '/'.toNat

/-- Base64 text of a byte string. -/
def encode (data : List UInt8) : List UInt8 :=
  (groups (stream data)).map (fun g => digit (valOf g)) ++
    List.replicate ((3 - data.length % 3) % 3) (UInt8.ofNat '='.toNat)

/-- White space ignored between base64 digits. -/
def isWs (c : UInt8) : Bool := c = 9 || c = 10 || c = 11 || c = 12 || c = 13 || c = 32

/-- The value of a base64 digit. -/
def valueOf? (c : UInt8) : Option Nat := (List.range 64).find? fun v => digit v == c

/-- The digits of a text up to the first character that is neither a digit nor white space. -/
def leadingDigits : List UInt8 → List Nat
  | [] => []
  | c :: cs => if isWs c then leadingDigits cs else
      match valueOf? c with
      | some v => v :: leadingDigits cs
      | none => []

/-- Cut a stream of bits in bytes, dropping an incomplete last byte. -/
def wholeBytes (bits : List Bool) : List UInt8 :=
  if bits.length < 8 then [] else UInt8.ofNat (valOf (bits.take 8)) :: wholeBytes (bits.drop 8)
termination_by bits.length
decreasing_by simp; omega

/-- The bytes a base64 text stands for. -/
def decode (text : List UInt8) : List UInt8 := wholeBytes ((leadingDigits text).flatMap (bitsOf 6))

/-- A text the decoder should accept: digits and white space, then (once `padSeen`) only '=' and white space. -/
def wellFormed (padSeen : Bool) : List UInt8 → Bool
  | [] => true
  | c :: cs =>
    if isWs c then wellFormed padSeen cs
    else if c = 61 then wellFormed true cs
    else if (valueOf? c).isSome then !padSeen && wellFormed padSeen cs
    else false

end Spec.Base64
