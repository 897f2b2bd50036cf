/- Hexadecimal text, written independently of the model. -/
namespace Spec.Hex

/-- The character of a digit 0..15. -/
def digit (upper : Bool) (d : Nat) : UInt8 :=
  if d < 10 then UInt8.ofNat ('0'.toNat + d)
  else UInt8.ofNat ((if upper then 'A'.toNat else 'a'.toNat) + (d - 10))

/-- A byte as two digits, high digit first. -/
def byte (upper : Bool) (c : UInt8) : List UInt8 := [digit upper (c.toNat / 16), digit upper (c.toNat % 16)]

def encode (upper : Bool) (data : List UInt8) : List UInt8 := data.flatMap (byte upper)

/-- White space. -/
def isWs (c : UInt8) : Bool := c = 9 || c = 10 || c = 11 || c = 12 || c = 13 || c = 32

/-- The value of a digit of either case. -/
def value? (c : UInt8) : Option Nat := (List.range 16).find? fun v => digit false v == c || digit true v == c

/-- The digits of a text up to the first character that is neither a digit nor white space. -/
def leadingDigits : List UInt8 → List Nat
  | [] => []
  | c :: cs => if isWs c then leadingDigits cs else
      match value? c with
      | some v => v :: leadingDigits cs
      | none => []

/-- Pairs of digits make bytes; an odd last digit is dropped. -/
def pairs : List Nat → List UInt8
  | a :: b :: r => UInt8.ofNat (16 * a + b) :: pairs r
  | _ => []

end Spec.Hex
