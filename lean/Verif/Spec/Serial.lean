import Verif.Model.Basic
/- What serialised values look like, as include/wvserialize.h documents it. -/
namespace Spec.Serial
open Wv

/-- The integer types: 1, 2, 4 or 8 bytes, signed or not; and `bool`. -/
inductive Ty where
  | int (bytes : Nat) (signed : Bool)
  | bool
  deriving DecidableEq

/-- How many bytes a type has. -/
def Ty.size : Ty → Nat
  | .int n _ => n
  | .bool => 1

/-- The types there are. -/
def Ty.Ok : Ty → Prop
  | .int n _ => n = 1 ∨ n = 2 ∨ n = 4 ∨ n = 8
  | .bool => True

/-- The values of a type; those of `bool` are 0 and 1. -/
def Ty.Fits : Ty → Int → Prop
  | .int n true, z => - 2 ^ (8 * n - 1) ≤ z ∧ z < 2 ^ (8 * n - 1)
  | .int n false, z => 0 ≤ z ∧ z < 2 ^ (8 * n)
  | .bool, z => z = 0 ∨ z = 1

/-- The `n` bytes of an integer in two's complement, the most significant first. -/
def bytes : Nat → Int → List Byte
  | 0, _ => []
  | n + 1, z => UInt8.ofNat ((z / 256 ^ n) % 256).toNat :: bytes n z

/-- What elements of lists may be. -/
inductive Elem where
  | scalar (t : Ty)
  | string

/-- What can be serialised and read again. -/
inductive Kind where
  | elem (e : Elem)
  | list (e : Elem)
  | buffer

/-- Values of elements. -/
inductive Item where
  | int (z : Int)
  | text (s : List Byte)

/-- Values. -/
inductive Val where
  | item (x : Item)
  | list (l : List Item)
  | buffer (b : List Byte)

/-- A value is of a type. Strings have no NUL in them and are shorter than 4 GB. -/
def Item.Is : Item → Elem → Prop
  | .int z, .scalar t => t.Ok ∧ t.Fits z
  | .text s, .string => (0 : Byte) ∉ s ∧ s.length + 1 < 2 ^ 32
  | _, _ => False

/-- A value is of a kind. Lists and buffers are shorter than 2 ^ 64. -/
def Val.Is : Val → Kind → Prop
  | .item x, .elem e => x.Is e
  | .list l, .list e => (∀ x ∈ l, x.Is e) ∧ l.length < 2 ^ 64
  | .buffer b, .buffer => b.length < 2 ^ 64
  | _, _ => False

/-- The bytes of an element: of an integer the number of bytes its type has, of a string the string and a NUL. -/
def Item.bytes : Item → Elem → List Byte
  | .int z, .scalar t => Serial.bytes t.size z
  | .text s, .string => s ++ [0]
  | _, _ => []

/-- The bytes of a value: lists and buffers are preceded by how long they are, in 8 bytes. -/
def Val.bytes : Val → Kind → List Byte
  | .item x, .elem e => x.bytes e
  | .list l, .list e => Serial.bytes 8 l.length ++ (l.map fun x => x.bytes e).flatten
  | .buffer b, .buffer => Serial.bytes 8 b.length ++ b
  | _, _ => []

end Spec.Serial
