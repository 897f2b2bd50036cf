import Verif.Model.IGen
import Verif.Model.Num
/-
UniDefGen (uniconf/unidefgen.cc): a generator with defaults, which are stored under keys with `*` for any name.

The inner generator is not NULL. The functions return `none` if they write outside a buffer or call `atoi` where it is undefined.
-/
namespace Wv.DefGen
open TempGen (Value)

/-- What `strchr(p, '/')` cuts the string `p` into, one piece for each call of `finddefault` (uniconf/unidefgen.cc:43-46). The calls put the
    slashes back before they return what is tested for being empty (uniconf/unidefgen.cc:64-65), so each call finds its string as it was. -/
def cut : List Byte → List (List Byte)
  | [] => [[]]
  | c :: s => if c = ch '/' then [] :: cut s
    else match cut s with
      | [] => [[c]]
      | p :: r => (c :: p) :: r

/-- The size of the character array that `setsize(n)` allocates (utils/wvstring.cc:25-29, 266-273), with a `size_t` of 8 bytes. -/
def room (n : Nat) : Nat := ((12 + n + 1) ||| 3) - 12

section
variable {σ : Type} (I : IGen σ)

/-- `finddefault` (uniconf/unidefgen.cc:30-68). The strings still to come are given instead of `p`; none if it is NULL. `q` is the string in
    the buffer, which has `cap` bytes. -/
def finddefault (s : σ) (cap : Nat) : List (List Byte) → List Byte → Option Key
  | [], q => some (if I.exists s (Key.parse q.tail) then Key.parse q.tail else [])
  | p :: r, q =>
    if cap < q.length + 1 + p.length + 1 then none
    else match finddefault s cap r (q ++ ch '/' :: p) with
      | none => none
      | some result =>
        if Key.numsegments result ≠ 0 then some result
        else if cap < q.length + 3 then none
        else finddefault s cap r (q ++ [ch '/', ch '*'])

/-- `keymap` (uniconf/unidefgen.cc:108-124). -/
def keymap (s : σ) (k : Key) : Option Key :=
  match finddefault I s (room ((Key.printable k).length * 2)) (cut (Key.printable k)) [] with
  | none => none
  | some mapped => some (if Key.numsegments mapped = 0 then k else mapped)

end

/-- The inner loop of `replacewildcard` (uniconf/unidefgen.cc:92-101): the key and `loc` then, or `none` if the segments run out. The first
    argument is more than the number of segments. -/
def seek : Nat → Key → Int → Option (Key × Int)
  | 0, _, _ => none
  | n + 1, k, loc =>
    if Key.iswild (Key.last k 1) then some (k, loc)
    else if Key.isempty (Key.removelast k 1) then none
    else seek n (Key.removelast k 1) (loc - 1)

/-- The outer loop of `replacewildcard` (uniconf/unidefgen.cc:85-102) from some `i ≠ 0` on; the first argument is `idx - i`. -/
def seeks : Nat → Key → Int → Option (Key × Int)
  | 0, k, loc => some (k, loc)
  | n + 1, k, loc =>
    (seek ((Key.removelast k 1).length + 1) (Key.removelast k 1) (loc - 1)).bind fun x => seeks n x.1 x.2

/-- The outer loop of `replacewildcard` (uniconf/unidefgen.cc:85-102), `idx` times; `loc` then. -/
def locate (idx : Int) (k : Key) (loc : Int) : Option Int :=
  match idx.toNat with
  | 0 => some loc
  | n + 1 =>
    (seek (k.length + 1) k loc).bind fun x => (seeks n x.1 x.2).map Prod.snd

/-- `replacewildcard` (uniconf/unidefgen.cc:71-105). -/
def replacewildcard (key defkey : Key) : Option Value → Option (Option Value)
  | none => some none
  | some v =>
    if v.length < 2 ∨ v.head? ≠ some (ch '*') then some (some v)
    else match Num.num v.tail with
      | none => none
      | some idx =>
        if idx = 0 then some (some v)
        else match locate idx defkey (Key.numsegments key) with
          | none => some none
          | some loc => some (some (Key.printable (Key.segment key (loc - 1))))

section
variable {σ : Type} (I : IGen σ)

/-- `get` (uniconf/unidefgen.cc:127-135). -/
def get (s : σ) (k : Key) : Option (Option Value) :=
  match keymap I s k with
  | none => none
  | some mapped => replacewildcard k mapped (I.get s mapped)

/-- `set` (uniconf/unidefgen.cc:138-143). -/
def set (s : σ) (k : Key) (v : Option Value) : σ := I.set s k v

/-- `exists` (uniconf/unifiltergen.cc:107-114). -/
def «exists» (s : σ) (k : Key) : Option Bool := (keymap I s k).map (I.exists s)

/-- `haschildren` (uniconf/unifiltergen.cc:117-124). -/
def haschildren (s : σ) (k : Key) : Option Bool := (keymap I s k).map (I.haschildren s)

/-- `iterator` (uniconf/unifiltergen.cc:136-143). -/
def iterator (s : σ) (k : Key) : Option (Option (List (Key × Option Value))) := (keymap I s k).map (I.iterator s)

end
end Wv.DefGen
