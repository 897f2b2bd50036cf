import Verif.Model.Num
import Verif.Spec.Sizes
/-
Model of sizetoa, sizektoa, sizeitoa, sizekitoa, secondstoa and metriculate (utils/wvstrutils.cc:481-735, 831-867).
`unsigned long long` and `unsigned long` have 64 bits, `unsigned int` has 32; their arithmetic wraps. `none` is undefined behaviour:
a division by zero, an index outside an array, overflow of a signed number, or an assertion that fails.
-/
namespace Wv.Sizes
open Spec.Sizes (Method)

abbrev Text := List Byte

/-- The values of `unsigned long long`. -/
def W : Nat := 2 ^ 64

/-- `prefix_t` (utils/wvstrutils.cc:489-493): the name, which is null in the last entry, and the base. -/
abbrev Prefixes := List (Option Text × Nat)

/-- `si` (utils/wvstrutils.cc:497-508). -/
def si : Prefixes :=
  [(some (str ['k']), 1000), (some (str ['M']), 1000 * 1000), (some (str ['G']), 1000 * 1000 * 1000),
   (some (str ['T']), 1000 * 1000 * 1000 * 1000), (some (str ['P']), 1000 * 1000 * 1000 * 1000 * 1000),
   (some (str ['E']), 1000 * 1000 * 1000 * 1000 * 1000 * 1000), (some (str ['Z']), 0), (some (str ['Y']), 0), (none, 0)]

/-- `iec` (utils/wvstrutils.cc:512-523). -/
def iec : Prefixes :=
  [(some (str ['K', 'i']), 1024), (some (str ['M', 'i']), 1024 * 1024), (some (str ['G', 'i']), 1024 * 1024 * 1024),
   (some (str ['T', 'i']), 1024 * 1024 * 1024 * 1024), (some (str ['P', 'i']), 1024 * 1024 * 1024 * 1024 * 1024),
   (some (str ['E', 'i']), 1024 * 1024 * 1024 * 1024 * 1024 * 1024), (some (str ['Z', 'i']), 0), (some (str ['Y', 'i']), 0), (none, 0)]

/-- `_sizetoa_rounder` (utils/wvstrutils.cc:527-556). -/
def rounder (m : Method) (size remainder base : Nat) : Option Nat :=
  if base = 0 then none
  else
    let half := base / 2
    let sd := size / base
    some <| match m with
    | .down => sd
    | .up => if remainder ≠ 0 ∨ size % base ≠ 0 then sd + 1 else sd
    | .upAtHalf => if size % base ≥ half then sd + 1 else sd
    | .downAtHalf =>
      let r := size % base
      if r > half ∨ (remainder ≠ 0 ∧ r = half) then sd + 1 else sd

/-- Lines 588-593: `blocksize`, `prev_blocksize` and `shift` after the loop; 64 bits are used up before `fuel`. -/
def shiftLoop (g : Nat) : Nat → Nat → Nat → Nat → Nat × Nat × Nat
  | 0, b, prev, shift => (b, prev, shift)
  | f + 1, b, prev, shift => if b ≥ g then shiftLoop g f (b / g) b (shift + 1) else (b, prev, shift)

/-- Lines 613-623; `i` is `p + 1`. -/
def sizeLoop (m : Method) (ps : Prefixes) (g size remainder shift : Nat) : Nat → Nat → Option (Nat × Nat)
  | 0, _ => none
  | f + 1, i =>
    (ps[i]?).bind fun (_, base) =>
      (rounder m (size * 10 % W) remainder base).bind fun sd =>
        (ps[i + 1 + shift]?).bind fun (name, _) =>
          if sd < g * 10 ∨ name = none then some (sd, i + 1)
          else sizeLoop m ps g size remainder shift f (i + 1)

/-- Lines 629-637. -/
def blockLoop (m : Method) (ps : Prefixes) (g shift : Nat) : Nat → Nat → Nat → Option (Nat × Nat)
  | 0, sd, i => some (sd, i)
  | f + 1, sd, i =>
    if sd ≥ g * 10 then
      (ps[i + shift]?).bind fun (name, _) =>
        if name = none then some (sd, i)
        else (rounder m sd 0 g).bind fun sd => blockLoop m ps g shift f sd (i + 1)
    else some (sd, i)

/-- Lines 641-645. -/
def result (ps : Prefixes) (unit : Text) (shift sd i : Nat) : Option Text :=
  if i + shift = 0 then none
  else (ps[i + shift - 1]?).bind fun (name, _) => name.map fun name =>
    Num.ofUnsigned (sd / 10) ++ str ['.'] ++ Num.ofUnsigned (sd % 10) ++ str [' '] ++ name ++ unit

/-- `_sizetoa` (utils/wvstrutils.cc:567-646). The conditions of the loops never hold 10 times, as there are 8 names. -/
def sizetoa' (size blocksize : Nat) (m : Method) (ps : Prefixes) (unit : Text) : Option Text :=
  if blocksize = 0 then none
  else
    (ps[0]?).bind fun (_, g) =>
      let (b, prev, shift) := shiftLoop g 64 blocksize 0 0
      let (b, shift) := if prev ≠ 0 ∧ prev ≠ g then (prev, shift - 1) else (b, shift)
      let sd := size * 10 % W
      let (size, remainder, shift) := if sd < size then (size / g, size % g, shift + 1) else (size, 0, shift)
      (if size ≥ g then sizeLoop m ps g size remainder shift 10 0 else some (sd, 0)).bind fun (sd, i) =>
        (if b > 1 then blockLoop m ps g shift 10 (sd * b % W) i else some (sd, i)).bind fun (sd, i) =>
          result ps unit shift sd i

/-- `sizetoa` (utils/wvstrutils.cc:648-658). -/
def sizetoa (blocks blocksize : Nat) (m : Method) : Option Text :=
  let bytes := blocks * blocksize % W
  if bytes < 1000 ∧ bytes ≥ blocks then some (Num.ofUnsigned bytes ++ str [' ', 'b', 'y', 't', 'e', 's'])
  else sizetoa' blocks blocksize m si (str ['B'])

/-- `sizektoa` (utils/wvstrutils.cc:661-667). -/
def sizektoa (kbytes : Nat) (m : Method) : Option Text :=
  if kbytes < 1000 then some (Num.ofUnsigned kbytes ++ str [' ', 'k', 'B']) else sizetoa kbytes 1000 m

/-- `sizeitoa` (utils/wvstrutils.cc:669-679). -/
def sizeitoa (blocks blocksize : Nat) (m : Method) : Option Text :=
  let bytes := blocks * blocksize % W
  if bytes < 1024 ∧ bytes ≥ blocks then some (Num.ofUnsigned bytes ++ str [' ', 'b', 'y', 't', 'e', 's'])
  else sizetoa' blocks blocksize m iec (str ['B'])

/-- `sizekitoa` (utils/wvstrutils.cc:682-688). -/
def sizekitoa (kbytes : Nat) (m : Method) : Option Text :=
  if kbytes < 1024 then some (Num.ofUnsigned kbytes ++ str [' ', 'K', 'i', 'B']) else sizeitoa kbytes 1024 m

/-- What comes after days or hours (utils/wvstrutils.cc:708-711, 718-721). -/
def between (n : Int) : Text :=
  if n > 1 then str [',', ' '] else if n = 1 then str [' ', 'a', 'n', 'd', ' '] else []

/-- `secondstoa` (utils/wvstrutils.cc:690-735). -/
def secondstoa (total : Nat) : Text :=
  let days := total / (3600 * 24)
  let total := total % (3600 * 24)
  let hours := total / 3600
  let total := total % 3600
  let mins := total / 60
  let secs := total % 60
  let n : Int := (if days > 0 then 1 else 0) + (if hours > 0 then 1 else 0) + (if mins > 0 then 1 else 0)
  let (r, n) := if days > 0 then
      (Num.ofUnsigned days ++ (if days > 1 then str [' ', 'd', 'a', 'y', 's'] else str [' ', 'd', 'a', 'y']) ++ between (n - 1), n - 1)
    else ([], n)
  let r := if hours > 0 then
      r ++ Num.ofUnsigned hours ++ (if hours > 1 then str [' ', 'h', 'o', 'u', 'r', 's'] else str [' ', 'h', 'o', 'u', 'r']) ++ between (n - 1)
    else r
  let r := if mins > 0 then
      r ++ Num.ofUnsigned mins ++ (if mins > 1 then str [' ', 'm', 'i', 'n', 'u', 't', 'e', 's'] else str [' ', 'm', 'i', 'n', 'u', 't', 'e'])
    else r
  if days = 0 ∧ hours = 0 ∧ mins = 0 then
    r ++ Num.ofUnsigned secs ++ (if secs ≠ 1 then str [' ', 's', 'e', 'c', 'o', 'n', 'd', 's'] else str [' ', 's', 'e', 'c', 'o', 'n', 'd'])
  else r

/-- Lines 839-843: the number of digits; `fuel` is enough for 64 bits. -/
def digitCount : Nat → Nat → Nat
  | 0, _ => 0
  | f + 1, j => if j = 0 then 0 else digitCount f (j / 10) + 1

/-- Lines 858-864: `text` is what is written so far, from the end of the buffer. -/
def metricLoop (digits : Nat) : Nat → Nat → Nat → Text → Text
  | 0, _, _, text => text
  | f + 1, digit, j, text =>
    let text := UInt8.ofNat (48 + j % 10) :: text
    let text := if (digit + 1) % 3 = 0 ∧ digit + 1 < digits then 32 :: text else text
    metricLoop digits f (digit + 1) (j / 10) text

/-- The size given to `setsize` (line 847), which leaves room for one more character. -/
def metricSize (i : Int) : Nat :=
  let digits := digitCount 20 i.natAbs
  digits + (digits - 1) / 3 + (if i < 0 then 1 else 0)

/-- `metriculate` (utils/wvstrutils.cc:831-867) of a number of 64 bits. `none`: the negative of the smallest one does not exist. -/
def metriculate (i : Int) : Option Text :=
  let digits := digitCount 20 i.natAbs
  if i = -(2 ^ 63 : Nat) then none
  else some ((if i < 0 then str ['-'] else []) ++ metricLoop digits digits 0 i.natAbs [])

end Wv.Sizes
