import Verif.Spec.Num
/- Sizes and durations as people read them. -/
namespace Spec.Sizes
open Wv Spec.Num

abbrev Text := List Byte

/-- How to round. -/
inductive Method where
  | down
  | downAtHalf
  | upAtHalf
  | up
  deriving DecidableEq

/-- `n` is `num / den`, rounded to a whole number. -/
def Rounded (m : Method) (num den n : Nat) : Prop :=
  match m with
  | .down => n * den ≤ num ∧ num < n * den + den
  | .up => num ≤ n * den ∧ n * den < num + den
  | .upAtHalf => 2 * (n * den) ≤ 2 * num + den ∧ 2 * num < 2 * (n * den) + den
  | .downAtHalf => 2 * (n * den) < 2 * num + den ∧ 2 * num ≤ 2 * (n * den) + den

instance (m : Method) (num den n : Nat) : Decidable (Rounded m num den n) := by
  unfold Rounded; cases m <;> exact inferInstance

/-- The letters of the powers: 1 is k, 8 is Y. -/
def letters : List Byte := str ['k', 'M', 'G', 'T', 'P', 'E', 'Z', 'Y']

/-- The unit of `1000 ^ p` bytes. -/
def siUnit (p : Nat) : Text := [letters.getD (p - 1) 0] ++ str ['B']

/-- The unit of `1024 ^ p` bytes. -/
def iecUnit (p : Nat) : Text := [if p = 1 then ch 'K' else letters.getD (p - 1) 0] ++ str ['i', 'B']

/-- A number of tenths, a space, the unit. -/
def tenths (n : Nat) (unit : Text) : Text :=
  decimal ((n / 10 : Nat) : Int) ++ str ['.'] ++ decimal ((n % 10 : Nat) : Int) ++ str [' '] ++ unit

/-- `s` times `g ^ k` bytes, as a number of tenths of a unit `g ^ p` that is rounded from the exact number, is at least 1.0 and below `g`,
    except that the largest unit is that of `p = 8`. The unit is the smallest one for which this is so, from `g ^ k` on. -/
def Shown (g : Nat) (unit : Nat → Text) (s k : Nat) (m : Method) (t : Text) : Prop :=
  ∃ i n, t = tenths n (unit (i + k)) ∧ 1 ≤ i + k ∧ i + k ≤ 8 ∧ Rounded m (10 * s) (g ^ i) n ∧ 10 ≤ n ∧ (n < 10 * g ∨ i + k = 8) ∧
    (i = 0 ∨ ∃ n', Rounded m (10 * s) (g ^ (i - 1)) n' ∧ 10 * g ≤ n')

/-- Phrases in a row, with " and " before the last. -/
def inARow : List Text → Text
  | [] => []
  | [a] => a
  | [a, b] => a ++ str [' ', 'a', 'n', 'd', ' '] ++ b
  | a :: l => a ++ str [',', ' '] ++ inARow l

/-- "1 day", "2 days". -/
def count (n : Nat) (what : Text) : Text := decimal (n : Int) ++ str [' '] ++ what ++ (if n = 1 then [] else str ['s'])

/-- A duration, in days, hours and minutes that are not zero; if all are, in seconds. -/
def duration (t : Nat) : Text :=
  let d := t / 86400
  let h := t / 3600 % 24
  let m := t / 60 % 60
  if t < 60 then count t (str ['s', 'e', 'c', 'o', 'n', 'd'])
  else inARow ((if d = 0 then [] else [count d (str ['d', 'a', 'y'])]) ++ (if h = 0 then [] else [count h (str ['h', 'o', 'u', 'r'])]) ++
    (if m = 0 then [] else [count m (str ['m', 'i', 'n', 'u', 't', 'e'])]))

/-- `digits`, with a space before every three digits from the end, but not in front. -/
def Grouped (digits text : Text) : Prop :=
  ∃ (first : Text) (rest : List Text), digits = first ++ rest.flatten ∧ text = first ++ rest.flatMap (fun g => 32 :: g) ∧
    1 ≤ first.length ∧ first.length ≤ 3 ∧ ∀ g ∈ rest, g.length = 3

end Spec.Sizes
