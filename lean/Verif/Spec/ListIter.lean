import Verif.Model.Key
/-!
Walking through a prepared list of keys, for C130.
-/
namespace Spec.ListIter
open Wv

abbrev Value := List Byte

inductive Op
  | add (k : Key) (v : Option Value)
  | rewind
  | next
  | key
  | value

/-- Answers; `bad` is for calls that make no sense: the key where there is none, going on after the end, or before the first `rewind`. -/
inductive Ans
  | unit
  | bool (b : Bool)
  | key (k : Key)
  | value (v : Option Value)
  | bad
deriving DecidableEq

/-- The entries in the order they were added; where the iterator is: 0 before the first, nowhere before the first `rewind` and after the end. -/
structure St where
  entries : List (Key × Option Value)
  pos : Option Nat

/-- `G` is what the generator has for keys that were added without a value. -/
def step (G : Key → Option Value) (s : St) : Op → Ans × St
  | .add k v => (.unit, { s with entries := s.entries ++ [(k, v)] })
  | .rewind => (.unit, { s with pos := some 0 })
  | .next =>
    match s.pos with
    | none => (.bad, s)
    | some i => if i < s.entries.length then (.bool true, { s with pos := some (i + 1) }) else (.bool false, { s with pos := none })
  | .key =>
    match s.pos with
    | some (i + 1) => match s.entries[i]? with | some e => (.key e.1, s) | none => (.bad, s)
    | _ => (.bad, s)
  | .value =>
    match s.pos with
    | some (i + 1) => match s.entries[i]? with
      | some (_, some v) => (.value (some v), s)
      | some (k, none) => (.value (G k), s)
      | none => (.bad, s)
    | _ => (.bad, s)

def run (G : Key → Option Value) (s : St) : List Op → List Ans
  | [] => []
  | o :: l => (step G s o).1 :: run G (step G s o).2 l

/-- The values that are added, in order. -/
def added : List Op → List (Option Value)
  | [] => []
  | .add _ v :: l => v :: added l
  | _ :: l => added l

/-- No key with a value comes after one without. -/
def ValuedFirst (l : List (Option Value)) : Prop := ∃ (a : List Value) (n : Nat), l = a.map some ++ List.replicate n none

end Spec.ListIter
