import Verif.Model.RecIter
/-
Model of UniConf::XIter (uniconf/uniconf.cc:251-398), the iterator over the keys that match a pattern.

Simplification: instead of the steps of `next`, which go on with the innermost iterator that is not at its end, the list of the full keys
that are visited in a loop over the iterator, while the configuration does not change. `n` is the number of steps after which a loop over
a recursive iterator is given up. The root object and its mounts are one generator.
-/
namespace Wv.XIter

/-- The loop in the constructor (uniconf/uniconf.cc:261-268). -/
def collect : Nat → Key → Key → Key × Key
  | 0, pathead, pattail => (pathead, pattail)
  | n + 1, pathead, pattail =>
    if Key.isempty pattail then (pathead, pattail)
    else
      let patnext := Key.first pattail 1
      if Key.iswild patnext then (pathead, pattail)
      else collect n (Key.append pathead patnext) (Key.removefirst pattail 1)

/-- `pathead` and `pattail` after the constructor (uniconf/uniconf.cc:253-270). -/
def heads (pattern : Key) : Key × Key :=
  let pathead := Key.first pattern 1
  let pattail := Key.removefirst pattern 1
  if Key.iswild pathead then (pathead, pattail) else collect pattern.length pathead pattail

section
variable {σ : Type} (I : IGen σ) (s : σ) (n : Nat)

/-- `top`, if it exists. -/
def self (top : Key) : List Key := if I.exists s top then [top] else []

/-- What is visited (uniconf/uniconf.cc:299-398). The number is more than the number of segments of the pattern. -/
def visit : Nat → Key → Key → List Key
  | 0, _, _ => []
  | f + 1, top, pattern =>
    let h := heads pattern
    if Key.isempty h.1 then self I s top
    else if Key.eq h.1 Key.RECURSIVE_ANY then
      (if Key.matches [] h.2 then self I s top else []) ++
        (RecIter.recursive I s n top).1.flatMap fun d => visit f (Key.join top d.1) h.2
    else if Key.eq h.1 Key.ANY then
      ((I.iterator s top).getD []).flatMap fun c => visit f (Key.join top c.1) h.2
    else
      let current := Key.join top h.1
      if Key.isempty h.2 then self I s current else visit f current h.2

/-- A loop over `XIter(top, pattern)`. -/
def loop (top pattern : Key) : List Key := visit I s n (pattern.length + 1) top pattern

end
end Wv.XIter
