import Verif.Model.IGen
/-
Model of the default recursive iterator (uniconf/uniconfgen.cc:172-263), which UniTempGen, UniIniGen, UniListGen, UniSecureGen and, with
more than one mount, UniMountGen have.

An iterator over the keys just below a key is the key it is at and the keys it has not come to: the iterators of the generators modelled
list their keys when they are made. The state of the generator is given at each call, because it may change in between.
-/
namespace Wv.RecIter
open TempGen (Value)

/-- An iterator in `itlist`: where it is, and what comes. -/
abbrev Sub := Option Key × List Key

/-- `_UniConfGenRecursiveIter` (uniconf/uniconfgen.cc:174-185). -/
structure It where
  top : Key
  itlist : List Sub := []
  current : Key := []
  subNext : Bool := false

section
variable {σ : Type} (I : IGen σ)

/-- A new iterator of the generator, rewound (uniconf/uniconfgen.cc:195-200, 214-220). -/
def sub (s : σ) (key : Key) : Option Sub := (I.iterator s key).map fun l => (none, l.map Prod.fst)

/-- `rewind` (uniconf/uniconfgen.cc:189-201). -/
def rewind (s : σ) (top : Key) : It := { top := top, itlist := (sub I s top).toList }

/-- `itlist.first()->key()`; calling it on an empty list or before `next` is undefined, here it is the empty key. -/
def firstKey (it : It) : Key :=
  match it.itlist with
  | (some k, _) :: _ => k
  | _ => []

/-- The first part of `next` (uniconf/uniconfgen.cc:207-222). -/
def descend (s : σ) (it : It) : It :=
  if it.subNext then
    let subkey := firstKey it
    let newkey := Key.join it.current subkey
    match sub I s (Key.join it.top newkey) with
    | some n => { it with current := Key.append it.current subkey, itlist := n :: it.itlist, subNext := false }
    | none => { it with subNext := false }
  else it

/-- The loop of `next` (uniconf/uniconfgen.cc:224-241). -/
def advance (top : Key) (subNext : Bool) : List Sub → Key → It × Bool
  | [], current => (⟨top, [], current, subNext⟩, false)
  | (_, k :: rest) :: st, current => (⟨top, (some k, rest) :: st, current, true⟩, true)
  | (_, []) :: st, current => advance top subNext st (Key.removelast current 1)

/-- `next` (uniconf/uniconfgen.cc:203-242). -/
def next (s : σ) (it : It) : It × Bool :=
  let it := descend I s it
  advance it.top it.subNext it.itlist it.current

/-- `key` (uniconf/uniconfgen.cc:244-251). -/
def key (it : It) : Key := if it.itlist.isEmpty then it.current else Key.join it.current (firstKey it)

/-- `value` (uniconf/uniconfgen.cc:253-256). -/
def value (s : σ) (it : It) : Option Value := I.get s (Key.join it.top (key it))

/-- Calling `next`, at most as often as the number says, until it returns false: what `key` and `value` return after each, and whether
    false was reached. -/
def visit (s : σ) : Nat → It → List (Key × Option Value) × Bool
  | 0, _ => ([], false)
  | n + 1, it =>
    let r := next I s it
    if r.2 then
      let q := visit s n r.1
      ((key r.1, value I s r.1) :: q.1, q.2)
    else ([], true)

/-- `recursiveiterator(key)` and a loop over it (uniconf/uniconfgen.cc:260-263). -/
def recursive (s : σ) (n : Nat) (key : Key) : List (Key × Option Value) × Bool := visit I s n (rewind I s key)

end
end Wv.RecIter
