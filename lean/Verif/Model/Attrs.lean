import Verif.Spec.Attrs
/-
`WvAttrs` (utils/wvattrs.cc, include/wvattrs.h) down to the bytes of its memory. `none` is a read or write outside this memory. Lengths are
natural numbers: that `int` and `unsigned` are enough for them is not modelled. Not modelled: assignment, which shares the memory.
-/
namespace Wv.Attrs

abbrev Text := List Byte

/-- `attrlist`, NULL or so many bytes, and `attrlen`. -/
structure State where
  list : Option (List Byte)
  len : Nat
  deriving DecidableEq

/-- The constructor (utils/wvattrs.cc:3-5). -/
def new : State := ⟨none, 0⟩

/-- `strlen` of what starts where these bytes do. -/
def strlen (r : List Byte) : Option Nat := if (0 : Byte) ∈ r then some (r.takeWhile (· ≠ 0)).length else none

/-- The loop of `_get` (utils/wvattrs.cc:26-35), at most so many rounds (there are fewer than bytes): `r` are the bytes from `curpos` on, at
    offset `p`. The offset of the value, or NULL. -/
def getLoop (name : Text) : Nat → List Byte → Nat → Option (Option Nat)
  | 0, _, _ => none
  | _ + 1, [], _ => none
  | f + 1, c :: r, p =>
    if c = 0 then some none
    else (strlen (c :: r)).bind fun l =>
      if (c :: r).takeWhile (· ≠ 0) = name then some (some (p + l + 1))
      else (strlen ((c :: r).drop (l + 1))).bind fun k => getLoop name f ((c :: r).drop (l + 1 + k + 1)) (p + (l + 1 + k + 1))

/-- `_get` (utils/wvattrs.cc:20-36) with a name that is not null. -/
def find (s : State) (name : Text) : Option (Option Nat) :=
  match s.list with
  | none => some none
  | some m => getLoop name m.length m 0

/-- `get` (include/wvattrs.h:18-19): the string at the value's place. A null name is not compared but dereferenced, if there is memory and
    anything in it. -/
def get (s : State) (name : Option Text) : Option (Option Text) :=
  match name with
  | none =>
    match s.list with
    | none => some none
    | some m => if m.head? = some 0 then some none else none
  | some n => (find s n).bind fun o =>
    match o with
    | none => some none
    | some p => (strlen ((s.list.getD []).drop p)).map fun l => some (((s.list.getD []).drop p).take l)

/-- `realloc`: `junk` is what new memory holds. -/
def realloc (junk : Byte) (m : Option (List Byte)) (n : Nat) : List Byte :=
  (m.getD []).take n ++ List.replicate (n - (m.getD []).length) junk

/-- Writing bytes at an offset. -/
def write (m : List Byte) (p : Nat) (l : List Byte) : Option (List Byte) :=
  if p + l.length ≤ m.length then some (m.take p ++ l ++ m.drop (p + l.length)) else none

/-- Deleting the entry whose value is at `p` (utils/wvattrs.cc:45-57). -/
def delete (junk : Byte) (s : State) (namelen p : Nat) : Option State :=
  (strlen ((s.list.getD []).drop p)).bind fun vlen =>
    let m := s.list.getD []
    let toremove := namelen + vlen + 2
    if p < namelen + 1 then none
    else
      let off := p - (namelen + 1)
      if s.len + 1 < off + toremove then none
      else
        let endpart := s.len - off - toremove + 1
        if m.length < off + toremove + endpart then none
        else (write m off ((m.drop (off + toremove)).take endpart)).map fun m =>
          ⟨some (realloc junk (some m) (s.len - toremove + 1)), s.len - toremove⟩

/-- The first half of `set` (utils/wvattrs.cc:43-57): the old entry, if `_get` found one, goes. -/
def clear (junk : Byte) (s : State) (namelen : Nat) : Option Nat → Option State
  | none => some s
  | some p => delete junk s namelen p

/-- `set` (utils/wvattrs.cc:38-71). -/
def set (junk : Byte) (s : State) (name value : Option Text) : Option State :=
  if name.getD [] = [] then some s
  else
    let name := name.getD []
    (find s name).bind fun o =>
      (clear junk s name.length o).bind fun s =>
      if value.getD [] = [] then some s
      else
        let value := value.getD []
        let totallen := name.length + value.length + 2
        let m := realloc junk s.list (s.len + totallen + 1)
        (write m s.len (name ++ [0])).bind fun m =>
          (write m (s.len + name.length + 1) (value ++ [0])).bind fun m =>
            (write m (s.len + totallen) [0]).map fun m => ⟨some m, s.len + totallen⟩

/-- The copy constructor (utils/wvattrs.cc:7-13). -/
def copy (s : State) : Option State :=
  if s.len = 0 then some ⟨none, 0⟩
  else
    match s.list with
    | none => none
    | some m => if m.length < s.len + 1 then none else some ⟨some (m.take (s.len + 1)), s.len⟩

/-- A history of `set` calls. -/
def run (junk : Byte) (s : State) : List (Option Text × Option Text) → Option State
  | [] => some s
  | x :: h => (set junk s x.1 x.2).bind fun s => run junk s h

end Wv.Attrs
