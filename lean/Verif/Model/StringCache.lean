import Verif.Spec.StringCache
/-!
`WvStringCache` (utils/wvstringcache.cc) and the buffers that strings share (for strings see C62, for the hash table C17). Buffers have numbers.
-/
namespace Wv.StringCache
open Spec.StringCache (Op Text)

/-- A string of the program: its buffer, and whether it came from the cache that there is now (which the code does not know). -/
structure Ref where
  buf : Nat
  got : Bool
deriving DecidableEq

/-- `t`, `refcount` and `clean_threshold` (utils/wvstringcache.cc:10-12), the table as the list of the buffers of its strings; what is in the buffers; the strings
    of the program. -/
structure St where
  table : List Nat := []
  caches : Nat := 0
  thresh : Nat := 0
  bufs : List Text := []
  refs : List Ref := []
deriving DecidableEq

def St.text (s : St) (b : Nat) : Text := s.bufs[b]?.getD []

/-- `buf->links`. -/
def St.links (s : St) (b : Nat) : Nat := s.table.count b + (s.refs.map (·.buf)).count b

/-- The constructor (utils/wvstringcache.cc:14-22). A new table is empty. -/
def St.make (s : St) : St := { s with caches := s.caches + 1, thresh := if s.caches = 0 then 0 else s.thresh }

/-- `clean` (utils/wvstringcache.cc:58-92). -/
def St.clean (s : St) : St :=
  if s.table.length < s.thresh then s
  else
    let l := s.table.filter fun b => s.links b == 1
    let t := s.table.filter fun b => !decide (b ∈ l)
    { s with table := t, thresh := t.length + t.length / 10 + 1 }

/-- The destructor (utils/wvstringcache.cc:25-36). -/
def St.destroy (s : St) : St :=
  let s := { s with caches := s.caches - 1 }
  if s.caches = 0 then { s with table := [], thresh := 0, refs := s.refs.map fun r => { r with got := false } }
  else s.clean

/-- `get` (utils/wvstringcache.cc:39-55) of a string with the buffer `b`. -/
def St.get (s : St) (b : Nat) : St :=
  match s.table.find? fun c => s.text c == s.text b with
  | some c => { s with refs := s.refs ++ [⟨c, true⟩] }
  | none => { s with table := s.table ++ [b], refs := s.refs ++ [⟨b, true⟩] }

/-- A new buffer (utils/wvstring.cc:296-301). -/
def St.alloc (s : St) (t : Text) : St := { s with bufs := s.bufs ++ [t] }

/-- Using a string or cache that is not there is undefined. Writing goes into a new buffer if others have the old one (utils/wvstring.cc:306-322). -/
def St.step (s : St) : Op → Option St
  | .make => some s.make
  | .destroy => if s.caches = 0 then none else some s.destroy
  | .fresh t => some { s.alloc t with refs := s.refs ++ [⟨s.bufs.length, false⟩] }
  | .copy i => s.refs[i]?.map fun r => { s with refs := s.refs ++ [r] }
  | .edit i t => s.refs[i]?.map fun r =>
    if s.links r.buf = 1 then { s with bufs := s.bufs.set r.buf t, refs := s.refs.set i ⟨r.buf, false⟩ }
    else { s.alloc t with refs := s.refs.set i ⟨s.bufs.length, false⟩ }
  | .drop i => s.refs[i]?.map fun _ => { s with refs := s.refs.eraseIdx i }
  | .get t => if s.caches = 0 then none else some ((s.alloc t).get s.bufs.length)
  | .getOf i => if s.caches = 0 then none else s.refs[i]?.map fun r => s.get r.buf
  | .clean => if s.caches = 0 then none else some s.clean

def St.run : List Op → St → Option St
  | [], s => some s
  | o :: os, s => (s.step o).bind (St.run os)

end Wv.StringCache
