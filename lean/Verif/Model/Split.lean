import Verif.Model.Basic
/-
Model of strcoll_split, strcoll_splitstrict and strcoll_join (include/wvstrutils.h:287-459), for a collection whose `add`
appends (WvStringList). `limit` is an unbounded integer: its overflow after 2^31 pieces is not modelled.
-/
namespace Wv.Split

/-- `strspn`: what is left after the leading characters of `cs`. -/
def skip (cs : List Byte) (s : List Byte) : List Byte := s.dropWhile cs.contains
/-- `strcspn`: the leading characters not in `cs`, and what is left after them. -/
def upto (cs : List Byte) (s : List Byte) : List Byte × List Byte :=
  (s.takeWhile (fun c => !cs.contains c), s.dropWhile (fun c => !cs.contains c))

/-- The loop of strcoll_split (include/wvstrutils.h:304-334). -/
def splitLoop (cs : List Byte) (fuel : Nat) (limit : Int) (firstrun : Bool) (sptr : List Byte) : List (List Byte) :=
  match fuel with
  | 0 => []
  | fuel + 1 =>
    if sptr = [] then []
    else
      let limit := limit - 1
      let sptr := if firstrun then sptr else skip cs sptr
      if limit ≠ 0 then
        let (w, e) := upto cs sptr
        w :: splitLoop cs fuel limit false e
      else sptr :: splitLoop cs fuel limit false []

/-- `strcoll_split(coll, s, splitchars, limit)` (include/wvstrutils.h:287-335). Every turn but the first takes at least
    one character, so that `length + 2` turns are enough (`splitLoop_spec` in Props/Split, for calls without a limit). -/
def split (cs : List Byte) (limit : Int) (s : List Byte) : List (List Byte) :=
  if s = [] then [[]] else splitLoop cs (s.length + 2) limit true s

/-- The loop of strcoll_splitstrict (include/wvstrutils.h:360-378). -/
def strict (cs : List Byte) (limit : Int) (cur : List Byte) : List (List Byte) :=
  let limit := limit - 1
  if limit = 0 then [cur]
  else
    match _h : upto cs cur with
    | (w, []) => [w]
    | (w, _ :: e) => w :: strict cs limit e
termination_by cur.length
decreasing_by
  have : (upto cs cur).2.length ≤ cur.length := (List.dropWhile_suffix _).length_le
  rw [_h] at this
  simp at this
  omega

/-- `strcoll_join(coll, joinchars)` (include/wvstrutils.h:427-459): the second loop, with `total` the text so far. -/
def joinLoop (j : List Byte) : Bool → List Byte → List (List Byte) → List Byte
  | _, total, [] => total
  | first, total, s :: ss => joinLoop j false ((if first then total else total ++ j) ++ s) ss

def join (j : List Byte) (l : List (List Byte)) : List Byte := joinLoop j true [] l

/-- The size allocated by strcoll_join (include/wvstrutils.h:432-444), for a list that is not empty. -/
def joinSize (j : List Byte) (l : List (List Byte)) : Nat :=
  (l.foldl (fun n s => n + s.length + j.length) 1) - j.length

end Wv.Split
