import Verif.Model.Basic
/-
Model of utils/wvtclstring.cc and utils/wvstringmask.cc.

Simplifications: a WvStringMask is the list of characters given to its constructor, with `operator[]` as membership.
This is right for characters below 0x80; for others `set` (utils/wvstringmask.cc:41-64) indexes the table with a sign
extended value, which is out of bounds. `int` counters (`bracecount`, `len`) do not overflow. NULL strings are not
elements of the lists here.
-/
namespace Wv.Tcl

/-- A WvStringMask (utils/wvstringmask.cc:12-21). -/
abbrev Mask := List Byte

/-- `WVTCL_NASTY_SPACES`, `WVTCL_SPLITCHARS` (include/wvtclstring.h:42-57). -/
def spaces : Mask := [32, 9, 10, 13]
/-- `WVTCL_NASTY_NEWLINES` (include/wvtclstring.h:46). -/
def newlines : Mask := [10, 13]

/-- `WVTCL_ALWAYS_NASTY_CASE` (include/wvtclstring.h:50): `{ } \ "`. -/
def alwaysNasty (c : Byte) : Bool := c == 123 || c == 125 || c == 92 || c == 34

/-- `doit` (utils/wvtclstring.cc:56-65, 92-101). -/
def doit (nasties : Mask) (c : Byte) : Bool := alwaysNasty c || nasties.contains c

/-- What the first loop of wvtcl_escape computes (utils/wvtclstring.cc:36-37). -/
structure Scan where
  backslashify : Bool := false
  inescape : Bool := false
  unprintables : Nat := 0
  bracecount : Int := 0

/-- The first loop of wvtcl_escape (utils/wvtclstring.cc:43-73). -/
def escScan (nasties : Mask) : Scan → List Byte → Scan
  | s, [] => s
  | s, c :: cs =>
    let bc := if !s.inescape && c == 123 then s.bracecount + 1
      else if !s.inescape && c == 125 then s.bracecount - 1 else s.bracecount
    escScan nasties
      { backslashify := s.backslashify || decide (bc < 0)
        inescape := if c == 92 then !s.inescape else false
        unprintables := if doit nasties c then s.unprintables + 1 else s.unprintables
        bracecount := bc } cs

/-- The second loop (utils/wvtclstring.cc:90-106). -/
def backslashes (nasties : Mask) : List Byte → List Byte
  | [] => []
  | c :: cs => if doit nasties c then 92 :: c :: backslashes nasties cs else c :: backslashes nasties cs

/-- `backslashify` after the first loop and the test for balance (utils/wvtclstring.cc:75-77). -/
def needsBackslash (nasties : Mask) (s : List Byte) : Bool :=
  let r := escScan nasties {} s
  r.backslashify || (r.bracecount != 0 || r.inescape)

/-- `wvtcl_escape(s, nasties)` (utils/wvtclstring.cc:17-142). -/
def escape (nasties : Mask) (s : List Byte) : List Byte :=
  if s = [] then [123, 125]
  else if !needsBackslash nasties s && (escScan nasties {} s).unprintables == 0 then s
  else if needsBackslash nasties s then backslashes nasties s
  else 123 :: (s ++ [125])

/-- The value the same function returns with `dst` NULL, from which the result is allocated
    (utils/wvtclstring.cc:33, 82, 109, 123, 133-138). -/
def escapeLen (nasties : Mask) (s : List Byte) : Nat :=
  if s = [] then 2
  else
    let u := (escScan nasties {} s).unprintables
    if !needsBackslash nasties s && u == 0 then s.length
    else if needsBackslash nasties s then s.length + u
    else s.length + 2

/-- The loop of wvtcl_unescape (utils/wvtclstring.cc:179-199). -/
def unbackslash : Bool → List Byte → List Byte
  | _, [] => []
  | inescape, c :: cs =>
    if c == 92 then
      if inescape then c :: unbackslash false cs else unbackslash true cs
    else c :: unbackslash false cs

/-- `wvtcl_unescape(s)` (utils/wvtclstring.cc:145-218). `none`: for the one character string `"`, the loop runs from 1
    to 0 and walks out of the string. -/
def unescape (s : List Byte) : Option (List Byte) :=
  if s.head? = some 123 ∧ s.getLast? = some 125 then some (s.tail.dropLast)
  else if s.head? = some 34 ∧ s.getLast? = some 34 then
    if s.length = 1 then none else some (unbackslash false s.tail.dropLast)
  else some (unbackslash false s)

/-- Local variables of wvtcl_getword (utils/wvtclstring.cc:259-260). -/
structure GW where
  inescape : Bool := false
  inquote : Bool := false
  incontinuation : Bool := false
  bracecount : Nat := 0

/-- The main loop of wvtcl_getword (utils/wvtclstring.cc:284-340): final variables, the characters passed over
    (`sptr` to `eptr`), the characters from `eptr` on. -/
def gwLoop (split : Mask) : GW → List Byte → GW × List Byte × List Byte
  | g, [] => (g, [], [])
  | g, c :: cs =>
    let go (g : GW) : GW × List Byte × List Byte :=
      let (g', w, r) := gwLoop split g cs
      (g', c :: w, r)
    let g := { g with incontinuation := false }
    if g.inescape then go { g with incontinuation := c == 10, inescape := false }
    else if c == 92 then go { g with inescape := true }
    else if g.bracecount == 0 && g.inquote && c == 34 then (g, [c], cs)
    else if g.bracecount == 0 && !g.inquote && split.contains c then (g, [], c :: cs)
    else if !g.inquote && c == 123 then go { g with bracecount := g.bracecount + 1 }
    else if !g.inquote && (decide (g.bracecount > 0) && c == 125) then go { g with bracecount := g.bracecount - 1 }
    else go g

/-- wvtcl_getword without unescaping (utils/wvtclstring.cc:252-347, 353): the word as it stands in the text and what
    comes after it; `none` for WVTCL_GETWORD_NONE. -/
def getwordRaw (split : Mask) (s : List Byte) : Option (List Byte × List Byte) :=
  match s.dropWhile split.contains with
  | [] => none
  | c :: cs =>
    let (g, w, rest) :=
      if c == 34 then
        let (g, w, r) := gwLoop split { inquote := true } cs
        (g, c :: w, r)
      else gwLoop split {} (c :: cs)
    if g.bracecount != 0 || w.isEmpty || g.inquote || g.inescape || g.incontinuation then none
    else some (w, rest)

/-- `wvtcl_getword(buf, splitchars, do_unescape)` (utils/wvtclstring.cc:359-383): the word and what is left in the
    buffer. `none`: a null string was returned and the buffer is unchanged. The inner `none` of `unescape` (undefined
    behaviour) cannot occur: a word starting with a quote is never returned (see `C15_getword_unescape_defined`). -/
def getword (split : Mask) (unesc : Bool) (s : List Byte) : Option (List Byte × List Byte) :=
  match getwordRaw split s with
  | none => none
  | some (w, rest) => if unesc then some ((unescape w).getD [], rest) else some (w, rest)

/-- `wvtcl_encode` (utils/wvtclstring.cc:221-248): escaped words with `splitchars.first()` in between (0 if the mask was
    made from the empty string, utils/wvstringmask.cc:35-39). -/
def encode (nasties split : Mask) : List (List Byte) → List Byte
  | [] => []
  | [w] => escape nasties w
  | w :: ws => escape nasties w ++ split.headD 0 :: encode nasties split ws

theorem gwLoop_append (split : Mask) (g : GW) (s : List Byte) :
    (gwLoop split g s).2.1 ++ (gwLoop split g s).2.2 = s := by
  induction s generalizing g with
  | nil => rfl
  | cons c cs ih =>
    unfold gwLoop
    simp only
    split
    · simp [ih]
    · split
      · simp [ih]
      · split
        · simp
        · split
          · simp
          · split
            · simp [ih]
            · split <;> simp [ih]

theorem getwordRaw_shorter {split : Mask} {s w r : List Byte} (h : getwordRaw split s = some (w, r)) :
    r.length < s.length := by
  unfold getwordRaw at h
  have hd : (s.dropWhile split.contains).length ≤ s.length := (List.dropWhile_suffix _).length_le
  split at h
  · simp at h
  · rename_i c cs hs
    rw [hs] at hd
    simp only [List.length_cons] at hd
    by_cases hc : (c == 34) = true
    · simp only [hc, if_true] at h
      split at h
      · simp at h
      · simp only [Option.some.injEq, Prod.mk.injEq] at h
        have := congrArg List.length (gwLoop_append split { inquote := true } cs)
        have h2 : (gwLoop split { inquote := true } cs).2.2 = r := h.2
        rw [List.length_append, h2] at this
        omega
    · simp only [hc, Bool.false_eq_true, if_false] at h
      split at h
      · simp at h
      · rename_i hn
        simp only [Option.some.injEq, Prod.mk.injEq] at h
        have := congrArg List.length (gwLoop_append split {} (c :: cs))
        rw [List.length_append, h.1, h.2] at this
        rw [h.1] at hn
        have hw : 0 < w.length := by
          cases w with
          | nil => simp at hn
          | cons => simp
        simp only [List.length_cons] at this
        omega

theorem getword_shorter {split : Mask} {u : Bool} {s w r : List Byte} (h : getword split u s = some (w, r)) :
    r.length < s.length := by
  unfold getword at h
  split at h
  · simp at h
  · rename_i w' r' hr
    have := getwordRaw_shorter hr
    split at h <;> simp at h <;> rw [← h.2] <;> exact this

/-- `wvtcl_decode` (utils/wvtclstring.cc:386-410). -/
def decode (split : Mask) (unesc : Bool) (s : List Byte) : List (List Byte) :=
  match h : getword split unesc s with
  | none => []
  | some (w, r) => w :: decode split unesc r
termination_by s.length
decreasing_by exact getword_shorter h

end Wv.Tcl
