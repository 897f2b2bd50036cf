import Verif.Model.Basic
/-
Model of cstr_escape and cstr_unescape (utils/wvstrutils.cc:918-1134).

A C string is a list of bytes; its terminating NUL is the end of the list, so that the texts given to `unescape` are
lists without zero bytes (nothing depends on it).
-/
namespace Wv.CStr

/-- A table of CStrExtraEscape (include/wvstrutils.h:545-550). `[]` is also a NULL pointer. -/
abbrev Extra := List (Byte × List Byte)

/-- `CSTR_TCLSTR_ESCAPES` (utils/wvstrutils.cc:918-923). -/
def tclstr : Extra := [(123, [92, 60]), (125, [92, 62])]

/-- Upper case hex digit. -/
def hexDigit (n : Byte) : Byte := if n < 10 then 48 + n else 55 + n

/-- `cstr_escape_char` (utils/wvstrutils.cc:925-963): the 256 entry table written as a rule. -/
def escapeChar (c : Byte) : List Byte :=
  if c = 0 then [92, 48]
  else if c = 7 then [92, 97]
  else if c = 8 then [92, 98]
  else if c = 9 then [92, 116]
  else if c = 10 then [92, 110]
  else if c = 11 then [92, 118]
  else if c = 13 then [92, 114]
  else if c = 34 then [92, 34]
  else if c = 92 then [92, 92]
  else if 32 ≤ c && c ≤ 126 then [c]
  else [92, 120, hexDigit (c >>> 4), hexDigit (c &&& 15)]

/-- `hex_digit_val` (utils/wvstrutils.cc:965-1003). -/
def hexVal (c : Byte) : Option Byte :=
  if isdigit c then some (c - 48)
  else if 65 ≤ c && c ≤ 70 then some (c - 55)
  else if 97 ≤ c && c ≤ 102 then some (c - 87)
  else none

/-- `cstr_unescape_char` (utils/wvstrutils.cc:1005-1046): the character and the rest of the text, `none` for false. -/
def unescapeChar : List Byte → Option (Byte × List Byte)
  | [] => none
  | c :: cs =>
    if c = 92 then
      match cs with
      | [] => none
      | d :: ds =>
        if d = 34 then some (34, ds)
        else if d = 116 then some (9, ds)
        else if d = 110 then some (10, ds)
        else if d = 92 then some (92, ds)
        else if d = 114 then some (13, ds)
        else if d = 97 then some (7, ds)
        else if d = 118 then some (11, ds)
        else if d = 98 then some (8, ds)
        else if d = 48 then some (0, ds)
        else if d = 120 then
          match ds with
          | e :: f :: fs =>
            match hexVal e, hexVal f with
            | some a, some b => some ((a <<< 4) ||| b, fs)
            | _, _ => none
          | _ => none
        else none
    else some (c, cs)

/-- The search of the extra table in cstr_escape (utils/wvstrutils.cc:1063-1077). -/
def escapeOne (extra : Extra) (c : Byte) : List Byte :=
  match extra.find? (fun x => x.1 == c) with
  | some x => x.2
  | none => escapeChar c

/-- `cstr_escape(data, size, extra)` with data not NULL (utils/wvstrutils.cc:1048-1085). -/
def escape (extra : Extra) (data : List Byte) : List Byte := 34 :: (data.flatMap (escapeOne extra) ++ [34])

/-- The search of the extra table in cstr_unescape (utils/wvstrutils.cc:1106-1122), then `cstr_unescape_char`. -/
def unescapeOne (extra : Extra) (q : List Byte) : Option (Byte × List Byte) :=
  match extra.find? (fun x => x.2.isPrefixOf q) with
  | some x => some (x.1, q.drop x.2.length)
  | none => unescapeChar q

/-- The inner loop of cstr_unescape and the test for the closing quote (utils/wvstrutils.cc:1100-1126): the data decoded
    and the text after the closing quote, `none` for misformatted. An extra escape of length zero would loop forever in
    the code; here it is taken for misformatted. -/
def body (extra : Extra) (q : List Byte) : List Byte × Option (List Byte) :=
  match q with
  | [] => ([], none)
  | c :: cs =>
    if c = 34 then ([], some cs)
    else
      match unescapeOne extra (c :: cs) with
      | none => ([], none)
      | some (u, r) =>
        if _h : r.length < (c :: cs).length then
          let (us, r') := body extra r
          (u :: us, r')
        else ([], none)
termination_by q.length

theorem body_shorter (extra : Extra) (n : Nat) : ∀ (q : List Byte), q.length ≤ n → ∀ us r, body extra q = (us, some r) → r.length < q.length := by
  induction n with
  | zero =>
    intro q hq us r h
    cases q with
    | nil => rw [body] at h; simp at h
    | cons => simp at hq
  | succ n ih =>
    intro q hq us r h
    cases q with
    | nil => rw [body] at h; simp at h
    | cons c cs =>
      rw [body] at h
      split at h
      · simp at h; rw [← h.2]; simp
      · split at h
        · simp at h
        · rename_i u r1 hu
          split at h
          · rename_i hlt
            simp only [Prod.mk.injEq] at h
            have := ih r1 (by simp at hq hlt; omega) (body extra r1).1 r (Prod.ext rfl h.2)
            omega
          · simp at h

/-- The outer loop of cstr_unescape (utils/wvstrutils.cc:1096-1127): the data decoded, and false for misformatted. -/
def blocks (extra : Extra) (q : List Byte) : List Byte × Bool :=
  match hq : q.dropWhile isspace with
  | [] => ([], true)
  | c :: cs =>
    if c = 34 then
      match hb : body extra cs with
      | (us, none) => (us, false)
      | (us, some r) =>
        let (rest, ok) := blocks extra r
        (us ++ rest, ok)
    else ([], false)
termination_by q.length
decreasing_by
  have h1 := body_shorter extra cs.length cs (Nat.le_refl _) us r hb
  have h2 : (q.dropWhile isspace).length ≤ q.length := (List.dropWhile_suffix _).length_le
  rw [hq] at h2
  simp at h2
  omega

/-- What cstr_unescape returns: the boolean, `size`, and the bytes stored at `data`. -/
structure Result where
  ok : Bool
  size : Nat
  stored : List Byte
deriving DecidableEq, Repr

/-- `cstr_unescape(cstr, data, max_size, size, extra)` with `data` not NULL (utils/wvstrutils.cc:1087-1134). Each
    decoded byte adds one to `size` and is stored if `size` was below `max_size`, also when the text turns out to be
    misformatted later. -/
def unescape (extra : Extra) (cstr : List Byte) (max_size : Nat) : Result :=
  let (d, ok) := blocks extra cstr
  if ok then ⟨decide (d.length ≤ max_size), d.length, d.take max_size⟩
  else ⟨false, 0, d.take max_size⟩

end Wv.CStr
