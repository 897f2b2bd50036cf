import Verif.Lemmas.Tcl
/- C15, C16: Tcl words and lists. Strings are lists of bytes; C strings have no NUL, which no proof needs. -/
namespace Props
open Wv Wv.Tcl Spec.Tcl

/-- C15: unescaping undoes escaping, for every string and every set of characters to protect. -/
theorem C15_unescape_escape (nasties : Mask) (s : List Byte) : unescape (escape nasties s) = some s :=
  unescape_escape nasties s

/-- C15 (memory): the escaped string fills exactly the memory computed for it beforehand. -/
theorem C15_escape_size (nasties : Mask) (s : List Byte) : (escape nasties s).length = escapeLen nasties s := by
  unfold escape escapeLen
  have hu := escScan_unprintables nasties s {}
  simp only [Nat.zero_add] at hu
  split
  · rfl
  · simp only
    split
    · rfl
    · split
      · rw [backslashes_length, hu]
      · simp

theorem splits_of_separators {n split : Mask} (h : Separators n split) : Splits n split := by
  intro c hc
  obtain ⟨h1, h2⟩ := h c (by simpa using hc)
  exact ⟨by simpa using h1, by simp [alwaysNasty, h2]⟩

/-- C15 (one word): an escaped word with a separator after it, and any separators before it, is read back as the word,
    and exactly the word and what is before it is taken. -/
theorem C15_getword_escape (nasties split : Mask) (hs : Separators nasties split) (lead s : List Byte) (sep : Byte)
    (rest : List Byte) (hl : ∀ c ∈ lead, c ∈ split) (hsep : sep ∈ split) :
    getword split true (lead ++ (escape nasties s ++ sep :: rest)) = some (s, sep :: rest) := by
  unfold getword
  rw [dropWhile_leading _ _ (fun c hc => by simpa using hl c hc),
    getwordRaw_escape_sep (splits_of_separators hs) s sep rest (by simpa using hsep)]
  simp [unescape_escape]

/-- the default sets -/
theorem separators_default : Separators spaces spaces := by
  intro c hc
  simp [spaces] at hc
  rcases hc with rfl | rfl | rfl | rfl <;> decide

example : getword spaces true (str [' ', '{', 'a', ' ', 'b', '}', ' ', 'c']) = some (str ['a', ' ', 'b'], str [' ', 'c']) := by
  decide +kernel

/-- C15 (what is taken): a word that is returned unescaped stands in the text after separators only, and the buffer is
    left with exactly what comes after it. -/
theorem C15_getword_takes_prefix (split : Mask) (s w r : List Byte) (h : getword split false s = some (w, r)) :
    w ≠ [] ∧ ∃ lead, s = lead ++ w ++ r ∧ ∀ c ∈ lead, c ∈ split := by
  unfold getword at h
  split at h
  · simp at h
  · rename_i w' r' hr
    simp at h
    obtain ⟨rfl, rfl⟩ := h
    constructor
    · intro h0
      subst h0
      unfold getwordRaw at hr
      split at hr
      · simp at hr
      · rename_i c cs _
        by_cases hc : (c == 34) = true
        · simp only [hc, if_true] at hr
          split at hr <;> simp at hr
        · simp only [hc, Bool.false_eq_true, if_false] at hr
          split at hr
          · simp at hr
          · rename_i hn
            simp only [Option.some.injEq, Prod.mk.injEq] at hr
            rw [hr.1] at hn
            simp at hn
    · obtain ⟨lead, h1, h2⟩ := getwordRaw_spec hr
      exact ⟨lead, h1, fun c hc => by simpa using h2 c hc⟩

/-- C15 (safety): the undefined case of unescaping is never reached from `wvtcl_getword`. -/
theorem C15_getword_unescape_defined (split : Mask) (s w r : List Byte) (h : getword split false s = some (w, r)) :
    unescape w ≠ none := by
  unfold getword at h
  split at h
  · simp at h
  · rename_i w' r' hr
    simp at h
    obtain ⟨rfl, rfl⟩ := h
    have := getwordRaw_no_quote hr
    unfold unescape
    split
    · simp
    · split
      · rename_i h34
        split
        · rename_i hlen
          exfalso
          apply this
          cases w' with
          | nil => simp at hlen
          | cons a l =>
            simp at hlen
            subst hlen
            simp at h34
            simp [h34]
        · simp
      · simp

/-- C15: direct use of `wvtcl_unescape` on a single quote character is undefined (the loop runs past the end). -/
theorem C15_unescape_total_fails : ¬ ∀ s, unescape s ≠ none := fun h => h [34] (by decide)

/-- C15: the documentation promises that `"foo"` (in double quotes) is read as the element foo
    (include/wvtclstring.h:27-28, 108-111). It is false: `inquote` is never cleared, so that no text starting with a
    quote ever yields a word. -/
theorem C15_quoted_words_fails (split : Mask) (unesc : Bool) (s : List Byte) (h34 : 34 ∉ split) :
    getword split unesc (34 :: s) = none := by
  have hq : ∀ l g, g.inquote = true → (gwLoop split g l).1.inquote = true := by
    intro l
    induction l with
    | nil => intro g hg; exact hg
    | cons c l ih =>
      intro g hg
      unfold gwLoop
      simp only [hg]
      split
      · exact ih _ (by rfl)
      · split
        · exact ih _ (by rfl)
        · split
          · rfl
          · simp
            exact ih _ rfl
  have hraw : getwordRaw split (34 :: s) = none := by
    unfold getwordRaw
    have : (34 :: s).dropWhile split.contains = 34 :: s := by
      rw [List.dropWhile_cons]
      have : split.contains 34 = false := by simpa using h34
      rw [this]; rfl
    rw [this]
    simp only [beq_self_eq_true, if_true]
    rw [hq s { inquote := true } rfl]
    simp
  unfold getword
  rw [hraw]

theorem decode_cons {split : Mask} {u : Bool} {s w r : List Byte} (h : getword split u s = some (w, r)) :
    decode split u s = w :: decode split u r := by
  rw [decode]; split <;> simp_all

theorem decode_none {split : Mask} {u : Bool} {s : List Byte} (h : getword split u s = none) :
    decode split u s = [] := by
  rw [decode]; split <;> simp_all

theorem getword_lead {split : Mask} {u : Bool} {d : Byte} {s : List Byte} (hd : d ∈ split) :
    getword split u (d :: s) = getword split u s := by
  have := dropWhile_leading (split := split) [d] s (by simpa using hd)
  unfold getword
  rw [show d :: s = [d] ++ s from rfl, this]

theorem decode_lead {split : Mask} {u : Bool} {d : Byte} {s : List Byte} (hd : d ∈ split) :
    decode split u (d :: s) = decode split u s := by
  cases h : getword split u s with
  | none => rw [decode_none h, decode_none (by rw [getword_lead hd, h])]
  | some x => obtain ⟨w, r⟩ := x; rw [decode_cons h, decode_cons (by rw [getword_lead hd, h])]

theorem waits_iff {n split : Mask} (hs : Separators n split) (hne : split ≠ []) (w : List Byte) :
    waits n w = true ↔ badEnd n w := by
  unfold waits badEnd
  rw [needsBackslash_eq]
  simp [doit, alwaysNasty]

/-- C16: encoding a list and decoding it gives the list back, exactly unless the last word has unmatched braces and ends
    with a newline. -/
theorem C16_list_roundtrip_partial (nasties split : Mask) (hs : Separators nasties split) (hne : split ≠ [])
    (l : List (List Byte)) (hl : ∀ w, l.getLast? = some w → ¬ badEnd nasties w) :
    decode split true (encode nasties split l) = l := by
  have hsp := splits_of_separators hs
  have hhead : split.headD 0 ∈ split := by
    cases split with
    | nil => contradiction
    | cons c cs => simp
  induction l with
  | nil =>
    rw [encode, decode_none]
    unfold getword getwordRaw
    simp
  | cons w ws ih =>
    cases ws with
    | nil =>
      rw [encode]
      have hw := hl w (by simp)
      have hwait : waits nasties w = false := by
        cases h : waits nasties w
        · rfl
        · exact absurd ((waits_iff hs hne w).mp h) hw
      have h1 : getword split true (escape nasties w) = some (w, []) := by
        unfold getword
        rw [getwordRaw_escape_end hsp, hwait]
        simp [unescape_escape]
      rw [decode_cons h1, decode_none]
      unfold getword getwordRaw
      simp
    | cons w' ws =>
      rw [encode]
      · have h1 := C15_getword_escape nasties split hs [] w (split.headD 0) (encode nasties split (w' :: ws)) (by simp) hhead
        rw [List.nil_append] at h1
        rw [decode_cons h1, decode_lead hhead, ih (fun x hx => hl x (by simpa using hx))]
      · simp

/-- C16, the remaining lists: a last word with unmatched braces that ends with a newline is lost. -/
theorem C16_list_last_word_lost (nasties split : Mask) (hs : Separators nasties split) (hne : split ≠ [])
    (l : List (List Byte)) (w : List Byte) (hw : badEnd nasties w) :
    decode split true (encode nasties split (l ++ [w])) = l := by
  have hsp := splits_of_separators hs
  have hhead : split.headD 0 ∈ split := by
    cases split with
    | nil => contradiction
    | cons c cs => simp
  induction l with
  | nil =>
    rw [List.nil_append, encode, decode_none]
    unfold getword
    rw [getwordRaw_escape_end hsp, (waits_iff hs hne w).mpr hw]
    simp
  | cons x l ih =>
    rw [List.cons_append]
    obtain ⟨y, ys, hy⟩ : ∃ y ys, l ++ [w] = y :: ys := by
      cases l with
      | nil => exact ⟨w, [], rfl⟩
      | cons a l => exact ⟨a, l ++ [w], rfl⟩
    rw [hy] at ih ⊢
    rw [encode]
    · have h1 := C15_getword_escape nasties split hs [] x (split.headD 0) (encode nasties split (y :: ys)) (by simp) hhead
      rw [List.nil_append] at h1
      rw [decode_cons h1, decode_lead hhead, ih]
    · simp

/-- C16 is false of the code as it stands, also with the default separators: the list of one word `}` newline. -/
theorem C16_list_roundtrip_fails :
    ¬ ∀ l : List (List Byte), decode spaces true (encode spaces spaces l) = l := by
  intro h
  have h1 := h [[125, 10]]
  have h2 := C16_list_last_word_lost spaces spaces separators_default (by decide) [] [125, 10] (by
    refine ⟨?_, ?_, ?_⟩ <;> decide)
  rw [List.nil_append] at h2
  rw [h1] at h2
  simp at h2

/-- The hypotheses of `C16_list_roundtrip_partial` hold for words with spaces, braces, quotes, backslashes and
    newlines. -/
example : ∀ w, [str ['a', ' ', 'b'], [], str ['{'], str ['}', '\n'], str ['"', '\\']].getLast? = some w →
    ¬ badEnd spaces w := by
  intro w hw
  simp at hw
  subst hw
  simp [badEnd, str, ch]

end Props
