import Verif.Model.UrlEnc
import Verif.Lemmas.Basic
/- C33: URL encoding. -/
namespace Props
open Wv Wv.UrlEnc

theorem hexIdx_digit : ∀ c : Byte, hexIdx (hexDigit (c >>> 4)) = some (c >>> 4) ∧
    hexIdx (hexDigit (c &&& 15)) = some (c &&& 15) ∧ ((c >>> 4) <<< 4) ||| (c &&& 15) = c ∧
    isxdigit (hexDigit (c >>> 4)) = true ∧ isxdigit (hexDigit (c &&& 15)) = true ∧
    isspace (hexDigit (c >>> 4)) = false ∧ isspace (hexDigit (c &&& 15)) = false := by
  apply forall_byte; decide +kernel

theorem decLoop_percent (ns : Bool) (d e a b : Byte) (cs : List Byte) (hd : hexIdx d = some a) (he : hexIdx e = some b) :
    decLoop ns (37 :: d :: e :: cs) = ((a <<< 4) ||| b) :: decLoop ns cs := by
  rw [decLoop]
  simp [hd, he]

theorem decLoop_plain (ns : Bool) (c : Byte) (cs : List Byte) (h1 : c ≠ 37) (h2 : c = 43 → ns = true) :
    decLoop ns (c :: cs) = c :: decLoop ns cs := by
  have h43 : (c == 43 && !ns) = false := by
    by_cases h : c = 43
    · simp [h2 h]
    · simp [h]
  match cs with
  | [] => simp [decLoop, h43]
  | [d] => rw [show decLoop ns [c, d] = (if c == 43 && !ns then 32 else c) :: decLoop ns [d] from rfl, h43]; rfl
  | d :: e :: cs =>
    rw [decLoop]
    have : (c == 37) = false := by simpa using h1
    simp [h43, this]

theorem trim_of_no_space (s : List Byte) (h : ∀ c ∈ s, isspace c = false) : trim s = s := by
  have hd : ∀ l : List Byte, (∀ c ∈ l, isspace c = false) → l.dropWhile isspace = l := by
    intro l hl
    cases l with
    | nil => rfl
    | cons c l => rw [List.dropWhile_cons, hl c (by simp)]; rfl
  unfold trim
  rw [hd s.reverse (by simpa using h), List.reverse_reverse, hd _ h]

theorem decLoop_encode (ns : Bool) (u : List Byte) (hu : ∀ c, safe u c = true → c = 43 → ns = true) (s : List Byte) :
    decLoop ns (encode u s) = s := by
  induction s with
  | nil => rfl
  | cons c s ih =>
    rw [encode]
    cases h : safe u c
    · obtain ⟨h1, h2, h3, -⟩ := hexIdx_digit c
      simp only [Bool.false_eq_true, if_false]
      rw [decLoop_percent ns _ _ _ _ _ h1 h2, h3, ih]
    · simp only [if_true]
      have hc : c ≠ 37 := by
        intro e; subst e
        revert h; unfold safe; simp
      rw [decLoop_plain ns c _ hc (hu c h), ih]

theorem encode_no_space (u : List Byte) (hu : ∀ c, safe u c = true → isspace c = false) (s : List Byte) :
    ∀ c ∈ encode u s, isspace c = false := by
  induction s with
  | nil => simp [encode]
  | cons c s ih =>
    obtain ⟨-, -, -, -, -, h6, h7⟩ := hexIdx_digit c
    intro d hd
    rw [encode] at hd
    cases h : safe u c
    · rw [h] at hd
      simp only [Bool.false_eq_true, if_false, List.mem_cons] at hd
      rcases hd with rfl | rfl | rfl | hd
      · decide
      · exact h6
      · exact h7
      · exact ih d hd
    · rw [h] at hd
      simp only [if_true, List.mem_cons] at hd
      rcases hd with rfl | hd
      · exact hu _ h
      · exact ih d hd

/-- the default safe characters are neither `+` nor white space -/
theorem safe_default : ∀ c : Byte, safe [] c = true → c ≠ 43 ∧ isspace c = false := by
  apply forall_byte; decide +kernel

/-- C33: decoding undoes encoding, for every string (with the default set of characters), whether or not `+` is taken for
    a space. -/
theorem C33_url_roundtrip (no_space : Bool) (s : List Byte) : decode no_space (encode [] s) = s := by
  unfold decode
  rw [trim_of_no_space _ (encode_no_space [] (fun c h => (safe_default c h).2) s)]
  exact decLoop_encode no_space [] (fun c h e => absurd e (safe_default c h).1) s

/-- C33, other sets of characters to encode: they must include white space (the decoder trims), and `+` unless the
    decoder leaves it alone. -/
theorem C33_url_roundtrip_unsafe (no_space : Bool) (unsafe_ : List Byte) (s : List Byte) (hne : unsafe_ ≠ [])
    (hsp : ∀ c, isspace c = true → c ∈ unsafe_) (hplus : 43 ∈ unsafe_ ∨ no_space = true) :
    decode no_space (encode unsafe_ s) = s := by
  have he : unsafe_.isEmpty = false := by simpa using hne
  have hs : ∀ c, safe unsafe_ c = true → c ∉ unsafe_ := by
    intro c h
    unfold safe at h
    rw [he] at h
    simp at h
    exact h.1
  unfold decode
  rw [trim_of_no_space]
  · refine decLoop_encode no_space unsafe_ (fun c h e => ?_) s
    subst e
    rcases hplus with hp | hp
    · exact absurd hp (hs _ h)
    · exact hp
  · apply encode_no_space
    intro c h
    cases hc : isspace c
    · rfl
    · exact absurd (hsp c hc) (hs c h)

/-- C33: without them the round trip fails: a leading space is lost if only `&` is to be encoded. -/
theorem C33_url_roundtrip_any_set_fails :
    ¬ ∀ unsafe_ s, decode false (encode unsafe_ s) = s := by
  intro h
  exact absurd (h (str ['&']) (str [' ', 'a'])) (by decide +kernel)

/-- C33 (safe output): only letters, digits, `_.!~*'()-` and percent escapes of two hex digits come out. -/
theorem C33_url_safe_output (s : List Byte) :
    ∀ c ∈ encode [] s, isalnum c = true ∨ c ∈ str ['_', '.', '!', '~', '*', '\'', '(', ')', '-'] ∨ c = 37 := by
  have hx : ∀ c : Byte, isxdigit c = true → isalnum c = true := by apply forall_byte; decide +kernel
  induction s with
  | nil => simp [encode]
  | cons c s ih =>
    obtain ⟨-, -, -, h4, h5, -⟩ := hexIdx_digit c
    intro d hd
    rw [encode] at hd
    cases h : safe [] c
    · rw [h] at hd
      simp only [Bool.false_eq_true, if_false, List.mem_cons] at hd
      rcases hd with rfl | rfl | rfl | hd
      · simp
      · exact Or.inl (hx _ h4)
      · exact Or.inl (hx _ h5)
      · exact ih d hd
    · rw [h] at hd
      simp only [if_true, List.mem_cons] at hd
      rcases hd with rfl | hd
      · unfold safe at h
        simp only [List.isEmpty_nil, Bool.not_true, Bool.false_and, Bool.false_or, Bool.true_and, Bool.and_eq_true,
          Bool.or_eq_true, List.contains_iff_mem] at h
        rcases h.1 with h | h
        · exact Or.inl h
        · exact Or.inr (Or.inl h)
      · exact ih d hd

example : encode [] (str [' ', 'a', '%', '+', 'é']) = str ['%', '2', '0', 'a', '%', '2', '5', '%', '2', 'B', '%', 'E', '9'] := by
  decide +kernel

/-- The hypotheses of `C33_url_roundtrip_unsafe` can be met. -/
example : (∀ c, isspace c = true → c ∈ [32, 9, 10, 11, 12, 13, 38, (43 : Byte)]) ∧ (43 : Byte) ∈ [32, 9, 10, 11, 12, 13, 38, (43 : Byte)] := by
  refine ⟨?_, by decide⟩
  apply forall_byte; decide +kernel

end Props
