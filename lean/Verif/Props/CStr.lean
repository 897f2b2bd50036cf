import Verif.Model.CStr
import Verif.Lemmas.Basic
/- C34: C string constants. -/
namespace Props
open Wv Wv.CStr

theorem unescapeChar_escapeChar (r : List Byte) : ∀ c : Byte, unescapeChar (escapeChar c ++ r) = some (c, r) := by
  have hx : ∀ c : Byte, hexVal (CStr.hexDigit (c >>> 4)) = some (c >>> 4) ∧
      hexVal (CStr.hexDigit (c &&& 15)) = some (c &&& 15) ∧ ((c >>> 4) <<< 4) ||| (c &&& 15) = c := by
    apply forall_byte; decide +kernel
  intro c
  obtain ⟨h1, h2, h3⟩ := hx c
  unfold escapeChar
  by_cases c0 : c = 0; · subst c0; rfl
  by_cases c7 : c = 7; · subst c7; rfl
  by_cases c8 : c = 8; · subst c8; rfl
  by_cases c9 : c = 9; · subst c9; rfl
  by_cases c10 : c = 10; · subst c10; rfl
  by_cases c11 : c = 11; · subst c11; rfl
  by_cases c13 : c = 13; · subst c13; rfl
  by_cases c34 : c = 34; · subst c34; rfl
  by_cases c92 : c = 92; · subst c92; rfl
  simp only [c0, c7, c8, c9, c10, c11, c13, c34, c92, if_false]
  split
  · simp [unescapeChar, c92]
  · simp [unescapeChar, h1, h2, h3]

/-- The two tables of extra escapes the library has. -/
def Table (extra : Extra) : Prop := extra = [] ∨ extra = tclstr

theorem escapeOne_spec (extra : Extra) (ht : Table extra) (c : Byte) (r : List Byte) :
    unescapeOne extra (escapeOne extra c ++ r) = some (c, r) ∧
    (∃ d ds, escapeOne extra c = d :: ds ∧ d ≠ 34) ∧ (escapeOne extra c).length ≤ 4 := by
  have hne : ∀ c : Byte, ∃ d ds, escapeChar c = d :: ds ∧ d ≠ 34 ∧ (escapeChar c).length ≤ 4 := by
    have : ∀ c : Byte, (escapeChar c).head? ≠ none ∧ (escapeChar c).head? ≠ some 34 ∧ (escapeChar c).length ≤ 4 := by
      apply forall_byte; decide +kernel
    intro c
    obtain ⟨h1, h2, h3⟩ := this c
    cases h : escapeChar c with
    | nil => rw [h] at h1; simp at h1
    | cons d ds =>
      refine ⟨d, ds, rfl, ?_, by rw [← h]; exact h3⟩
      intro e; rw [h] at h2; simp [e] at h2
  obtain ⟨d, ds, hd, h34, hl⟩ := hne c
  rcases ht with rfl | rfl
  · simp only [unescapeOne, escapeOne, List.find?_nil]
    exact ⟨unescapeChar_escapeChar r c, ⟨d, ds, hd, h34⟩, hl⟩
  · by_cases c1 : c = 123
    · subst c1
      refine ⟨by simp [unescapeOne, escapeOne, tclstr], ⟨92, [60], rfl, by decide⟩, by decide⟩
    · by_cases c2 : c = 125
      · subst c2
        refine ⟨?_, ⟨92, [62], rfl, by decide⟩, by decide⟩
        simp [unescapeOne, escapeOne, tclstr]
      · have e : escapeOne tclstr c = escapeChar c := by
          unfold escapeOne tclstr
          have h1 : ((123 : Byte) == c) = false := by simpa using fun h => c1 h.symm
          have h2 : ((125 : Byte) == c) = false := by simpa using fun h => c2 h.symm
          simp [h1, h2]
        rw [e]
        refine ⟨?_, ⟨d, ds, hd, h34⟩, hl⟩
        have hp : ∀ c : Byte, ∀ t, c ≠ 92 → ([92, t] : List Byte).isPrefixOf (c :: (ds ++ r)) = false := by
          intro c t h
          have : ((92 : Byte) == c) = false := by simpa using fun h' => h h'.symm
          simp [List.isPrefixOf, this]
        -- the text does not start with an extra escape
        have hno : ∀ t, t = 60 ∨ t = 62 → ([92, t] : List Byte).isPrefixOf (escapeChar c ++ r) = false := by
          have : ∀ c : Byte, (∃ d, escapeChar c = [d] ∧ d ≠ 92) ∨ (∃ d e es, escapeChar c = d :: e :: es ∧ e ≠ 60 ∧ e ≠ 62) := by
            have hb : ∀ c : Byte, ((escapeChar c).length = 1 ∧ (escapeChar c).head? ≠ some 92) ∨
                (2 ≤ (escapeChar c).length ∧ (escapeChar c)[1]? ≠ some 60 ∧ (escapeChar c)[1]? ≠ some 62) := by
              apply forall_byte; decide +kernel
            intro c
            rcases hb c with ⟨h1, h2⟩ | ⟨h1, h2, h3⟩
            · left
              match hc : escapeChar c with
              | [] => rw [hc] at h1; simp at h1
              | [d] => refine ⟨d, rfl, ?_⟩; intro e; rw [hc] at h2; simp [e] at h2
              | d :: e :: es => rw [hc] at h1; simp at h1
            · right
              match hc : escapeChar c with
              | [] => rw [hc] at h1; simp at h1
              | [d] => rw [hc] at h1; simp at h1
              | d :: e :: es =>
                rw [hc] at h2 h3
                refine ⟨d, e, es, rfl, ?_, ?_⟩
                · intro h; simp [h] at h2
                · intro h; simp [h] at h3
          intro t ht
          rcases this c with ⟨d, hd, hn⟩ | ⟨d, e, es, hd, h1, h2⟩
          · have : ((92 : Byte) == d) = false := by simpa using fun h => hn h.symm
            rw [hd]; simp [List.isPrefixOf, this]
          · have : (t == e) = false := by
              rcases ht with rfl | rfl
              · simpa using fun h => h1 h.symm
              · simpa using fun h => h2 h.symm
            rw [hd]; simp [List.isPrefixOf, this]
        unfold unescapeOne tclstr
        simp only [List.find?_cons, hno 60 (Or.inl rfl), hno 62 (Or.inr rfl), List.find?_nil]
        exact unescapeChar_escapeChar r c

theorem body_escaped (extra : Extra) (ht : Table extra) (d r : List Byte) :
    body extra (d.flatMap (escapeOne extra) ++ 34 :: r) = (d, some r) := by
  induction d with
  | nil => simp [body]
  | cons c d ih =>
    obtain ⟨h1, ⟨e, es, he, h34⟩, -⟩ := escapeOne_spec extra ht c (d.flatMap (escapeOne extra) ++ 34 :: r)
    rw [List.flatMap_cons, List.append_assoc]
    rw [he, List.cons_append] at h1 ⊢
    rw [body]
    simp only [h34, if_false, h1]
    rw [dif_pos (by simp; omega), ih]

/-- Texts made of escaped blocks with white space before, between and after them. -/
def texts (extra : Extra) : List (List Byte × List Byte) → List Byte → List Byte
  | [], last => last
  | (ws, d) :: xs, last => ws ++ (escape extra d ++ texts extra xs last)

theorem blocks_texts (extra : Extra) (ht : Table extra) (xs : List (List Byte × List Byte)) (last : List Byte)
    (hl : ∀ c ∈ last, isspace c = true) (hx : ∀ x ∈ xs, ∀ c ∈ x.1, isspace c = true) :
    blocks extra (texts extra xs last) = (xs.flatMap (·.2), true) := by
  induction xs with
  | nil =>
    rw [texts, blocks]
    have : last.dropWhile isspace = [] := by
      have := List.dropWhile_append_of_pos (l₂ := []) hl
      simpa using this
    split
    · rfl
    · simp_all
  | cons x xs ih =>
    obtain ⟨ws, d⟩ := x
    have hws : (ws ++ (escape extra d ++ texts extra xs last)).dropWhile isspace =
        34 :: (d.flatMap (escapeOne extra) ++ 34 :: texts extra xs last) := by
      rw [List.dropWhile_append_of_pos (hx (ws, d) (by simp))]
      simp [escape, List.dropWhile_cons, show isspace 34 = false from by decide]
    have hb := body_escaped extra ht d (texts extra xs last)
    rw [texts, blocks]
    split
    · rename_i heq; rw [hws] at heq; simp at heq
    · rename_i c cs heq
      rw [hws] at heq
      simp only [List.cons.injEq] at heq
      obtain ⟨rfl, rfl⟩ := heq
      simp only [if_true]
      split
      · rename_i h; rw [hb] at h; simp at h
      · rename_i us r h
        rw [hb] at h
        simp only [Option.some.injEq, Prod.mk.injEq] at h
        obtain ⟨rfl, rfl⟩ := h
        rw [ih (fun y hy => hx y (by simp [hy]))]
        simp

/-- C34: escaping blocks of any bytes, putting them one after the other with any white space around, and unescaping
    gives back the blocks one after the other, if there is room; otherwise the needed size and what fits. -/
theorem C34_cstr_roundtrip (extra : Extra) (ht : Table extra) (xs : List (List Byte × List Byte)) (last : List Byte)
    (hl : ∀ c ∈ last, isspace c = true) (hx : ∀ x ∈ xs, ∀ c ∈ x.1, isspace c = true) (max_size : Nat) :
    let data := xs.flatMap (·.2)
    unescape extra (texts extra xs last) max_size =
      ⟨decide (data.length ≤ max_size), data.length, data.take max_size⟩ := by
  simp only [unescape, blocks_texts extra ht xs last hl hx, if_true]

/-- C34, one block. -/
theorem C34_cstr_roundtrip_one (extra : Extra) (ht : Table extra) (data : List Byte) (max_size : Nat)
    (h : data.length ≤ max_size) : unescape extra (escape extra data) max_size = ⟨true, data.length, data⟩ := by
  have := C34_cstr_roundtrip extra ht [([], data)] [] (by simp) (by simp) max_size
  simp only [texts, List.nil_append, List.append_nil, List.flatMap_cons, List.flatMap_nil] at this
  rw [this]
  simp [h, List.take_of_length_le]

/-- C34 (memory): whatever the text, at most `max_size` bytes are stored; `size` says how many were needed; and the text
    produced by escaping fits in the memory allocated for it (`4*size+3` with the NUL). -/
theorem C34_cstr_memory (extra : Extra) (ht : Table extra) (text data : List Byte) (max_size : Nat) :
    (unescape extra text max_size).stored.length ≤ max_size ∧
    ((unescape extra text max_size).ok = true → (unescape extra text max_size).stored.length =
      (unescape extra text max_size).size) ∧
    (escape extra data).length + 1 ≤ 4 * data.length + 3 := by
  refine ⟨?_, ?_, ?_⟩
  · unfold unescape
    simp only
    split <;> simp [List.length_take] <;> omega
  · unfold unescape
    simp only
    split
    · simp [List.length_take]; omega
    · simp
  · have : (data.flatMap (escapeOne extra)).length ≤ 4 * data.length := by
      induction data with
      | nil => simp
      | cons c d ih =>
        have := (escapeOne_spec extra ht c []).2.2
        rw [List.flatMap_cons, List.length_append, List.length_cons]; omega
    unfold escape
    simp only [List.length_cons, List.length_append, List.length_nil]; omega

/-- C34: the extra escapes keep braces out of the text, so that Tcl quoting need not touch them. -/
theorem C34_tclstr_no_braces (data : List Byte) : 123 ∉ escape tclstr data ∧ 125 ∉ escape tclstr data := by
  have h : ∀ c : Byte, 123 ∉ escapeOne tclstr c ∧ 125 ∉ escapeOne tclstr c := by
    apply forall_byte; decide +kernel
  unfold escape
  constructor
  · intro hm
    simp at hm
    obtain ⟨c, -, hc⟩ := hm
    exact (h c).1 hc
  · intro hm
    simp at hm
    obtain ⟨c, -, hc⟩ := hm
    exact (h c).2 hc

example : unescape tclstr (texts tclstr [([32], [0, 123, 34]), ([9, 10], [255])] [32]) 3 = ⟨false, 4, [0, 123, 34]⟩ := by
  have := C34_cstr_roundtrip tclstr (Or.inr rfl) [([32], [0, 123, 34]), ([9, 10], [255])] [32] (by decide) (by decide) 3
  rw [this]; rfl

/-- C34 (printable): the text is printable ASCII between two quotes, and every quote inside follows a backslash. -/
theorem C34_escape_printable (extra : Extra) (ht : Table extra) (data : List Byte) :
    (∀ b ∈ escape extra data, 32 ≤ b ∧ b ≤ 126) ∧
    ∃ ps : List (List Byte), escape extra data = 34 :: (ps.flatten ++ [34]) ∧
      ∀ p ∈ ps, (∃ b, p = [b] ∧ b ≠ 34 ∧ b ≠ 92) ∨ (∃ b r, p = 92 :: b :: r ∧ 34 ∉ r ∧ 92 ∉ r) := by
  have hall : ∀ c : Byte, (∀ b ∈ escapeChar c, 32 ≤ b ∧ b ≤ 126) ∧
      ((escapeChar c).length = 1 ∧ (escapeChar c).head? ≠ some 34 ∧ (escapeChar c).head? ≠ some 92 ∨
       2 ≤ (escapeChar c).length ∧ (escapeChar c).head? = some 92 ∧ 34 ∉ (escapeChar c).drop 2 ∧ 92 ∉ (escapeChar c).drop 2) := by
    apply forall_byte; decide +kernel
  have hp : ∀ l : List Byte, (l.length = 1 ∧ l.head? ≠ some 34 ∧ l.head? ≠ some 92 ∨
       2 ≤ l.length ∧ l.head? = some 92 ∧ 34 ∉ l.drop 2 ∧ 92 ∉ l.drop 2) →
      (∃ b, l = [b] ∧ b ≠ 34 ∧ b ≠ 92) ∨ (∃ b r, l = 92 :: b :: r ∧ 34 ∉ r ∧ 92 ∉ r) := by
    rintro (_ | ⟨a, _ | ⟨b, l⟩⟩) h
    · simp at h
    · left; exact ⟨a, rfl, by simpa using h⟩
    · right; simp at h; exact ⟨b, l, by simp [h.1], h.2⟩
  have hone : ∀ c : Byte, (∀ b ∈ escapeOne extra c, 32 ≤ b ∧ b ≤ 126) ∧
      ((∃ b, escapeOne extra c = [b] ∧ b ≠ 34 ∧ b ≠ 92) ∨ (∃ b r, escapeOne extra c = 92 :: b :: r ∧ 34 ∉ r ∧ 92 ∉ r)) := by
    intro c
    unfold escapeOne
    split
    · rename_i x hx
      have hm := List.mem_of_find?_eq_some hx
      rcases ht with rfl | rfl
      · simp at hm
      · simp only [tclstr, List.mem_cons, List.not_mem_nil, or_false] at hm
        rcases hm with rfl | rfl
        · exact ⟨by decide, Or.inr ⟨60, [], rfl, by simp, by simp⟩⟩
        · exact ⟨by decide, Or.inr ⟨62, [], rfl, by simp, by simp⟩⟩
    · exact ⟨(hall c).1, hp _ (hall c).2⟩
  refine ⟨?_, data.map (escapeOne extra), ?_, ?_⟩
  · intro b hb
    simp only [escape, List.mem_cons, List.mem_append, List.mem_flatMap, List.not_mem_nil, or_false] at hb
    rcases hb with rfl | ⟨c, -, hb⟩ | rfl
    · decide
    · exact (hone c).1 b hb
    · decide
  · rw [escape, List.flatMap_def]
  · intro p hpm
    obtain ⟨c, -, rfl⟩ := List.mem_map.mp hpm
    exact (hone c).2

example : escape [] [127, 65, 34] = [34, 92, 120, 55, 70, 65, 92, 34, 34] := by decide +kernel

end Props
