import Verif.Lemmas.TextUtil
import Verif.Props.Split
/- C76: small functions on text. -/
namespace Props
open Wv Wv.TextUtil Spec.TextUtil

/-- C76: `strreplace` replaces every occurrence of a text that is not empty, from the left. -/
theorem C76_replace (s a b : List Byte) (ha : a ≠ []) : ∃ t, strreplace (s.length + 1) s a b = some t ∧ Replaced a b s t := by
  obtain ⟨t, h1, h2⟩ := replaceLoop_spec a b ha (s.length + 1) s [] (by omega)
  exact ⟨t, by simpa [strreplace] using h1, h2⟩

example : strreplace 10 (str ['a', 'a', 'a', 'b']) (str ['a', 'a']) (str ['x']) = some (str ['x', 'a', 'b']) := by decide +kernel

/-- C76: to replace a text by itself changes nothing. -/
theorem C76_replace_same (s a : List Byte) (ha : a ≠ []) : strreplace (s.length + 1) s a a = some s := by
  obtain ⟨t, h1, pieces, last, h2, h3, -⟩ := C76_replace s a a ha
  rw [h1, h2, h3]

/-- C76 fails for an empty text: the loop never ends. -/
theorem C76_replace_empty_fails (s b : List Byte) (n : Nat) : strreplace n s [] b = none := by
  have : ∀ (n : Nat) (s buf : List Byte), replaceLoop [] b n s buf = none := by
    intro n
    induction n with
    | zero => intro s buf; rfl
    | succ n ih =>
      intro s buf
      rw [replaceLoop]
      have hs : strstr [] s = some 0 := by cases s <;> rfl
      rw [hs]
      exact ih _ _
  exact this n s []

/-- C76: `undupe` leaves the first of several `c` in a row. -/
theorem C76_undupe (s : List Byte) (c : Byte) : undupe s c = once c s := undupe_once c s none

example : undupe (str ['a', '/', '/', 'b', '/', '/', '/']) (ch '/') = str ['a', '/', 'b', '/'] := by decide +kernel

/-- C76: `beforestr` and `afterstr` give what is before and after the first occurrence; or everything and nothing, if there is none. -/
theorem C76_around (line a : List Byte) (hl : line ≠ []) (ha : a ≠ []) :
    (∃ pre post, line = pre ++ a ++ post ∧ First pre a ∧ beforestr (some line) (some a) = some pre ∧ afterstr (some line) (some a) = some post) ∨
    (¬ a <:+: line ∧ beforestr (some line) (some a) = some line ∧ afterstr (some line) (some a) = some []) := by
  have h1 : (line.isEmpty || a.isEmpty) = false := by simp [hl, ha]
  unfold beforestr afterstr
  simp only [h1, Bool.false_eq_true, if_false]
  cases hs : strstr a line with
  | none => exact Or.inr ⟨strstr_none a line hs, rfl, rfl⟩
  | some k =>
    obtain ⟨q1, q2, -⟩ := strstr_some a line k hs
    exact Or.inl ⟨line.take k, line.drop (k + a.length), q1, q2 ha, rfl, rfl⟩

example : beforestr (some (str ['k', '=', 'v', '='])) (some (str ['='])) = some (str ['k']) ∧
    afterstr (some (str ['k', '=', 'v', '='])) (some (str ['='])) = some (str ['v', '=']) := by decide +kernel

/-- C76 fails for an empty line, in which nothing is found: the result of `beforestr` should be that line, and that of `afterstr` should be "". -/
theorem C76_around_empty_fails (a : List Byte) : beforestr (some []) (some a) = none ∧ afterstr (some []) (some a) = none := ⟨rfl, rfl⟩

/-- C76: `substr` gives `len` characters from `pos` on, or less where the line ends; for a line that is not empty and `pos + len` that fits. -/
theorem C76_substr_partial (line : List Byte) (pos len : Nat) (hl : line ≠ []) (h64 : line.length < 2 ^ 64) (h : pos + len < 2 ^ 32) :
    substr line pos len = some ((line.drop pos).take len) := by
  have hpos := List.length_pos_iff.2 hl
  unfold substr
  have hm : (line.length + (2 ^ 64 - 1)) % 2 ^ 64 = line.length - 1 := by
    rw [show line.length + (2 ^ 64 - 1) = (line.length - 1) + 2 ^ 64 from by omega, Nat.add_mod_right, Nat.mod_eq_of_lt (by omega)]
  rw [hm, Nat.mod_eq_of_lt h]
  dsimp only
  by_cases h1 : pos > line.length - 1
  · rw [if_pos h1, List.drop_of_length_le (by omega)]; simp
  · rw [if_neg h1, if_neg (by omega)]
    by_cases h2 : pos + len < line.length
    · rw [if_pos h2, if_pos (by rw [List.length_drop]; omega)]
    · rw [if_neg h2, List.take_of_length_le (by rw [List.length_drop]; omega)]

example : substr (str ['a', 'b', 'c', 'd']) 1 2 = some (str ['b', 'c']) ∧ substr (str ['a', 'b']) 7 1 = some [] := by decide +kernel

/-- C76 fails: an empty line is read after its end, and a length that is large makes it write outside the string. -/
theorem C76_substr_fails : substr [] 1 1 = none ∧ substr (str ['a', 'b', 'c']) 1 (2 ^ 32 - 1) = none := by decide +kernel

/-- C76: `spacecat` puts one separator between two texts; if asked, it is the only one there. -/
theorem C76_spacecat_partial (a b : List Byte) (sep : Byte) :
    spacecat a b sep false = some (a ++ [sep] ++ b) ∧
    ((a = [] ∨ ∃ c ∈ a, c ≠ sep) → ∃ a' b' i j, a = a' ++ List.replicate i sep ∧ b = List.replicate j sep ++ b' ∧
      a'.getLast? ≠ some sep ∧ b'.head? ≠ some sep ∧ spacecat a b sep true = some (a' ++ [sep] ++ b')) := by
  refine ⟨by simp [spacecat], fun ha => ?_⟩
  have hb : ∃ b' j, b = List.replicate j sep ++ b' ∧ b'.head? ≠ some sep ∧ b.dropWhile (· == sep) = b' := by
    clear ha
    induction b with
    | nil => exact ⟨[], 0, rfl, by simp, rfl⟩
    | cons c r ih =>
      by_cases hc : c = sep
      · subst hc
        obtain ⟨b', j, h1, h2, h3⟩ := ih
        refine ⟨b', j + 1, ?_, h2, ?_⟩
        · rw [List.replicate_succ, List.cons_append, ← h1]
        · rw [List.dropWhile_cons, if_pos (by simp), h3]
      · exact ⟨c :: r, 0, rfl, by simp [hc], by rw [List.dropWhile_cons, if_neg (by simpa using hc)]⟩
  obtain ⟨b', j, q1, q2, q3⟩ := hb
  have hback : ∀ l : List Byte, (∃ c ∈ l, c ≠ sep) → ∃ l' i, l = List.replicate i sep ++ l' ∧ l'.head? ≠ some sep ∧ eatBack sep l = some l' := by
    intro l
    induction l with
    | nil => intro ⟨c, hc, _⟩; cases hc
    | cons c r ih =>
      intro ⟨d, hd, hn⟩
      rw [eatBack]
      by_cases hc : c = sep
      · subst hc
        obtain ⟨l', i, h1, h2, h3⟩ := ih ⟨d, (by rcases List.mem_cons.1 hd with e | e; exact absurd e hn; exact e), hn⟩
        refine ⟨l', i + 1, ?_, h2, ?_⟩
        · rw [List.replicate_succ, List.cons_append, ← h1]
        · rw [if_pos (by simp), h3]
      · exact ⟨c :: r, 0, rfl, by simp [hc], by rw [if_neg (by simpa using hc)]⟩
  unfold spacecat
  rcases ha with ha | ⟨c, hc, hn⟩
  · subst ha
    exact ⟨[], b', 0, j, rfl, q1, by simp, q2, by simp [q3]⟩
  · obtain ⟨l', i, h1, h2, h3⟩ := hback a.reverse ⟨c, by simpa using hc, hn⟩
    have hne : a.isEmpty = false := by cases a with
      | nil => cases hc
      | cons x l => rfl
    refine ⟨l'.reverse, b', i, j, ?_, q1, by simpa using h2, q2, ?_⟩
    · have := congrArg List.reverse h1
      rw [List.reverse_reverse] at this
      rw [this]; simp
    · rw [hne, h3]; simp [q3]

example : spacecat (str ['x', 'x', ';', ';']) (str [';', 'y']) (ch ';') true = some (str ['x', 'x', ';', 'y']) := by decide +kernel

/-- C76 fails: if the first text has only separators, it is read before its beginning. -/
theorem C76_spacecat_fails (a b : List Byte) (sep : Byte) (ha : a ≠ []) (h : ∀ c ∈ a, c = sep) : spacecat a b sep true = none := by
  have : ∀ l : List Byte, (∀ c ∈ l, c = sep) → eatBack sep l = none := by
    intro l
    induction l with
    | nil => intro _; rfl
    | cons c r ih => intro hc; rw [eatBack, if_pos (by simp [hc c]), ih (fun d hd => hc d (by simp [hd]))]
  have hne : a.isEmpty = false := by simpa using ha
  unfold spacecat
  rw [hne, this a.reverse (fun c hc => h c (by simpa using hc))]
  rfl

example : spacecat [ch ';'] (str ['y']) (ch ';') true = none := by decide +kernel

/-- C76: a path that has something other than slashes is a directory, a name and slashes at the end. -/
theorem C76_path (s : List Byte) (h : ∃ c ∈ s, c ≠ ch '/') :
    ∃ d f k, s = d ++ f ++ List.replicate k (ch '/') ∧ f ≠ [] ∧ ch '/' ∉ f ∧ getfilename s = f ∧
      ((d = [] ∧ getdirname s = str ['.']) ∨ ∃ d', d = d' ++ [ch '/'] ∧ getdirname s = if d' = [] then str ['/'] else d') :=
  names (s.length + 1) s (by omega) h

example : getdirname (str ['/', 'a', '/', 'b', '/', '/']) = str ['/', 'a'] ∧ getfilename (str ['/', 'a', '/', 'b', '/', '/']) = str ['b'] ∧
    getdirname (str ['/', 'a']) = str ['/'] ∧ getdirname (str ['a']) = str ['.'] := by decide +kernel

/-- C76 fails for the root, whose directory is the root: it is "". -/
theorem C76_path_root_fails (k : Nat) : getdirname (List.replicate k (ch '/')) = [] ∧ getfilename (List.replicate k (ch '/')) = [] := by
  obtain ⟨h1, h2⟩ := names_slashes ((List.replicate k (ch '/')).length + 1) k (by simp)
  exact ⟨h2, h1⟩

/-- C76: one mark at the end of a line is removed. -/
theorem C76_depunctuate_partial (l : List Byte) (c : Byte) :
    depunctuate (l ++ [c]) = some (if c = ch '.' ∨ c = ch '?' ∨ c = ch '!' then l else l ++ [c]) := by
  unfold depunctuate
  rw [List.getLast?_append, List.getLast?_singleton]
  simp only [Option.some_or, List.dropLast_concat]
  congr 1
  by_cases h : c = ch '.' ∨ c = ch '?' ∨ c = ch '!'
  · rw [if_pos h, if_pos (by simpa [or_assoc] using h)]
  · rw [if_neg h, if_neg (by simpa [or_assoc] using h)]

/-- C76 fails: others remain before it, and an empty line is read before its beginning. -/
theorem C76_depunctuate_fails : depunctuate (str ['a', '!', '!']) = some (str ['a', '!']) ∧ depunctuate [] = none := by decide +kernel

/-- C76: every character that is not a letter or a digit gets a backslash; the result fits, and the text can be had back. -/
theorem C76_backslash (s : List Byte) :
    backslashEscape s = s.flatMap (fun c => if isalnum c then [c] else [ch '\\', c]) ∧ (backslashEscape s).length + 1 ≤ s.length * 2 + 1 + 1 ∧
    ∀ s', backslashEscape s' = backslashEscape s → s' = s := by
  refine ⟨?_, ?_, ?_⟩
  · induction s with
    | nil => rfl
    | cons c r ih =>
      rw [backslashEscape, ih, List.flatMap_cons]
      cases isalnum c <;> simp
  · induction s with
    | nil => simp [backslashEscape]
    | cons c r ih =>
      rw [backslashEscape, List.length_append, List.length_append, List.length_cons]
      split <;> simp <;> omega
  · have hb : isalnum (ch '\\') = false := by decide +kernel
    induction s with
    | nil =>
      intro s' h
      cases s' with
      | nil => rfl
      | cons c r => simp [backslashEscape] at h
    | cons c r ih =>
      intro s' h
      cases s' with
      | nil => simp [backslashEscape] at h
      | cons c' r' =>
        rw [backslashEscape, backslashEscape] at h
        cases h1 : isalnum c <;> cases h2 : isalnum c' <;> simp only [h1, h2, Bool.not_true, Bool.not_false, if_true, if_false, Bool.false_eq_true,
          List.nil_append, List.cons_append, List.cons.injEq, true_and] at h
        · rw [h.1, ih r' h.2]
        · exfalso; rw [h.1] at h2; rw [hb] at h2; cases h2
        · exfalso; rw [← h.1] at h1; rw [hb] at h1; cases h1
        · rw [h.1, ih r' h.2]

example : backslashEscape (str ['a', ' ', '$']) = str ['a', '\\', ' ', '\\', '$'] := by decide +kernel

/-- C76: `strcount` counts. -/
theorem C76_strcount_partial (s : List Byte) (c : Byte) (hc : c ≠ 0) : strcount s c = some (s.count c) := by
  unfold strcount
  rw [if_neg hc]
  have : ∀ (s : List Byte) (n : Nat), s.foldl (fun n x => if x == c then n + 1 else n) n = n + s.count c := by
    intro s
    induction s with
    | nil => intro n; rfl
    | cons x r ih =>
      intro n
      rw [List.foldl_cons, ih, List.count_cons]
      split <;> omega
  rw [this, Nat.zero_add]

/-- C76 fails for NUL: what is after the string is read. -/
theorem C76_strcount_fails (s : List Byte) : strcount s 0 = none := rfl

/-- C76: `lookup` gives the first index of a string that is the same, with letters of either case if asked, or -1. -/
theorem C76_lookup (s : List Byte) (table : List (List Byte)) (caseSensitive : Bool) :
    let same : List Byte → Prop := fun t => if caseSensitive then t = s else t.map tolower = s.map tolower
    (∃ i t, lookup s table caseSensitive = (i : Nat) ∧ table[i]? = some t ∧ same t ∧ ∀ j u, j < i → table[j]? = some u → ¬ same u) ∨
    (lookup s table caseSensitive = -1 ∧ ∀ t ∈ table, ¬ same t) := by
  dsimp only
  have : ∀ (table : List (List Byte)) (k : Nat),
      (∃ i t, lookupLoop s caseSensitive k table = ((k + i : Nat) : Int) ∧ table[i]? = some t ∧ (if caseSensitive then t = s else t.map tolower = s.map tolower) ∧
        ∀ j u, j < i → table[j]? = some u → ¬ (if caseSensitive then u = s else u.map tolower = s.map tolower)) ∨
      (lookupLoop s caseSensitive k table = -1 ∧ ∀ t ∈ table, ¬ (if caseSensitive then t = s else t.map tolower = s.map tolower)) := by
    intro table
    induction table with
    | nil => intro k; exact Or.inr ⟨rfl, by simp⟩
    | cons t table ih =>
      intro k
      rw [lookupLoop]
      have hsame : (if caseSensitive then s == t else s.map tolower == t.map tolower) = true ↔ (if caseSensitive then t = s else t.map tolower = s.map tolower) := by
        cases caseSensitive
        · simp only [Bool.false_eq_true, if_false, beq_iff_eq]; exact eq_comm
        · simp only [if_true, beq_iff_eq]; exact eq_comm
      by_cases h : (if caseSensitive then t = s else t.map tolower = s.map tolower)
      · rw [if_pos (hsame.2 h)]
        exact Or.inl ⟨0, t, rfl, rfl, h, fun j u hj => by omega⟩
      · rw [if_neg (fun hh => h (hsame.1 hh))]
        rcases ih (k + 1) with ⟨i, u, h1, h2, h3, h4⟩ | ⟨h1, h2⟩
        · refine Or.inl ⟨i + 1, u, by rw [h1]; congr 1; omega, by simpa using h2, h3, ?_⟩
          intro j v hj hv
          cases j with
          | zero => simp at hv; rw [← hv]; exact h
          | succ j => exact h4 j v (by omega) (by simpa using hv)
        · refine Or.inr ⟨h1, ?_⟩
          intro v hv
          rcases List.mem_cons.1 hv with e | e
          · rw [e]; exact h
          · exact h2 v e
  rcases this table 0 with ⟨i, t, h1, h2⟩ | h
  · exact Or.inl ⟨i, t, by unfold lookup; rw [h1, Nat.zero_add], h2⟩
  · exact Or.inr h

example : lookup (str ['B']) [str ['a'], str ['b'], str ['B']] false = 1 ∧ lookup (str ['B']) [str ['a'], str ['b'], str ['B']] true = 2 := by decide +kernel

/-- C76: `terminate_string` replaces the line ends at the end by a character; `trim_string(s, c)` cuts the text before the first `c`; `snip_string`
    removes a beginning; `strlwr`, `strupr`, `is_word` and `non_breaking` treat each character; `replace_char` treats the first `n`. -/
theorem C76_in_place (s needle : List Byte) (c c1 c2 : Byte) (n : Nat) :
    (∃ body eol, s = body ++ eol ∧ (∀ x ∈ eol, x = 13 ∨ x = 10) ∧ (∀ x, body.getLast? = some x → x ≠ 13 ∧ x ≠ 10) ∧ terminate s c = body ++ [c]) ∧
    (∃ rest, s = trimAt c s ++ rest ∧ c ∉ trimAt c s ∧ (rest = [] ∨ rest.head? = some c)) ∧
    (needle <+: s → s = needle ++ snip s needle) ∧ (¬ needle <+: s → snip s needle = s) ∧
    strlwr s = s.map tolower ∧ strupr s = s.map toupper ∧ isWord s = s.all isalnum ∧
    nonBreaking s = s.flatMap (fun x => if isspace x then str ['&', 'n', 'b', 's', 'p', ';'] else [x]) ∧
    replaceChar c1 c2 n s = (s.take n).map (fun x => if x = c1 then c2 else x) ++ s.drop n := by
  refine ⟨?_, ?_, ?_, ?_, ?_, ?_, ?_, ?_, ?_⟩
  · refine ⟨(s.reverse.dropWhile fun x => x == 13 || x == 10).reverse, (s.reverse.takeWhile fun x => x == 13 || x == 10).reverse, ?_, ?_, ?_, rfl⟩
    · rw [← List.reverse_append, List.takeWhile_append_dropWhile, List.reverse_reverse]
    · intro x hx
      rw [List.mem_reverse] at hx
      have := List.all_eq_true.1 (List.all_takeWhile (l := s.reverse) (p := fun x => x == 13 || x == 10)) x hx
      simpa using this
    · intro x hx
      rw [List.getLast?_reverse] at hx
      have := List.head?_dropWhile_not (fun x : Byte => x == 13 || x == 10) s.reverse
      rw [hx] at this
      simpa using this
  · induction s with
    | nil => exact ⟨[], rfl, by simp [trimAt], Or.inl rfl⟩
    | cons x r ih =>
      obtain ⟨rest, h1, h2, h3⟩ := ih
      rw [trimAt]
      by_cases hx : x = c
      · rw [if_neg (by simp [hx])]
        exact ⟨x :: r, rfl, by simp, Or.inr (by simp [hx])⟩
      · rw [if_pos (by simpa using hx)]
        exact ⟨rest, by rw [List.cons_append, ← h1], by simp [h2, Ne.symm hx], h3⟩
  · intro h
    unfold snip
    have : strstr needle s = some 0 := by
      cases s with
      | nil => rw [List.prefix_nil.1 h]; rfl
      | cons x r => rw [strstr, if_pos (List.isPrefixOf_iff_prefix.2 h)]
    rw [this]
    obtain ⟨t, ht⟩ := h
    rw [← ht]; simp
  · intro h
    unfold snip
    cases hs : strstr needle s with
    | none => rfl
    | some k =>
      cases k with
      | zero =>
        exfalso
        apply h
        have := (strstr_some needle s 0 hs).1
        rw [List.take_zero, List.nil_append] at this
        exact ⟨_, this.symm⟩
      | succ k => rfl
  · induction s with
    | nil => rfl
    | cons x r ih => rw [strlwr, ih, List.map_cons]
  · induction s with
    | nil => rfl
    | cons x r ih => rw [strupr, ih, List.map_cons]
  · induction s with
    | nil => rfl
    | cons x r ih =>
      rw [isWord, ih, List.all_cons]
      cases isalnum x <;> rfl
  · induction s with
    | nil => rfl
    | cons x r ih => rw [nonBreaking, ih, List.flatMap_cons]
  · induction s generalizing n with
    | nil => cases n <;> rfl
    | cons x r ih =>
      cases n with
      | zero => rfl
      | succ n => rw [replaceChar, ih]; simp

example : terminate (str ['a', '\r', '\n', '\n']) (ch ';') = str ['a', ';'] ∧ trimAt (ch '#') (str ['a', '#', '#']) = str ['a'] ∧
    snip (str ['a', 'b', 'a']) (str ['a', 'b']) = str ['a'] ∧ replaceChar (ch 'a') (ch 'x') 2 (str ['a', 'b', 'a']) = str ['x', 'b', 'a'] := by decide +kernel

/-- C76: a dump of less than 4 GB has what it should have, and it and the NUL after it fit. -/
theorem C76_hexdump (data : List Byte) (chars : Bool) (h : data.length ≤ 2 ^ 32) :
    hexdump data chars = dump chars data ∧ (hexdump data chars).length + 1 ≤ hexdumpRoom data.length := by
  have h1 : hexdump data chars = dump chars data := by
    have := dumpLoop_spec chars data.length 0 data (by omega) (by omega)
    unfold hexdump dump
    simpa using this
  refine ⟨h1, ?_⟩
  rw [h1]
  unfold dump hexdumpRoom
  have : ∀ n, n ≤ (data.length + 15) / 16 →
      ((List.range n).flatMap fun i => dumpLine chars (16 * i) ((data.drop (16 * i)).take 16)).length ≤ 68 * n := by
    intro n
    induction n with
    | zero => intro _; simp
    | succ n ih =>
      intro hn
      rw [List.range_succ, List.flatMap_append, List.length_append, List.flatMap_singleton]
      have := ih (by omega)
      have hl := line_len ((data.drop (16 * n)).take 16) (by rw [List.length_take]; omega)
        (by intro e
            have := congrArg List.length e
            rw [List.length_take, List.length_drop, List.length_nil] at this
            omega) chars (16 * n) (by omega)
      omega
  have := this _ (Nat.le_refl _)
  omega

example : hexdump (str ['H', 'e', 'l', 'l', 'o'] ++ [10]) true =
    str ['[', '0', '0', '0', ']', ' ', '4', '8', '6', '5', '6', 'C', '6', 'C', ' ', '6', 'F', '0', 'A'] ++ List.replicate 23 32 ++
      str [' ', 'H', 'e', 'l', 'l', ' ', 'o', '.', '\n'] := by decide +kernel

/-- C76: a host name that is made nice is, one that was is not changed, and the result and its NUL fit into the string that was made for them. -/
theorem C76_hostname (name : List Byte) :
    Nice (niceHostname name) ∧ (Nice name → niceHostname name = name) ∧ (niceHostname name).length + 1 ≤ name.length + 2 + 1 := by
  have hx : isalnum (ch 'x') = true := by decide +kernel
  have hxd : ch 'x' ≠ ch '-' := by decide
  have hasc : ∀ x : Byte, isalnum x = true → x < 128 := by apply forall_byte; decide +kernel
  have first : ∀ (out : List Byte), (∃ c, out.head? = some c ∧ isalnum c = true) → (∀ c ∈ out, isalnum c = true ∨ c = ch '-' ∨ c = ch '.') →
      ¬ [ch '-', ch '-'] <:+: out →
      Nice (niceEnd out) := by
    intro out ⟨c, h1, h1'⟩ h2 h3
    unfold niceEnd
    cases hl : out.getLast? with
    | none => rw [List.getLast?_eq_none_iff.1 hl] at h1; cases h1
    | some d =>
      dsimp only
      cases hd : isalnum d
      · refine ⟨⟨c, ?_, h1'⟩, ⟨ch 'x', by simp, hx⟩, ?_, ?_⟩
        · simp only [Bool.not_false, if_true, List.head?_append, h1, Option.some_or]
        · intro e he
          rcases List.mem_append.1 he with he | he
          · exact h2 e he
          · simp at he; rw [he]; exact Or.inl hx
        · simp only [Bool.not_false, if_true]
          intro hi
          have hr := List.reverse_infix.2 hi
          rw [List.reverse_append] at hr
          rcases List.infix_cons_iff.1 hr with h | h
          · obtain ⟨t, ht⟩ := h
            simp only [List.reverse_cons, List.reverse_nil, List.nil_append, List.cons_append, List.cons.injEq] at ht
            exact hxd ht.1.symm
          · exact h3 (List.reverse_infix.1 h)
      · exact ⟨⟨c, h1, h1'⟩, ⟨d, hl, hd⟩, h2, h3⟩
  have key : Nice (niceHostname name) ∧ (Nice name → niceHostname name = name) := by
    unfold niceHostname
    dsimp only
    have hnice := nice_mem false name
    have hdash := (nice_dash false name).2
    cases name with
    | nil => exact ⟨by refine ⟨⟨ch 'x', by decide +kernel, hx⟩, ⟨ch 'x', by decide +kernel, hx⟩, by decide +kernel, by decide +kernel⟩, fun h => by
        obtain ⟨⟨c, h, -⟩, -⟩ := h; cases h⟩
    | cons x r =>
      rcases (Bool.eq_false_or_eq_true (isalnum x)).symm with hxa | hxa
      · have hpf : (if (!decide ((x :: r).headD 0 < 128) || !isalnum ((x :: r).headD 0)) = true then [ch 'x'] else []) = [ch 'x'] := by rw [if_pos (by simp [hxa])]
        rw [hpf]
        have hN := first ([ch 'x'] ++ niceLoop false (x :: r)) ⟨ch 'x', rfl, hx⟩ (by
          intro c hc
          rcases List.mem_append.1 hc with hc | hc
          · simp at hc; rw [hc]; exact Or.inl hx
          · exact hnice c hc) (by
          intro hi
          rcases List.infix_cons_iff.1 hi with h | h
          · obtain ⟨t, ht⟩ := h
            simp only [List.cons_append, List.cons.injEq] at ht
            exact hxd ht.1.symm
          · exact hdash h)
        have hne : ∀ t : List Byte, Nice t → t.isEmpty = false := by
          intro t ⟨⟨c, h, _⟩, _⟩
          cases t with
          | nil => cases h
          | cons a l => rfl
        rw [hne _ hN]
        exact ⟨hN, fun ⟨⟨c, h, h'⟩, _⟩ => by simp at h; rw [← h, hxa] at h'; cases h'⟩
      · have hx128 := hasc x hxa
        have hstep : niceLoop false (x :: r) = x :: niceLoop false r := by
          rw [niceLoop, if_neg (by simpa using hx128), if_neg, if_pos (by simp [hxa])]
          intro h
          have : ∀ y : Byte, isalnum y = true → (y == ch '-' || y == ch '_') = false := by apply forall_byte; decide +kernel
          rw [this x hxa] at h; cases h
        have hpf : (if (!decide ((x :: r).headD 0 < 128) || !isalnum ((x :: r).headD 0)) = true then [ch 'x'] else []) = [] := by rw [if_neg (by simp [hxa, hx128])]
        rw [hpf, List.nil_append]
        have hN := first (niceLoop false (x :: r)) ⟨x, by rw [hstep]; rfl, hxa⟩ hnice hdash
        have hne : ∀ t : List Byte, Nice t → t.isEmpty = false := by
          intro t ⟨⟨c, h, _⟩, _⟩
          cases t with
          | nil => cases h
          | cons a l => rfl
        rw [hne _ hN]
        refine ⟨hN, fun ⟨_, ⟨d, hd, hd'⟩, h2, h3⟩ => ?_⟩
        rw [nice_id false (x :: r) h2 h3 (fun h => by cases h)]
        unfold niceEnd
        rw [hd]
        simp [hd']
  refine ⟨key.1, key.2, ?_⟩
  unfold niceHostname
  dsimp only
  have hl := nice_len false name
  have hpre : ∀ (p : Bool), ((if p then [ch 'x'] else []) ++ niceLoop false name).length ≤ name.length + 1 := by
    intro p; cases p <;> simp <;> omega
  have hnn : ((if (!decide (name.headD 0 < 128) || !isalnum (name.headD 0)) = true then [ch 'x'] else []) ++ niceLoop false name) ≠ [] := by
    cases name with
    | nil => decide +kernel
    | cons x r =>
      rcases (Bool.eq_false_or_eq_true (isalnum x)).symm with hxa | hxa
      · simp [hxa]
      · have hx128 := hasc x hxa
        have : ∀ y : Byte, isalnum y = true → (y == ch '-' || y == ch '_') = false := by apply forall_byte; decide +kernel
        have hstep : niceLoop false (x :: r) = x :: niceLoop false r := by
          rw [niceLoop, if_neg (by simpa using hx128), if_neg (by rw [this x hxa]; simp), if_pos (by simp [hxa])]
        rw [hstep]
        simp
  generalize hout : ((if (!decide (name.headD 0 < 128) || !isalnum (name.headD 0)) = true then [ch 'x'] else []) ++ niceLoop false name) = out at *
  have hle : out.length ≤ name.length + 1 := by rw [← hout]; exact hpre _
  unfold niceEnd
  cases hg : out.getLast? with
  | none => exact absurd (List.getLast?_eq_none_iff.1 hg) hnn
  | some c =>
    dsimp only
    have h1 : (if (!isalnum c) = true then out ++ [ch 'x'] else out).isEmpty = false := by
      split
      · simp
      · simpa using hnn
    rw [h1]
    simp only [Bool.false_eq_true, if_false]
    split
    · simp; omega
    · omega

/-- C76: it has the characters of the name that it may have, and an x where one is needed. -/
theorem C76_hostname_text (name : List Byte) :
    ∃ a b, niceHostname name = a ++ hostChars name ++ b ∧
      a = (if ∃ c, name.head? = some c ∧ isalnum c = true then [] else [ch 'x']) ∧
      b = (if ∃ c, (a ++ hostChars name).getLast? = some c ∧ isalnum c = true then [] else [ch 'x']) := by
  have hasc : ∀ x : Byte, isalnum x = true → x < 128 := by apply forall_byte; decide +kernel
  have hcore : niceLoop false name = hostChars name := by rw [nice_undupe]; exact undupe_once _ _ none
  have ha : (if (!decide (name.headD 0 < 128) || !isalnum (name.headD 0)) = true then [ch 'x'] else []) =
      (if ∃ c, name.head? = some c ∧ isalnum c = true then [] else [ch 'x']) := by
    cases name with
    | nil => decide +kernel
    | cons x r =>
      rcases (Bool.eq_false_or_eq_true (isalnum x)).symm with h | h
      · rw [if_pos (by simp [h]), if_neg (by simp [h])]
      · rw [if_neg (by simp [h, hasc x h]), if_pos ⟨x, rfl, h⟩]
  have hN := (C76_hostname name).1
  unfold niceHostname at hN ⊢
  dsimp only at hN ⊢
  rw [ha, hcore] at hN ⊢
  generalize hd : (if ∃ c, name.head? = some c ∧ isalnum c = true then [] else [ch 'x']) = a at *
  refine ⟨a, _, ?_, rfl, rfl⟩
  have hne : a ++ hostChars name ≠ [] := by
    intro e
    have e1 := List.append_eq_nil_iff.1 e
    rw [← hd] at e1
    split at e1
    · rename_i hc
      obtain ⟨c, hc1, hc2⟩ := hc
      cases name with
      | nil => cases hc1
      | cons x r =>
        simp at hc1; subst hc1
        rw [← hcore, niceLoop, if_neg (by simp [hasc x hc2])] at e1
        have : ∀ y : Byte, isalnum y = true → (y == ch '-' || y == ch '_') = false := by apply forall_byte; decide +kernel
        rw [if_neg (by rw [this x hc2]; simp), if_pos (by simp [hc2])] at e1
        cases e1.2
    · cases e1.1
  have hend : niceEnd (a ++ hostChars name) = a ++ hostChars name ++
      (if ∃ c, (a ++ hostChars name).getLast? = some c ∧ isalnum c = true then [] else [ch 'x']) := by
    unfold niceEnd
    cases hl : (a ++ hostChars name).getLast? with
    | none => exact absurd (List.getLast?_eq_none_iff.1 hl) hne
    | some c =>
      dsimp only
      rcases (Bool.eq_false_or_eq_true (isalnum c)).symm with h | h
      · rw [if_pos (by simp [h]), if_neg (by simp [h])]
      · rw [if_neg (by simp [h]), if_pos ⟨c, rfl, h⟩, List.append_nil]
  rw [← hend]
  have hne' : niceEnd (a ++ hostChars name) ≠ [] := by
    rw [hend]
    intro e
    exact hne (List.append_eq_nil_iff.1 e).1
  rw [if_neg (by simpa using hne')]

example : niceHostname (str ['E', '\\', '/', '1', '|', '_', '.', '1']) = str ['E', '1', '-', '.', '1'] ∧ niceHostname (str ['_', '-']) = str ['x', '-', 'x'] := by
  decide +kernel

/-- C76: the distinguished name of a host. -/
theorem C76_distinguished (labels : List (List Byte)) (hne : labels ≠ []) (h : ∀ l ∈ labels, l ≠ [] ∧ ch '.' ∉ l) :
    encodeDN (Spec.Split.join [ch '.'] labels) =
      labels.flatMap (fun l => str ['d', 'c', '='] ++ l ++ str [',']) ++ str ['c', 'n', '='] ++ Spec.Split.join [ch '.'] labels := by
  have hp : Spec.Split.pieces [ch '.'].contains (Spec.Split.join [ch '.'] labels) = labels := by
    have h1 := C35_splitstrict_join [ch '.'] (ch '.') (by simp) labels hne (fun s hs c hc => by
      simp; intro e; subst e; exact (h s hs).2 hc)
    rw [C35_splitstrict_pieces _ _ 0 (Int.le_refl 0), C35_join_spec] at h1
    exact h1
  have hw : Spec.Split.words [ch '.'].contains (Spec.Split.join [ch '.'] labels) = labels := by
    unfold Spec.Split.words
    rw [hp, List.filter_eq_self.2]
    intro l hl
    simpa using (h l hl).1
  have hhead : (Spec.Split.join [ch '.'] labels).head?.all [ch '.'].contains = false ∧
      (Spec.Split.join [ch '.'] labels).getLast?.any [ch '.'].contains = false := by
    clear hp hw
    induction labels with
    | nil => contradiction
    | cons l ls ih =>
      obtain ⟨hl1, hl2⟩ := h l (by simp)
      have hhd : ∀ t : List Byte, (l ++ t).head?.all [ch '.'].contains = false := by
        intro t
        cases l with
        | nil => contradiction
        | cons x r =>
          simp at hl2 ⊢
          exact fun e => hl2.1 e.symm
      cases ls with
      | nil =>
        refine ⟨by simpa [Spec.Split.join] using hhd [], ?_⟩
        rw [Spec.Split.join]
        cases hg : l.getLast? with
        | none => rfl
        | some c =>
          have := List.mem_of_getLast? hg
          simp
          intro e; subst e; exact hl2 this
      | cons l' ls =>
        have hi := ih (by simp) (fun m hm => h m (by simp [hm]))
        rw [Spec.Split.join]
        · refine ⟨hhd _, ?_⟩
          have hnn : Spec.Split.join [ch '.'] (l' :: ls) ≠ [] := by
            intro e; rw [e] at hi; simp at hi
          rw [← List.append_assoc, List.getLast?_append]
          cases hg : (Spec.Split.join [ch '.'] (l' :: ls)).getLast? with
          | none => exact absurd (List.getLast?_eq_none_iff.1 hg) hnn
          | some c => rw [hg] at hi; simpa using hi.2
        · simp
  have hs := C35_split_words [ch '.'] (Spec.Split.join [ch '.'] labels)
  rw [hhead.1, hhead.2, hw] at hs
  simp only [Bool.false_eq_true, if_false, List.nil_append, List.append_nil] at hs
  unfold encodeDN
  rw [hs]
  have hf : ∀ (l : List (List Byte)) (acc : List Byte), l.foldl (fun dn x => dn ++ (str ['d', 'c', '='] ++ x ++ str [','])) acc =
      acc ++ l.flatMap (fun l => str ['d', 'c', '='] ++ l ++ str [',']) := by
    intro l
    induction l with
    | nil => intro acc; simp
    | cons x r ih => intro acc; rw [List.foldl_cons, ih, List.flatMap_cons, List.append_assoc]
  rw [hf, List.nil_append, List.append_assoc]

example : encodeDN (str ['w', '.', 'c']) = str ['d', 'c', '=', 'w', ',', 'd', 'c', '=', 'c', ',', 'c', 'n', '=', 'w', '.', 'c'] := by decide +kernel

end Props
