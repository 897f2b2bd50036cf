import Verif.Model.Tokens
/- C114: the words of a line. -/
namespace Props
open Wv Wv.Tokens Spec.Tokens

namespace TokP

theorem mem_ws (b : Byte) (h : b ≠ 0) : b ∈ whitespace ↔ blank b := by
  simp [whitespace, blank, h]

theorem match_true (t : Text) (n : Nat) (h : ∀ b ∈ t, b ∉ whitespace) (r : Text) (hr : ∀ b rest, r = b :: rest → b ∈ whitespace) :
    matchLoop whitespace true (t ++ r) n = n + t.length := by
  induction t generalizing n with
  | nil =>
    cases r with
    | nil => rfl
    | cons b r => simp [matchLoop, hr b r rfl]
  | cons b t ih =>
    have hb := h b (by simp)
    simp only [List.cons_append, matchLoop]
    rw [if_neg (by simp [hb]), ih (n + 1) (fun x hx => h x (by simp [hx]))]
    simp; omega

theorem match_false (g : Text) (n : Nat) (h : ∀ b ∈ g, b ∈ whitespace) (b : Byte) (r : Text) (hb : b ∉ whitespace) :
    matchLoop whitespace false (g ++ b :: r) n = n + g.length := by
  induction g generalizing n with
  | nil => simp [matchLoop, hb]
  | cons x g ih =>
    have hx := h x (by simp)
    simp only [List.cons_append, matchLoop]
    rw [if_neg (by simp [hx]), ih (n + 1) (fun y hy => h y (by simp [hy]))]
    simp; omega

theorem match_all (g : Text) (n : Nat) (h : ∀ b ∈ g, b ∈ whitespace) : matchLoop whitespace false g n = 0 := by
  induction g generalizing n with
  | nil => rfl
  | cons x g ih =>
    have hx := h x (by simp)
    simp only [matchLoop]
    rw [if_neg (by simp [hx]), ih (n + 1) (fun y hy => h y (by simp [hy]))]

theorem next_gap (g : Text) (hg : Gap g) : nextToken g = (none, g) := by
  have h : ∀ b ∈ g, b ∈ whitespace := fun b hb => by
    have := hg b hb
    unfold blank at this
    simp only [whitespace, List.mem_cons]
    rcases this with e | e | e | e <;> simp [e]
  unfold nextToken
  dsimp only
  rw [match_all g 0 h, List.drop_zero]
  have : matchLoop whitespace true g 0 = 0 := by
    cases g with
    | nil => rfl
    | cons b g => simp [matchLoop, h b (by simp)]
  rw [this, if_pos rfl]

theorem next_word (g w r : Text) (hg : Gap g) (hw : Word w) (hc : CString w) (hr : ∀ b rest, r = b :: rest → blank b) :
    nextToken (g ++ w ++ r) = (some w, r) := by
  have inws : ∀ b, blank b → b ∈ whitespace := fun b hb => by
    unfold blank at hb
    simp only [whitespace, List.mem_cons]
    rcases hb with e | e | e | e <;> simp [e]
  obtain ⟨x, w', rfl⟩ : ∃ x w', w = x :: w' := by
    cases w with
    | nil => exact absurd rfl hw.1
    | cons x w' => exact ⟨x, w', rfl⟩
  have hx : x ∉ whitespace := fun h => hw.2 x (by simp) ((mem_ws x (hc x (by simp))).1 h)
  unfold nextToken
  dsimp only
  have e1 : g ++ (x :: w') ++ r = g ++ x :: (w' ++ r) := by simp
  have m1 : matchLoop whitespace false (g ++ (x :: w') ++ r) 0 = g.length := by
    rw [e1, match_false g 0 (fun b hb => inws b (hg b hb)) x (w' ++ r) hx]; simp
  rw [m1, show (g ++ (x :: w') ++ r).drop g.length = (x :: w') ++ r by rw [List.append_assoc, List.drop_left]]
  rw [match_true (x :: w') 0 (fun b hb h => hw.2 b hb ((mem_ws b (hc b hb)).1 h)) r (fun b rest h => inws b (hr b rest h))]
  rw [if_neg (by simp), Nat.zero_add, List.take_left, List.drop_left]

theorem tokens_words (line : Text) (ws : List Text) (h : Words line ws) (hc : CString line) : ∀ n, ws.length < n → tokens n line = ws := by
  induction h with
  | none g hg =>
    intro n hn
    cases n with
    | zero => simp at hn
    | succ n => simp only [tokens]; rw [next_gap g hg]
  | last g w hg hw =>
    intro n hn
    have hcw : CString w := fun b hb => hc b (by simp [hb])
    have := next_word g w [] hg hw hcw (by simp)
    rw [List.append_nil] at this
    cases n with
    | zero => simp at hn
    | succ n =>
      simp only [tokens]
      rw [this]
      dsimp only
      cases n with
      | zero => simp at hn
      | succ n => simp only [tokens]; rw [next_gap [] (by simp [Gap])]
  | more g w b rest ws hg hw hb _ ih =>
    intro n hn
    have hcw : CString w := fun x hx => hc x (by simp [hx])
    have := next_word g w (b :: rest) hg hw hcw (by intro x r hx; cases hx; exact hb)
    cases n with
    | zero => simp at hn
    | succ n =>
      simp only [tokens]
      rw [this]
      dsimp only
      rw [ih (fun x hx => hc x (by simp only [List.mem_append]; exact Or.inr hx)) n (by simp at hn; omega)]

theorem words_len (line : Text) (ws : List Text) (h : Words line ws) : ws.length ≤ line.length := by
  induction h with
  | none g hg => simp
  | last g w hg hw =>
    have : 0 < w.length := List.length_pos_iff.2 hw.1
    simp; omega
  | more g w b rest ws hg hw hb _ ih =>
    have : 0 < w.length := List.length_pos_iff.2 hw.1
    simp at ih ⊢; omega

theorem split_at (p : Byte → Prop) [DecidablePred p] (t : Text) : ∃ a b, t = a ++ b ∧ (∀ x ∈ a, p x) ∧ ∀ x r, b = x :: r → ¬ p x := by
  induction t with
  | nil => exact ⟨[], [], rfl, by simp, by simp⟩
  | cons x t ih =>
    by_cases h : p x
    · obtain ⟨a, b, h1, h2, h3⟩ := ih
      refine ⟨x :: a, b, by rw [h1]; rfl, ?_, h3⟩
      intro y hy
      rcases List.mem_cons.1 hy with e | e
      · rw [e]; exact h
      · exact h2 y e
    · exact ⟨[], x :: t, rfl, by simp, fun y r e => by cases e; exact h⟩

instance : DecidablePred blank := fun b => by unfold blank; infer_instance

theorem exists_words : ∀ (n : Nat) (line : Text), line.length ≤ n → ∃ ws, Words line ws := by
  intro n
  induction n with
  | zero =>
    intro line h
    exact ⟨[], Words.none line (by intro b hb; have := List.length_pos_of_mem hb; omega)⟩
  | succ n ih =>
    intro line h
    obtain ⟨g, r, h1, h2, h3⟩ := split_at blank line
    obtain ⟨w, r', h4, h5, h6⟩ := split_at (fun b => ¬ blank b) r
    subst h1 h4
    cases w with
    | nil =>
      cases r' with
      | nil => exact ⟨[], Words.none _ (by intro b hb; exact h2 b (by simpa using hb))⟩
      | cons x r' => exact absurd (h3 x r' rfl) (h6 x r' rfl)
    | cons x w =>
      have hw : Word (x :: w) := ⟨by simp, h5⟩
      cases r' with
      | nil => exact ⟨[x :: w], by have := Words.last g (x :: w) h2 hw; simpa using this⟩
      | cons b r' =>
        obtain ⟨ws, hws⟩ := ih (b :: r') (by simp at h ⊢; omega)
        have := Words.more g (x :: w) b r' ws h2 hw (by have := h6 b r' rfl; exact Decidable.not_not.1 this) hws
        exact ⟨_, by rw [List.append_assoc] at this; exact this⟩

theorem dropWhile_spec (t : Text) : ∃ a, t = a ++ t.dropWhile isspace ∧ (∀ x ∈ a, isspace x = true) ∧ ∀ x xs, t.dropWhile isspace = x :: xs → isspace x = false := by
  induction t with
  | nil => exact ⟨[], rfl, by simp, by simp⟩
  | cons x t ih =>
    cases h : isspace x with
    | true =>
      obtain ⟨a, h1, h2, h3⟩ := ih
      rw [List.dropWhile_cons_of_pos h]
      refine ⟨x :: a, by rw [List.cons_append, ← h1], ?_, h3⟩
      intro y hy
      rcases List.mem_cons.1 hy with e | e
      · rw [e]; exact h
      · exact h2 y e
    | false =>
      rw [List.dropWhile_cons_of_neg (by simp [h])]
      exact ⟨[], rfl, by simp, fun y ys e => by cases e; exact h⟩

theorem trim_spec (t : Text) : Trim t (trimString t) := by
  unfold trimString
  obtain ⟨b, h1, h2, h3⟩ := dropWhile_spec t.reverse
  obtain ⟨a, k1, k2, k3⟩ := dropWhile_spec (t.reverse.dropWhile isspace).reverse
  obtain ⟨m, hm⟩ : ∃ m, m = (t.reverse.dropWhile isspace).reverse := ⟨_, rfl⟩
  have ht : t = m ++ b.reverse := by
    rw [hm, ← List.reverse_append, ← h1, List.reverse_reverse]
  rw [← hm] at k1 k3 ⊢
  refine ⟨⟨a, b.reverse, ?_, k2, fun x hx => h2 x (by simpa using hx)⟩, k3, ?_⟩
  · rw [← k1]; exact ht
  · intro x xs hx
    refine h3 x (xs.reverse ++ a.reverse) ?_
    have : m.reverse = x :: (xs.reverse ++ a.reverse) := by
      rw [k1, hx]; simp
    rw [← this, hm, List.reverse_reverse]

theorem takeWhile_c (t : Text) (h : CString t) : (t ++ [0]).takeWhile (· != 0) = t := by
  induction t with
  | nil => rfl
  | cons b t ih =>
    rw [List.cons_append, List.takeWhile_cons_of_pos (by simpa using h b (by simp)), ih (fun x hx => h x (by simp [hx]))]

theorem after_words (line : Text) (ws : List Text) (h : Words line ws) (hc : CString line) : ∀ k, 0 < k → k ≤ ws.length →
    ∃ c, line = c ++ after k line ∧ Words c (ws.take k) ∧ Words (after k line) (ws.drop k) ∧ ∃ d w, ws[k - 1]? = some w ∧ c = d ++ w := by
  induction h with
  | none g hg => intro k h1 h2; simp at h2; omega
  | last g w hg hw =>
    intro k h1 h2
    have hcw : CString w := fun b hb => hc b (by simp [hb])
    have hn := next_word g w [] hg hw hcw (by simp)
    rw [List.append_nil] at hn
    have : k = 1 := by simp at h2; omega
    subst this
    refine ⟨g ++ w, ?_, Words.last g w hg hw, ?_, g, w, rfl, rfl⟩
    · simp only [after]; rw [hn]; simp
    · simp only [after]; rw [hn]; exact Words.none [] (by simp [Gap])
  | more g w b rest ws hg hw hb hr ih =>
    intro k h1 h2
    have hcw : CString w := fun x hx => hc x (by simp [hx])
    have hn := next_word g w (b :: rest) hg hw hcw (by intro x r hx; cases hx; exact hb)
    obtain ⟨k, rfl⟩ : ∃ j, k = j + 1 := ⟨k - 1, by omega⟩
    have ha : after (k + 1) (g ++ w ++ b :: rest) = after k (b :: rest) := by simp only [after]; rw [hn]
    rw [ha]
    by_cases hk : k = 0
    · subst hk
      refine ⟨g ++ w, rfl, ?_, ?_, g, w, rfl, rfl⟩
      · simpa using Words.last g w hg hw
      · simpa [after] using hr
    · obtain ⟨c, c1, c2, c3, d, v, c4, c5⟩ := ih (fun x hx => hc x (by simp only [List.mem_append]; exact Or.inr hx)) k (by omega) (by simpa using h2)
      have hv : ws[k - 1]? = some v := c4
      -- the rest begins with the blank
      cases hcc : c with
      | nil =>
        exfalso
        rw [hcc] at c2
        have := words_len _ _ c2
        rw [List.length_take] at this
        simp only [List.length_nil, List.length_cons] at this h2
        omega
      | cons x c' =>
        rw [hcc] at c1 c2 c5
        have hx : x = b ∧ rest = c' ++ after k (b :: rest) := by
          rw [List.cons_append] at c1
          exact ⟨(List.cons.inj c1).1.symm, (List.cons.inj c1).2⟩
        obtain ⟨rfl, hx2⟩ := hx
        refine ⟨g ++ w ++ x :: c', ?_, ?_, ?_, g ++ w ++ d, v, ?_, ?_⟩
        · rw [List.append_assoc (g ++ w), ← c1]
        · rw [List.take_succ_cons]
          exact Words.more g w x c' (ws.take k) hg hw hb c2
        · rw [List.drop_succ_cons]; exact c3
        · obtain ⟨j, rfl⟩ : ∃ j, k = j + 1 := ⟨k - 1, by omega⟩
          simpa using hv
        · rw [c5]; simp

end TokP

/-- C114: every text has words. -/
theorem C114_words_exist (line : Text) : ∃ ws, Words line ws := TokP.exists_words line.length line (Nat.le_refl _)

/-- C114: the tokens of a line are its words, in order; nothing of the line before is left. -/
theorem C114_tokens (old : List Byte) (line : Text) (ws : List Text) (h : Words line ws) (hc : CString line) :
    tokenize line = ws ∧ (tokline old line).1 = ws.head? ∧ (ws ≠ [] → tokenize (tokline old line).2 = ws.tail) := by
  have h1 := TokP.tokens_words line ws h hc
  have hl := TokP.words_len line ws h
  refine ⟨h1 _ (by omega), ?_, ?_⟩
  · have := h1 (ws.length + 1) (by omega)
    unfold tokline
    dsimp only
    rw [List.nil_append]
    simp only [tokens] at this
    cases hn : nextToken line with
    | mk a r =>
      rw [hn] at this
      cases a with
      | none => dsimp only at this; rw [← this]; rfl
      | some t => dsimp only at this; rw [← this]; rfl
  · intro hne
    unfold tokline
    dsimp only
    rw [List.nil_append]
    obtain ⟨c, c1, c2, c3, _⟩ := TokP.after_words line ws h hc 1 (by omega) (by have := List.length_pos_iff.2 hne; omega)
    have e : after 1 line = (nextToken line).2 := rfl
    rw [e] at c1 c3
    have hc' : CString (nextToken line).2 := fun b hb => hc b (by rw [c1]; exact List.mem_append_right _ hb)
    have := TokP.tokens_words _ _ c3 hc' ((nextToken line).2.length + 1) (by have := TokP.words_len _ _ c3; omega)
    rw [← List.drop_one]
    exact this

/-- C114: so a line has just one list of words. -/
theorem C114_words_unique (line : Text) (hc : CString line) (ws vs : List Text) (h1 : Words line ws) (h2 : Words line vs) : ws = vs := by
  rw [← (C114_tokens [] line ws h1 hc).1, ← (C114_tokens [] line vs h2 hc).1]

/-- C114: after some tokens were taken, the rest of the line is what comes after the last of them, without white space at its ends. -/
theorem C114_remaining (line : Text) (ws : List Text) (h : Words line ws) (hc : CString line) (k : Nat) (h0 : 0 < k) (hk : k ≤ ws.length) :
    ∃ c rest, line = c ++ rest ∧ Words c (ws.take k) ∧ Words rest (ws.drop k) ∧ (∃ d w, ws[k - 1]? = some w ∧ c = d ++ w) ∧
      Trim rest (tokenRemaining (after k line)) := by
  obtain ⟨c, c1, c2, c3, c4⟩ := TokP.after_words line ws h hc k h0 hk
  refine ⟨c, after k line, c1, c2, c3, c4, ?_⟩
  unfold tokenRemaining
  rw [TokP.takeWhile_c _ (fun b hb => hc b (by rw [c1]; exact List.mem_append_right _ hb))]
  exact TokP.trim_spec _

/-- A case. -/
example : tokline (str ['o', 'l', 'd']) (str [' ', 'S', 'T', 'O', 'R', ' ', '\t', 'm', 'y', ' ', ' ', 'x', ' ', '\r']) =
    (some (str ['S', 'T', 'O', 'R']), str [' ', '\t', 'm', 'y', ' ', ' ', 'x', ' ', '\r']) ∧
    tokenRemaining (str [' ', '\t', 'm', 'y', ' ', ' ', 'x', ' ', '\r']) = str ['m', 'y', ' ', ' ', 'x'] ∧
    tokenize (str [' ', '\t', 'm', 'y', ' ', ' ', 'x', ' ', '\r']) = [str ['m', 'y'], str ['x']] := by decide +kernel

example : Words (str [' ', 'a', ' ', 'b']) [str ['a'], str ['b']] :=
  Words.more (str [' ']) (str ['a']) (ch ' ') (str ['b']) [str ['b']] (by unfold Gap blank; decide) (by unfold Word blank; decide) (by unfold blank; decide)
    (Words.last (str [' ']) (str ['b']) (by unfold Gap blank; decide) (by unfold Word blank; decide))

namespace TokP

theorem anal_spec (t : Text) (cs : Bool) (l : List Text) : ∀ i, (anal t cs l i = -1 ∧ ∀ x ∈ l, ¬ (if cs then t = x else t.map tolower = x.map tolower)) ∨
    ∃ j x, anal t cs l i = (i + j : Nat) ∧ l[j]? = some x ∧ (if cs then t = x else t.map tolower = x.map tolower) ∧
      ∀ k y, k < j → l[k]? = some y → ¬ (if cs then t = y else t.map tolower = y.map tolower) := by
  induction l with
  | nil => intro i; left; exact ⟨rfl, by simp⟩
  | cons x l ih =>
    intro i
    have hcond : ((!cs && sameCase t x) || (cs && t == x)) = true ↔ (if cs then t = x else t.map tolower = x.map tolower) := by
      cases cs <;> simp [sameCase]
    by_cases hx : (if cs then t = x else t.map tolower = x.map tolower)
    · right
      refine ⟨0, x, ?_, rfl, hx, by intro k y hk; omega⟩
      unfold anal
      rw [if_pos (hcond.2 hx)]
      rfl
    · have e : anal t cs (x :: l) i = anal t cs l (i + 1) := by
        rw [anal, if_neg (fun h => hx (hcond.1 h))]
      rw [e]
      rcases ih (i + 1) with ⟨h1, h2⟩ | ⟨j, y, h1, h2, h3, h4⟩
      · left
        refine ⟨h1, ?_⟩
        intro z hz
        rcases List.mem_cons.1 hz with e' | e'
        · rw [e']; exact hx
        · exact h2 z e'
      · right
        refine ⟨j + 1, y, by rw [h1]; congr 1; omega, h2, h3, ?_⟩
        intro k z hk hz
        cases k with
        | zero => cases hz; exact hx
        | succ k => exact h4 k z (by omega) hz

end TokP

/-- C114: `tokanal` gives the place of the first text in the table that is the token, with or without regard to case, or -1 if there is none. -/
theorem C114_lookup (t : Text) (lookup : List Text) (cs : Bool) :
    let same := fun x : Text => if cs then t = x else t.map tolower = x.map tolower
    (tokanal t lookup cs = -1 ∧ ∀ x ∈ lookup, ¬ same x) ∨
    ∃ j x, tokanal t lookup cs = (j : Nat) ∧ lookup[j]? = some x ∧ same x ∧ ∀ k y, k < j → lookup[k]? = some y → ¬ same y := by
  intro same
  rcases TokP.anal_spec t cs lookup 0 with h | ⟨j, x, h1, h2⟩
  · exact Or.inl h
  · refine Or.inr ⟨j, x, ?_, h2⟩
    rw [Nat.zero_add] at h1
    exact h1

example : tokanal (str ['q', 'u', 'i', 't']) [str ['U', 's', 'e', 'r'], str ['Q', 'u', 'i', 't']] false = 1 ∧
    tokanal (str ['q', 'u', 'i', 't']) [str ['U', 's', 'e', 'r'], str ['Q', 'u', 'i', 't']] true = -1 := by decide +kernel

/-- C114: the state machine gets, for each line that has words, in order, the first word and a buffer with the other words; what it leaves in the buffer does not matter. -/
theorem C114_machine {σ : Type} (f : σ → Text → List Byte → σ × List Byte) (lines : List Text) (hc : ∀ l ∈ lines, CString l) (s : σ) (buf : List Byte) :
    ∃ calls, executes f lines s buf = calls.foldl (fun s c => (f s c.1 c.2).1) s ∧ Calls lines calls := by
  induction lines generalizing s buf with
  | nil => exact ⟨[], rfl, Calls.nil⟩
  | cons line lines ih =>
    obtain ⟨ws, hw⟩ := C114_words_exist line
    obtain ⟨h1, h2, h3⟩ := C114_tokens buf line ws hw (hc line (by simp))
    have hc' : ∀ l ∈ lines, CString l := fun l hl => hc l (by simp [hl])
    unfold executes
    cases ht : tokline buf line with
    | mk a r =>
      rw [ht] at h2
      dsimp only at h2
      cases a with
      | none =>
        have : ws = [] := by cases ws with
          | nil => rfl
          | cons w ws => cases h2
        obtain ⟨calls, k1, k2⟩ := ih hc' s r
        exact ⟨calls, k1, Calls.skip line lines calls (this ▸ hw) k2⟩
      | some t =>
        obtain ⟨w, ws', rfl⟩ : ∃ w ws', ws = w :: ws' := by cases ws with
          | nil => cases h2
          | cons w ws' => exact ⟨w, ws', rfl⟩
        cases h2
        obtain ⟨calls, k1, k2⟩ := ih hc' (f s t r).1 (f s t r).2
        refine ⟨(t, r) :: calls, k1, Calls.call line lines calls t ws' r hw ?_ k2⟩
        obtain ⟨c, c1, c2, c3, _⟩ := TokP.after_words line (t :: ws') hw (hc line (by simp)) 1 (by omega) (by simp)
        have : after 1 line = r := by
          show (nextToken line).2 = r
          have : nextToken line = (some t, r) := by rw [← ht]; rfl
          rw [this]
        rw [this] at c3
        exact c3

/-- A case: three lines, the second without words. -/
example : executes (fun (s : List Text) t _ => (s ++ [t], str ['j', 'u', 'n', 'k'])) [str ['a', ' ', 'b'], str [' '], str ['c']] [] [] = [str ['a'], str ['c']] := by decide +kernel

/-- C114 fails: the rest of a line need not have the words that are left: `token_remaining` removes form feeds and vertical tabs, which are words otherwise. -/
theorem C114_rest_fails : ¬ ∀ (line : Text), CString line → tokenize (tokenRemaining line) = tokenize line := by
  intro h
  exact absurd (h [ch 'a', ch ' ', 12] (by unfold CString; decide)) (by decide +kernel)

end Props
