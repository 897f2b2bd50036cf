import Verif.Model.Split
import Verif.Spec.Split
import Mathlib.Tactic.Conv
/- C35: splitting and joining. -/
namespace Props
open Wv Wv.Split

theorem pieces_nil (sep) : Spec.Split.pieces sep [] = [[]] := rfl
theorem pieces_cons (sep c s) : Spec.Split.pieces sep (c :: s) =
    if sep c then [] :: Spec.Split.pieces sep s
    else (c :: (Spec.Split.pieces sep s).headD []) :: (Spec.Split.pieces sep s).tail := rfl

theorem pieces_ne_nil (sep s) : Spec.Split.pieces sep s ≠ [] := by
  cases s with
  | nil => simp [pieces_nil]
  | cons c s => rw [pieces_cons]; split <;> simp

theorem pieces_upto (cs s : List Byte) :
    Spec.Split.pieces cs.contains s =
      match upto cs s with
      | (w, []) => [w]
      | (w, _ :: e) => w :: Spec.Split.pieces cs.contains e := by
  induction s with
  | nil => rfl
  | cons c s ih =>
    rw [pieces_cons]
    unfold upto at ih ⊢
    rw [List.takeWhile_cons, List.dropWhile_cons]
    cases h : cs.contains c
    · simp only [Bool.not_false, if_true, Bool.false_eq_true, if_false]
      rw [ih]
      split <;> rename_i heq <;> split <;> rename_i heq2 <;> simp_all
    · simp

/-- C35 (strict split): the pieces between separators. -/
theorem C35_splitstrict_pieces (cs s : List Byte) (limit : Int) (hl : limit ≤ 0) :
    strict cs limit s = Spec.Split.pieces cs.contains s := by
  generalize hn : s.length = n
  induction n using Nat.strongRecOn generalizing s limit with
  | ind n ih =>
    rw [strict, pieces_upto]
    rw [if_neg (by omega)]
    have hle : (upto cs s).2.length ≤ s.length := (List.dropWhile_suffix _).length_le
    split
    · rename_i w h; rw [h]
    · rename_i w c e h
      rw [h] at hle ⊢
      simp only
      simp only [List.length_cons] at hle
      rw [ih e.length (by omega) e (limit - 1) (by omega) rfl]

theorem joinLoop_spec (j : List Byte) (l : List (List Byte)) : ∀ total,
    joinLoop j false total l = total ++ (if l = [] then [] else j ++ Spec.Split.join j l) := by
  induction l with
  | nil => intro total; simp [joinLoop]
  | cons s l ih =>
    intro total
    rw [joinLoop, ih]
    cases l with
    | nil => simp [Spec.Split.join]
    | cons s' l => simp [Spec.Split.join]

/-- C35 (join): the strings with the join characters in between. -/
theorem C35_join_spec (j : List Byte) (l : List (List Byte)) : join j l = Spec.Split.join j l := by
  cases l with
  | nil => rfl
  | cons s l =>
    rw [join, joinLoop, joinLoop_spec]
    cases l with
    | nil => simp [Spec.Split.join]
    | cons s' l => simp [Spec.Split.join]

/-- C35 (join, memory): the text with its NUL fits in the memory allocated, for every non-empty list. -/
theorem C35_join_size (j : List Byte) (l : List (List Byte)) (h : l ≠ []) : (join j l).length + 1 = joinSize j l := by
  have hf : ∀ (l : List (List Byte)) (n : Nat), l.foldl (fun n s => n + s.length + j.length) n =
      n + (l.map List.length).sum + l.length * j.length := by
    intro l
    induction l with
    | nil => intro n; simp
    | cons s l ih =>
      intro n
      simp only [List.foldl_cons, ih, List.map_cons, List.sum_cons, List.length_cons, Nat.add_mul, Nat.one_mul]; omega
  have hj : ∀ l : List (List Byte), l ≠ [] →
      (Spec.Split.join j l).length + j.length = (l.map List.length).sum + l.length * j.length := by
    intro l
    induction l with
    | nil => intro h; contradiction
    | cons s l ih =>
      intro _
      cases l with
      | nil => simp [Spec.Split.join]
      | cons s' l =>
        have := ih (by simp)
        simp only [Spec.Split.join, List.length_append, List.map_cons, List.sum_cons, List.length_cons, Nat.add_mul,
          Nat.one_mul] at this ⊢
        omega
  rw [C35_join_spec, joinSize, hf]
  have := hj l h
  omega

theorem pieces_clean (sep : Byte → Bool) (s : List Byte) (h : ∀ c ∈ s, sep c = false) : Spec.Split.pieces sep s = [s] := by
  induction s with
  | nil => rfl
  | cons c s ih => rw [pieces_cons, h c (by simp), ih (fun d hd => h d (by simp [hd]))]; rfl

theorem pieces_append (sep : Byte → Bool) (s : List Byte) (h : ∀ c ∈ s, sep c = false) (d : Byte) (hd : sep d = true)
    (r : List Byte) : Spec.Split.pieces sep (s ++ d :: r) = s :: Spec.Split.pieces sep r := by
  induction s with
  | nil => rw [List.nil_append, pieces_cons, hd]; rfl
  | cons c s ih =>
    rw [List.cons_append, pieces_cons, h c (by simp), ih (fun d hd => h d (by simp [hd]))]; rfl

/-- C35: strict split undoes join, for every non-empty list of strings without separators. -/
theorem C35_splitstrict_join (cs : List Byte) (sep : Byte) (hsep : sep ∈ cs) (l : List (List Byte)) (hne : l ≠ [])
    (h : ∀ s ∈ l, ∀ c ∈ s, c ∉ cs) : strict cs 0 (join [sep] l) = l := by
  rw [C35_splitstrict_pieces cs _ 0 (Int.le_refl 0), C35_join_spec]
  have hs : cs.contains sep = true := by simpa using hsep
  induction l with
  | nil => contradiction
  | cons s l ih =>
    have hc : ∀ c ∈ s, cs.contains c = false := fun c hc => by simpa using h s (by simp) c hc
    cases l with
    | nil => exact pieces_clean _ s hc
    | cons s' l =>
      rw [Spec.Split.join]
      · rw [List.singleton_append, pieces_append _ s hc sep hs, ih (by simp) (fun x hx => h x (by simp [hx]))]
      · simp

/-- C35: join undoes strict split on one character, with or without a limit. -/
theorem C35_join_splitstrict (sep : Byte) (limit : Int) (s : List Byte) : join [sep] (strict [sep] limit s) = s := by
  rw [C35_join_spec]
  generalize hn : s.length = n
  induction n using Nat.strongRecOn generalizing s limit with
  | ind n ih =>
    rw [strict]
    split
    · rfl
    · have ht : (upto [sep] s).1 ++ (upto [sep] s).2 = s := List.takeWhile_append_dropWhile
      have hh : ∀ c e, (upto [sep] s).2 = c :: e → c = sep := by
        intro c e he
        have hne : s.dropWhile (fun c => !([sep] : List Byte).contains c) ≠ [] := by
          intro h0
          have : (upto [sep] s).2 = [] := h0
          rw [this] at he; simp at he
        have := List.head_dropWhile_not (fun c => !([sep] : List Byte).contains c) hne
        have he' : s.dropWhile (fun c => !([sep] : List Byte).contains c) = c :: e := he
        simp only [he', List.head_cons] at this
        simpa using this
      split
      · rename_i w h
        rw [h] at ht
        simpa [Spec.Split.join] using ht
      · rename_i w c e h
        rw [h] at ht hh
        have hc : c = sep := hh c e rfl
        subst hc
        have hlen : e.length < n := by
          have := congrArg List.length ht
          simp at this; omega
        have := ih e.length hlen (limit - 1) e rfl
        generalize hr : strict [c] (limit - 1) e = r at this
        cases r with
        | nil =>
          exfalso
          rw [strict] at hr
          split at hr
          · simp at hr
          · split at hr <;> simp at hr
        | cons x xs =>
          rw [Spec.Split.join]
          · rw [this]; simpa using ht
          · simp

/-- C35: a limit of n ≥ 1 gives at most n pieces. -/
theorem C35_splitstrict_limit (cs s : List Byte) (n : Nat) (hn : 1 ≤ n) : (strict cs n s).length ≤ n := by
  induction n generalizing s with
  | zero => omega
  | succ n ih =>
    rw [strict]
    split
    · simp
    · rename_i h
      split
      · simp
      · simp only [List.length_cons]
        have := ih (by omega) (s := by assumption)
        have e : ((n + 1 : Nat) : Int) - 1 = (n : Int) := by omega
        rw [e]
        omega

theorem words_cons_sep (sep : Byte → Bool) (c : Byte) (s : List Byte) (h : sep c = true) :
    Spec.Split.words sep (c :: s) = Spec.Split.words sep s := by
  unfold Spec.Split.words; rw [pieces_cons, h]; simp

theorem words_skip (cs s : List Byte) : Spec.Split.words cs.contains (skip cs s) = Spec.Split.words cs.contains s := by
  induction s with
  | nil => rfl
  | cons c s ih =>
    unfold skip at ih ⊢
    rw [List.dropWhile_cons]
    cases h : cs.contains c
    · rfl
    · rw [words_cons_sep _ _ _ h]; exact ih

theorem upto_facts (cs s : List Byte) :
    (upto cs s).1 ++ (upto cs s).2 = s ∧ (∀ c ∈ (upto cs s).1, cs.contains c = false) ∧
    ((upto cs s).2 = [] ∨ ∃ c e, (upto cs s).2 = c :: e ∧ cs.contains c = true) := by
  induction s with
  | nil => simp [upto]
  | cons c s ih =>
    unfold upto at ih ⊢
    rw [List.takeWhile_cons, List.dropWhile_cons]
    cases h : cs.contains c
    · simp only [Bool.not_false, if_true]
      obtain ⟨h1, h2, h3⟩ := ih
      refine ⟨by rw [List.cons_append]; exact congrArg _ h1, ?_, h3⟩
      intro d hd
      rcases List.mem_cons.mp hd with rfl | hd
      · exact h
      · exact h2 d hd
    · simp only [Bool.not_true, Bool.false_eq_true, if_false]
      exact ⟨rfl, by simp, Or.inr ⟨c, s, rfl, h⟩⟩

theorem words_upto (cs s : List Byte) (h : (upto cs s).1 ≠ []) :
    Spec.Split.words cs.contains s = (upto cs s).1 :: Spec.Split.words cs.contains (upto cs s).2 := by
  obtain ⟨h1, h2, h3⟩ := upto_facts cs s
  conv_lhs => rw [← h1]
  rcases h3 with h0 | ⟨c, e, h0, hc⟩
  · rw [h0, List.append_nil]
    unfold Spec.Split.words
    rw [pieces_clean _ _ h2]
    simp [h, pieces_nil]
  · rw [h0]
    unfold Spec.Split.words
    rw [pieces_append _ _ h2 c hc, pieces_cons, hc]
    simp [h]

def endsSep (cs s : List Byte) : List (List Byte) := if s.getLast?.any cs.contains then [[]] else []

theorem endsSep_skip (cs s : List Byte) (h : skip cs s ≠ []) : endsSep cs (skip cs s) = endsSep cs s := by
  induction s with
  | nil => rfl
  | cons c s ih =>
    unfold skip at ih h ⊢
    rw [List.dropWhile_cons] at h ⊢
    cases hc : cs.contains c
    · rfl
    · rw [hc] at h
      simp only [if_true] at h ⊢
      rw [ih h]
      cases s with
      | nil => simp at h
      | cons d s => simp [endsSep]

theorem all_skip_nil (cs s : List Byte) (h : skip cs s = []) (hs : s ≠ []) :
    Spec.Split.words cs.contains s = [] ∧ endsSep cs s = [[]] := by
  constructor
  · rw [← words_skip, h]; rfl
  · have hall : ∀ c ∈ s, cs.contains c = true := by
      have := List.all_eq_true.mp (List.all_takeWhile (p := cs.contains) (l := s))
      have h2 : s.takeWhile cs.contains ++ s.dropWhile cs.contains = s := List.takeWhile_append_dropWhile
      unfold skip at h
      rw [h, List.append_nil] at h2
      rw [h2] at this
      exact this
    unfold endsSep
    rw [List.getLast?_eq_some_getLast hs]
    have := hall _ (List.getLast_mem hs)
    simp only [Option.any_some, this, if_true]

theorem endsSep_upto (cs s : List Byte) (h : (upto cs s).1 ≠ []) : endsSep cs (upto cs s).2 = endsSep cs s := by
  obtain ⟨h1, h2, h3⟩ := upto_facts cs s
  conv_rhs => rw [← h1]
  unfold endsSep
  rcases h3 with h0 | ⟨c, e, h0, hc⟩
  · rw [h0, List.append_nil, List.getLast?_eq_some_getLast h]
    simp only [Option.any_some, h2 _ (List.getLast_mem h)]
    rfl
  · rw [h0, List.getLast?_append, List.getLast?_eq_some_getLast (by simp : c :: e ≠ [])]
    rfl

theorem splitLoop_spec (cs : List Byte) (n : Nat) : ∀ (s : List Byte) (fuel : Nat) (limit : Int), s.length = n →
    n + 1 ≤ fuel → limit ≤ 0 →
    splitLoop cs fuel limit false s = if s = [] then [] else Spec.Split.words cs.contains s ++ endsSep cs s := by
  induction n using Nat.strongRecOn with
  | ind n ih =>
    intro s fuel limit hn hf hl
    cases fuel with
    | zero => omega
    | succ fuel =>
      rw [splitLoop]
      by_cases hs : s = []
      · simp [hs]
      · rw [if_neg hs, if_neg hs]
        simp only [Bool.false_eq_true, if_false]
        rw [if_pos (by omega)]
        have hnil : ∀ f, splitLoop cs f (limit - 1) false [] = [] := by
          intro f; cases f <;> simp [splitLoop]
        have hsk : (skip cs s).length ≤ s.length := (List.dropWhile_suffix _).length_le
        by_cases h0 : skip cs s = []
        · rw [h0]
          obtain ⟨e1, e2⟩ := all_skip_nil cs s h0 hs
          rw [e1, e2]
          simp [upto, hnil]
        · obtain ⟨h1, h2, h3⟩ := upto_facts cs (skip cs s)
          have hw : (upto cs (skip cs s)).1 ≠ [] := by
            intro hw
            unfold skip at h0 hw
            have := List.head_dropWhile_not cs.contains h0
            unfold upto at hw
            cases hd : s.dropWhile cs.contains with
            | nil => exact h0 hd
            | cons c e =>
              rw [hd] at hw
              simp only [hd, List.head_cons] at this
              rw [List.takeWhile_cons, this] at hw
              simp at hw
          have hlen := congrArg List.length h1
          rw [List.length_append] at hlen
          have hpos : 0 < (upto cs (skip cs s)).1.length := List.length_pos_iff.mpr hw
          rw [ih (upto cs (skip cs s)).2.length (by omega) _ fuel (limit - 1) rfl (by omega) (by omega)]
          rw [← words_skip cs s, ← endsSep_skip cs s h0, words_upto cs _ hw, ← endsSep_upto cs _ hw]
          split
          · rename_i he; rw [he]; simp [Spec.Split.words, pieces_nil, endsSep]
          · simp

/-- C35 (split): with no limit, the result is the non-empty maximal separator-free pieces, in order, with an empty string
    in front if the text is empty or starts with a separator, and one at the end if it ends with a separator. -/
theorem C35_split_words (cs s : List Byte) :
    split cs 0 s = (if s.head?.all cs.contains then [[]] else []) ++ Spec.Split.words cs.contains s ++
      (if s.getLast?.any cs.contains then [[]] else []) := by
  unfold split
  by_cases hs : s = []
  · subst hs; simp [Spec.Split.words, pieces_nil]
  · rw [if_neg hs, splitLoop, if_neg hs]
    simp only [if_true]
    rw [if_pos (by decide), splitLoop_spec cs (upto cs s).2.length _ _ _ rfl (by
      have : (upto cs s).2.length ≤ s.length := (List.dropWhile_suffix _).length_le
      omega) (by decide)]
    show _ = _ ++ endsSep cs s
    by_cases hw : (upto cs s).1 = []
    · obtain ⟨h1, -, h3⟩ := upto_facts cs s
      rw [hw, List.nil_append] at h1
      rw [hw, h1, if_neg hs]
      rw [h1] at h3
      rcases h3 with h3 | ⟨c, e, h3, hc⟩
      · contradiction
      · rw [h3]
        simp only [List.head?_cons, Option.all_some, hc, if_true]
        simp
    · rw [words_upto cs s hw, ← endsSep_upto cs s hw]
      have hh : s.head?.all cs.contains = false := by
        obtain ⟨h1, h2, -⟩ := upto_facts cs s
        cases hu : (upto cs s).1 with
        | nil => exact absurd hu hw
        | cons c w =>
          rw [hu] at h1 h2
          rw [← h1]
          simp only [List.cons_append, List.head?_cons, Option.all_some]
          exact h2 c (by simp)
      rw [hh]
      split
      · rename_i he; rw [he]; simp [Spec.Split.words, pieces_nil, endsSep]
      · simp

/-- C35: so split does not return only the pieces when a separator is at an end of the text. -/
theorem C35_split_only_words_fails : ¬ ∀ cs s : List Byte, split cs 0 s = Spec.Split.words cs.contains s := by
  intro h
  exact absurd (h [32] [32, 97]) (by decide +kernel)

example : split [32] 0 (str ['a', ' ', ' ', 'b']) = [str ['a'], str ['b']] := by decide +kernel
example : strict [58] 0 (str ['a', ':', ':', 'b']) = [str ['a'], [], str ['b']] := by
  rw [C35_splitstrict_pieces _ _ _ (Int.le_refl 0)]; decide +kernel
example : ∀ s ∈ [str ['a'], [], str ['b', 'c']], ∀ c ∈ s, c ∉ ([58] : List Byte) := by decide

theorem splitLoop_nil (cs : List Byte) (fuel : Nat) (limit : Int) (b : Bool) : splitLoop cs fuel limit b [] = [] := by
  cases fuel <;> simp [splitLoop]

theorem words_ne_nil (sep : Byte → Bool) (s : List Byte) : ∀ w ∈ Spec.Split.words sep s, w ≠ [] := by
  intro w hw
  unfold Spec.Split.words at hw
  simpa using (List.mem_filter.mp hw).2

theorem filter_words (sep : Byte → Bool) (s : List Byte) :
    (Spec.Split.words sep s).filter (· ≠ []) = Spec.Split.words sep s := by
  unfold Spec.Split.words; rw [List.filter_filter]; simp

/-- What `splitLoop` does with a limit, compared with no limit. -/
def Limited (cs : List Byte) (n : Nat) (s : List Byte) (full lim : List (List Byte)) : Prop :=
  if full.length < n then lim = full
  else ∃ r, lim = full.take (n - 1) ++ [r] ∧ r <:+ s ∧ Spec.Split.words cs.contains r = (full.drop (n - 1)).filter (· ≠ [])

theorem splitLoop_filter (cs : List Byte) (fuel : Nat) (l : Int) (s : List Byte) (hf : s.length + 1 ≤ fuel) (hl : l ≤ 0) :
    (splitLoop cs fuel l false s).filter (· ≠ []) = Spec.Split.words cs.contains s := by
  rw [splitLoop_spec cs _ s fuel l rfl hf hl]
  split
  · rename_i h; subst h; simp [Spec.Split.words, pieces_nil]
  · rw [List.filter_append, filter_words]
    unfold endsSep
    split <;> simp

theorem limited_cons (cs w e s : List Byte) (n : Nat) (full lim : List (List Byte)) (he : e <:+ s) (hn : 1 ≤ n)
    (h : Limited cs n e full lim) : Limited cs (n + 1) s (w :: full) (w :: lim) := by
  unfold Limited at h ⊢
  by_cases hc : full.length < n
  · rw [if_pos hc] at h
    rw [if_pos (by simpa using hc), h]
  · rw [if_neg hc] at h
    rw [if_neg (by simpa using hc)]
    obtain ⟨r, h1, h2, h3⟩ := h
    refine ⟨r, ?_, h2.trans he, ?_⟩
    · rw [h1]; obtain ⟨m, rfl⟩ : ∃ m, n = m + 1 := ⟨n - 1, by omega⟩
      simp
    · rw [h3]; obtain ⟨m, rfl⟩ : ∃ m, n = m + 1 := ⟨n - 1, by omega⟩
      simp

theorem upto_suffix (cs s : List Byte) : (upto cs s).2 <:+ s := List.dropWhile_suffix _

theorem splitLoop_limited (cs : List Byte) (fuel : Nat) : ∀ (s : List Byte) (n : Nat) (l : Int), s.length + 1 ≤ fuel →
    1 ≤ n → l ≤ 0 → Limited cs n s (splitLoop cs fuel l false s) (splitLoop cs fuel n false s) := by
  induction fuel with
  | zero => intro s n l h; omega
  | succ fuel ih =>
    intro s n l hf hn hl
    by_cases hs : s = []
    · subst hs; rw [splitLoop_nil, splitLoop_nil]; simp [Limited]; omega
    · by_cases h1 : n = 1
      · subst h1
        have e1 : splitLoop cs (fuel + 1) ((1 : Nat) : Int) false s = [skip cs s] := by
          rw [splitLoop, if_neg hs]; simp [splitLoop_nil]
        have hw := splitLoop_filter cs (fuel + 1) l s hf hl
        have hne : splitLoop cs (fuel + 1) l false s ≠ [] := by
          rw [splitLoop, if_neg hs]
          simp only [Bool.false_eq_true, if_false]
          rw [if_pos (by omega)]; simp
        rw [e1]
        unfold Limited
        rw [if_neg (by have := List.length_pos_iff.mpr hne; omega)]
        refine ⟨skip cs s, by simp, List.dropWhile_suffix _, ?_⟩
        rw [words_skip]; simpa using hw.symm
      · obtain ⟨m, rfl⟩ : ∃ m, n = m + 1 := ⟨n - 1, by omega⟩
        have e1 : ∀ lim : Int, lim - 1 ≠ 0 → splitLoop cs (fuel + 1) lim false s =
            (upto cs (skip cs s)).1 :: splitLoop cs fuel (lim - 1) false (upto cs (skip cs s)).2 := by
          intro lim hlim
          rw [splitLoop, if_neg hs]
          simp only [Bool.false_eq_true, if_false]
          rw [if_pos hlim]
        rw [e1 l (by omega), e1 _ (by omega)]
        have em : ((m + 1 : Nat) : Int) - 1 = (m : Nat) := by omega
        rw [em]
        have hsuf : (upto cs (skip cs s)).2 <:+ s := (upto_suffix cs _).trans (List.dropWhile_suffix _)
        refine limited_cons cs _ _ s m _ _ hsuf (by omega) (ih _ m (l - 1) ?_ (by omega) (by omega))
        have hlen : (upto cs (skip cs s)).2.length < s.length := by
          have hsk : (skip cs s).length ≤ s.length := (List.dropWhile_suffix _).length_le
          by_cases h0 : skip cs s = []
          · rw [h0]; simp [upto]; exact List.length_pos_iff.mpr hs
          · have hh := List.head_dropWhile_not cs.contains h0
            have : (upto cs (skip cs s)).2.length < (skip cs s).length := by
              cases hd : skip cs s with
              | nil => exact absurd hd h0
              | cons c e =>
                unfold skip at hd
                simp only [hd, List.head_cons] at hh
                unfold upto
                rw [List.dropWhile_cons, hh]
                simp only [Bool.not_false, if_true, List.length_cons]
                have : (e.dropWhile (fun c => !cs.contains c)).length ≤ e.length := (List.dropWhile_suffix _).length_le
                omega
            omega
        omega

/-- C35 (split with a limit): with a limit of n ≥ 1, if the whole split has fewer than n strings the result is the same;
    otherwise it is the first n - 1 of them and then the unsplit rest of the text, which holds exactly the words not
    returned yet. -/
theorem C35_split_limit (cs s : List Byte) (n : Nat) (hn : 1 ≤ n) :
    if (split cs 0 s).length < n then split cs n s = split cs 0 s
    else ∃ r, split cs n s = (split cs 0 s).take (n - 1) ++ [r] ∧ r <:+ s ∧
      Spec.Split.words cs.contains r = ((split cs 0 s).drop (n - 1)).filter (· ≠ []) := by
  show Limited cs n s (split cs 0 s) (split cs n s)
  by_cases hs : s = []
  · subst hs
    unfold Limited
    by_cases h1 : n = 1
    · subst h1
      rw [if_neg (by simp [split])]
      exact ⟨[], by simp [split], List.suffix_refl _, by simp [split, Spec.Split.words, pieces_nil]⟩
    · rw [if_pos (by simp [split]; omega)]; simp [split]
  · by_cases h1 : n = 1
    · subst h1
      have e1 : split cs ((1 : Nat) : Int) s = [s] := by
        rw [split, if_neg hs, splitLoop, if_neg hs]; simp [splitLoop_nil]
      rw [e1]
      unfold Limited
      have hw := C35_split_words cs s
      have hne : split cs 0 s ≠ [] := by
        rw [split, if_neg hs, splitLoop, if_neg hs]; simp
      rw [if_neg (by have := List.length_pos_iff.mpr hne; omega)]
      refine ⟨s, by simp, List.suffix_refl _, ?_⟩
      simp only [Nat.sub_self, List.drop_zero]
      rw [hw, List.filter_append, List.filter_append, filter_words]
      split <;> split <;> simp
    · obtain ⟨m, rfl⟩ : ∃ m, n = m + 1 := ⟨n - 1, by omega⟩
      have e1 : ∀ lim : Int, lim - 1 ≠ 0 → split cs lim s =
          (upto cs s).1 :: splitLoop cs (s.length + 1) (lim - 1) false (upto cs s).2 := by
        intro lim hlim
        rw [split, if_neg hs, splitLoop, if_neg hs]
        simp only [if_true]
        rw [if_pos hlim]
      rw [e1 0 (by omega), e1 _ (by omega)]
      have em : ((m + 1 : Nat) : Int) - 1 = (m : Nat) := by omega
      rw [em]
      refine limited_cons cs _ _ s m _ _ (upto_suffix cs s) (by omega) (splitLoop_limited cs _ _ m _ ?_ (by omega) (by omega))
      have := (upto_suffix cs s).length_le
      omega

example : split [32] 2 (str ['a', ' ', ' ', 'b', ' ', 'c']) = [str ['a'], str ['b', ' ', 'c']] := by decide +kernel

end Props
