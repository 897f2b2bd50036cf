import Verif.Lemmas.IntText
import Verif.Lemmas.Gen
import Verif.Lemmas.KeyOrder
import Verif.Props.Num
/- C80: integers and switches in a configuration. -/
namespace Props
open Wv Wv.Key Wv.IntText Spec.IntText Spec.Conf Gens IntT Num

/-- C80: a text that begins with an integer is that integer, if it is one that an int can have. -/
theorem C80_number_partial (s : Text) (v : Int) (h : Int_ s v) (hr : -2147483648 ≤ v ∧ v < 2147483648) (d : Int) :
    str2int (some s) d = v := by
  have := (strtol_iff s (clamp v)).2 ⟨v, h, rfl⟩
  unfold str2int
  simp only [this]
  unfold clamp toInt
  rw [if_neg (by omega), if_neg (by omega)]
  omega

/-- `  -0x1Fg`. -/
example : Int_ (str [' ', '-', '0', 'x', '1', 'F', 'g']) (-31) :=
  Int_.minus (str [' ']) (str ['0', 'x', '1', 'F', 'g']) 31 (by decide +kernel)
    (Begins.hex (ch 'x') (str ['1', 'F']) (str ['g']) 31 (Or.inl rfl) (by decide +kernel)
      (Digits.snoc (str ['1']) 1 (ch 'F') 15 (Digits.snoc [] 0 (ch '1') 1 Digits.nil (by decide +kernel)) (by decide +kernel))
      (by intro c r h; obtain ⟨rfl, -⟩ := List.cons.inj h; decide +kernel))

/-- C80: what is missing above is false: an integer that is too large for an int is another one. -/
theorem C80_number_fails : ∃ (s : Text) (v : Int), Int_ s v ∧ v = 4294967297 ∧ str2int (some s) 5 = 1 := by
  refine ⟨str ['4', '2', '9', '4', '9', '6', '7', '2', '9', '7'], 4294967297, ?_, rfl, by decide +kernel⟩
  have h : strtol (str ['4', '2', '9', '4', '9', '6', '7', '2', '9', '7']) = some 4294967297 := by decide +kernel
  obtain ⟨w, h1, h2⟩ := (strtol_iff _ _).1 h
  have : w = 4294967297 := by
    unfold clamp at h2
    split at h2
    · omega
    · split at h2 <;> omega
  rw [this] at h1
  exact h1

namespace IntT

theorem cmp_zero (a b : List Byte) : Key.strcasecmp a b = 0 ↔ a.map Spec.Path.lower = b.map Spec.Path.lower := by
  rw [Key.lower_eq]
  induction a generalizing b with
  | nil => cases b <;> simp [Key.strcasecmp]
  | cons c a ih =>
    cases b with
    | nil => simp [Key.strcasecmp]
    | cons d b =>
      unfold Key.strcasecmp
      by_cases h : tolower c = tolower d
      · rw [if_pos h, ih]; simp [h]
      · rw [if_neg h]
        constructor
        · intro e
          exfalso
          apply h
          have : (tolower c).toNat = (tolower d).toNat := by omega
          exact UInt8.toNat_inj.1 this
        · intro e
          exact absurd (List.cons.inj e).1 h

theorem word_spec (s : List Byte) : word s 0 words =
    if s.map Spec.Path.lower ∈ yes then some 1 else if s.map Spec.Path.lower ∈ no then some 0 else none := by
  have hw : ∀ w ∈ yes ++ no, w.map Spec.Path.lower = w := by decide +kernel
  simp only [yes, no, List.cons_append, List.nil_append, List.forall_mem_cons] at hw
  obtain ⟨w1, w2, w3, w4, w5, w6, w7, w8, -⟩ := hw
  simp only [words, word, cmp_zero, w1, w2, w3, w4, w5, w6, w7, w8, yes, no, List.mem_cons, List.not_mem_nil, or_false]
  generalize List.map Spec.Path.lower s = x
  by_cases h1 : x = str ['t', 'r', 'u', 'e']
  · simp [h1]
  by_cases h2 : x = str ['y', 'e', 's']
  · simp [h1, h2]
  by_cases h3 : x = str ['o', 'n']
  · simp [h1, h2, h3]
  by_cases h4 : x = str ['e', 'n', 'a', 'b', 'l', 'e', 'd']
  · simp [h1, h2, h3, h4]
  simp only [h1, h2, h3, h4, if_false, or_false]
  by_cases h5 : x = str ['f', 'a', 'l', 's', 'e']
  · simp [h5]
  by_cases h6 : x = str ['n', 'o']
  · simp [h6]
  by_cases h7 : x = str ['o', 'f', 'f']
  · simp [h7]
  by_cases h8 : x = str ['d', 'i', 's', 'a', 'b', 'l', 'e', 'd']
  · simp [h8]
  simp [h5, h6, h7, h8]

theorem letter (c : Byte) : Spec.Path.lower c ∈ [ch 't', ch 'y', ch 'o', ch 'e', ch 'f', ch 'n', ch 'd'] →
    isspace c = false ∧ c ≠ ch '-' ∧ c ≠ ch '+' ∧ isDig 10 c = false := by
  revert c
  exact forall_byte (by decide +kernel)

theorem word_no_number (s : List Byte) (h : s.map Spec.Path.lower ∈ yes ++ no) : ¬ ∃ v, Int_ s v := by
  have hw : ∀ w ∈ yes ++ no, ∃ c r, w = c :: r ∧ c ∈ [ch 't', ch 'y', ch 'o', ch 'e', ch 'f', ch 'n', ch 'd'] := by
    intro w hw
    simp only [yes, no, List.cons_append, List.nil_append, List.mem_cons, List.not_mem_nil, or_false] at hw
    rcases hw with rfl | rfl | rfl | rfl | rfl | rfl | rfl | rfl <;> exact ⟨_, _, rfl, by decide +kernel⟩
  obtain ⟨c, r, e, hc⟩ := hw _ h
  cases s with
  | nil => simp at e
  | cons x s =>
    rw [List.map_cons] at e
    rw [← (List.cons.inj e).1] at hc
    obtain ⟨c1, c2, c3, c4⟩ := letter x hc
    rintro ⟨v, hv⟩
    have key : ∀ ws t : List Byte, (∀ c ∈ ws, isspace c = true) → x :: s = ws ++ t → ws = [] := by
      intro ws t hws h
      cases ws with
      | nil => rfl
      | cons w ws =>
        have := hws w (by simp)
        rw [← (List.cons.inj h).1, c1] at this
        exact absurd this (by simp)
    generalize hy : x :: s = y at hv
    cases hv with
    | plain ws t n hws hb =>
      have := key ws t hws hy
      subst this
      obtain ⟨c, r, rfl, hc⟩ := begins_first hb
      rw [← (List.cons.inj hy).1, c4] at hc
      exact absurd hc (by simp)
    | plus ws t n hws hb =>
      have := key ws _ hws hy
      subst this
      exact c3 (List.cons.inj hy).1
    | minus ws t n hws hb =>
      have := key ws _ hws hy
      subst this
      exact c2 (List.cons.inj hy).1

theorem strtol_none (s : List Byte) (h : ¬ ∃ v, Int_ s v) : strtol s = none := by
  cases hs : strtol s with
  | none => rfl
  | some v =>
    obtain ⟨w, h1, _⟩ := (strtol_iff s v).1 hs
    exact absurd ⟨w, h1⟩ h

end IntT

/-- C80: the words for yes, in any case, are 1. -/
theorem C80_yes (s : Text) (h : s.map Spec.Path.lower ∈ yes) (d : Int) : str2int (some s) d = 1 := by
  unfold str2int
  simp only [strtol_none s (word_no_number s (List.mem_append_left _ h)), word_spec, if_pos h]
  rfl

/-- C80: and those for no are 0. -/
theorem C80_no (s : Text) (h : s.map Spec.Path.lower ∈ no) (d : Int) : str2int (some s) d = 0 := by
  have h0 : s.map Spec.Path.lower ∉ yes := by
    intro h1
    have : ∀ x ∈ yes, x ∉ no := by decide +kernel
    exact this _ h1 h
  unfold str2int
  simp only [strtol_none s (word_no_number s (List.mem_append_right _ h)), word_spec, if_neg h0, if_pos h]
  rfl

example : (str ['E', 'n', 'a', 'B', 'l', 'e', 'd']).map Spec.Path.lower ∈ yes ∧ (str ['O', 'F', 'f']).map Spec.Path.lower ∈ no := by
  decide +kernel

/-- C80: everything else, and a key that does not exist, is the default. -/
theorem C80_default (s : Option Text) (h : ∀ t, s = some t → (¬ ∃ v, Int_ t v) ∧ t.map Spec.Path.lower ∉ yes ∧ t.map Spec.Path.lower ∉ no)
    (d : Int) : str2int s d = d := by
  cases s with
  | none => rfl
  | some t =>
    obtain ⟨h1, h2, h3⟩ := h t rfl
    unfold str2int
    simp only [strtol_none t h1, word_spec, if_neg h2, if_neg h3]
    rfl

/-- The word "none" is not one of them, and no integer begins it. -/
example : ∀ t, some (str ['n', 'o', 'n', 'e']) = some t →
    (¬ ∃ v, Int_ t v) ∧ t.map Spec.Path.lower ∉ yes ∧ t.map Spec.Path.lower ∉ no := by
  intro t h
  have h := Option.some.inj h
  subst h
  refine ⟨?_, by decide +kernel, by decide +kernel⟩
  rintro ⟨v, hv⟩
  have := (strtol_iff _ _).2 ⟨v, hv, rfl⟩
  have h2 : strtol (str ['n', 'o', 'n', 'e']) = none := by decide +kernel
  rw [h2] at this
  exact absurd this (by simp)

namespace IntT

theorem dig_ten (n : Nat) (h : n < 10) : isDig 10 (ch '0' + UInt8.ofNat n) = true ∧ digitVal (ch '0' + UInt8.ofNat n) = n := by
  revert n
  decide +kernel

theorem dec_digits (n : Nat) : Digits 10 (dec n) n := by
  induction n using Nat.strongRecOn with
  | ind n ih =>
    by_cases h : n < 10
    · obtain ⟨e, -⟩ := dec_digit n h
      rw [e]
      have := Digits.snoc [] 0 _ n (Digits.nil (base := 10)) ((digit_some (by omega)).2 (dig_ten n h))
      simpa using this
    · rw [dec_step n (by omega)]
      obtain ⟨e, -⟩ := dec_digit (n % 10) (Nat.mod_lt _ (by omega))
      rw [e]
      have := Digits.snoc _ _ _ (n % 10) (ih (n / 10) (by omega)) ((digit_some (by omega)).2 (dig_ten (n % 10) (Nat.mod_lt _ (by omega))))
      have e2 : n / 10 * 10 + n % 10 = n := by omega
      rw [e2] at this
      exact this

theorem dec_first (n : Nat) (h : 0 < n) : ∃ c r, dec n = c :: r ∧ c ≠ ch '0' := by
  induction n using Nat.strongRecOn with
  | ind n ih =>
    by_cases h10 : n < 10
    · obtain ⟨e, -⟩ := dec_digit n h10
      refine ⟨_, _, e, ?_⟩
      have : ∀ n < 10, 0 < n → ch '0' + UInt8.ofNat n ≠ ch '0' := by decide +kernel
      exact this n h10 h
    · obtain ⟨c, r, e, hc⟩ := ih (n / 10) (by omega) (by omega)
      rw [dec_step n (by omega), e]
      exact ⟨c, _, rfl, hc⟩

theorem dec_begins (n : Nat) : Begins (dec n) n := by
  by_cases h : n = 0
  · subst h
    have : dec 0 = ch '0' :: ([] ++ []) := by decide +kernel
    rw [this]
    exact Begins.oct [] [] 0 Digits.nil (by intro c r h; simp at h) (by intro _ x d r h; simp at h)
  · obtain ⟨c, r, e, hc⟩ := dec_first n (by omega)
    have hd := dec_digits n
    rw [e] at hd ⊢
    have := Begins.dec c r [] n hc hd (by intro c r h; simp at h)
    simpa using this

theorem decimal_int (i : Int) : Int_ (Spec.Num.decimal i) i := by
  unfold Spec.Num.decimal
  by_cases h : i < 0
  · rw [if_pos h]
    have := Int_.minus [] (dec i.natAbs) i.natAbs (by simp) (dec_begins _)
    have e : -((i.natAbs : Nat) : Int) = i := by omega
    rw [e] at this
    exact this
  · rw [if_neg h]
    have := Int_.plain [] (dec i.natAbs) i.natAbs (by simp) (dec_begins _)
    have e : ((i.natAbs : Nat) : Int) = i := by omega
    rw [e] at this
    exact this

end IntT

/-- C80: an integer that is stored is read back, by any key that is the same without regard to case and slashes, from any
    generator that behaves as a configuration. What is missing: the smallest int, the text of which is undefined (C32). -/
theorem C80_roundtrip_partial {σ : Type} (I : IGen σ) (Rep : σ → Spec.Conf.State → Prop) (hI : Behaves I Rep) (s : σ)
    (m : Spec.Conf.State) (h : Rep s m) (k k' : Text) (hk : Spec.Path.dir k = false) (hk' : Spec.Path.dir k' = false)
    (he : place k' = place k) (i : Int) (hi : -2147483648 < i ∧ i < 2147483648) :
    ∃ s', setmeint I s (Key.parse k) i = some s' ∧ ∀ d, getmeint I s' (Key.parse k') d = i := by
  have hp := C32_print_signed_partial 32 i (by constructor <;> simp <;> omega) (by simp; omega)
  refine ⟨I.set s (Key.parse k) (some (Spec.Num.decimal i)), by unfold setmeint; rw [hp]; rfl, ?_⟩
  intro d
  unfold getmeint
  rw [(hI.reads _ _ (hI.set s m h k _)).get k', Spec.Conf.get, hk']
  simp only [Spec.Conf.set, hk, he, Bool.false_eq_true, if_false, if_true]
  exact C80_number_partial _ i (decimal_int i) ⟨by omega, by omega⟩ d

example : ∃ s', setmeint (IGen.temp id) TempGen.new (Key.parse (str ['a', '/', 'b'])) (-42) = some s' ∧
    ∀ d, getmeint (IGen.temp id) s' (Key.parse (str ['/', 'A', '/', '/', 'b'])) d = -42 :=
  C80_roundtrip_partial _ Temp.Holds (temp_behaves id fun _ => List.Perm.refl _) _ _ Temp.new_holds _ _ (by decide +kernel)
    (by decide +kernel) (by decide +kernel) (-42) (by omega)

/-- C80: numbers are read as in C, so that what looks like a decimal number may not be one. -/
theorem C80_octal : Int_ (str ['0', '1', '0']) 8 ∧ Int_ (str ['0', '9']) 0 := by
  constructor
  · exact Int_.plain [] _ 8 (by simp) ((number_iff _ _).1 (by decide +kernel))
  · exact Int_.plain [] _ 0 (by simp) ((number_iff _ _).1 (by decide +kernel))

end Props
