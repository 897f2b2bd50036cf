import Verif.Lemmas.Num
import Verif.Spec.Num
import Verif.Lemmas.Basic
/-
C32: integers print and parse exactly.
-/
namespace Props
open Wv Wv.Num
open Spec.Num (decimal)

/-- C32 (print): a WvString of any unsigned integer is its canonical decimal text. -/
theorem C32_print_unsigned (n : Nat) : ofUnsigned n = decimal n := by
  rw [ofUnsigned, strrev_eq, uitoar_eq]
  have h : ¬ ((n : Int) < 0) := by omega
  simp [decimal, h]

/-- C32 (print): a WvString of any signed integer but the smallest of its type is its canonical decimal text. -/
theorem C32_print_signed_partial (w : Nat) (i : Int) (h : inRange w i) (hmin : i ≠ -(2 ^ (w - 1) : Nat)) :
    ofSigned w i = some (decimal i) := by
  unfold inRange at h
  unfold ofSigned itoar decimal
  by_cases hn : i < 0
  · rw [if_pos hn, if_pos hn, store, if_pos (by unfold inRange; omega)]
    have e : -i = (i.natAbs : Int) := by omega
    simp only [Option.map_some, strrev_eq, List.reverse_append, e, uitoar_eq]
    rfl
  · rw [if_neg hn, if_neg hn]
    have e : i = (i.natAbs : Int) := by omega
    rw [e]
    simp only [Option.map_some, strrev_eq, uitoar_eq]
    simp

/-- C32: the smallest short prints as a lone minus sign. -/
theorem C32_print_smallest_short_fails : ofSigned 16 (-32768) = some [ch '-'] ∧ some [ch '-'] ≠ some (decimal (-32768)) := by
  constructor
  · have h1 : store 16 (- -32768) = some (-32768) := by decide
    have h2 : uitoar (-32768) = [] := by
      rw [uitoar, if_neg (by decide), uitoarLoop, dif_neg (by decide)]
    rw [ofSigned, itoar, if_pos (by decide), h1, Option.map_some, h2]
    decide +kernel
  · decide +kernel

/-- C32: printing the smallest int, long or long long is a signed overflow. -/
theorem C32_print_smallest_undefined (w : Nat) (hw : 32 ≤ w) : ofSigned w (-(2 ^ (w - 1) : Nat)) = none := by
  have hp : 0 < 2 ^ (w - 1) := Nat.two_pow_pos _
  unfold ofSigned itoar
  rw [if_pos (by omega), store, if_neg (by unfold inRange; omega), if_neg (by omega)]
  rfl

/-- C32 (memory): the text of every integer of up to 64 bits and its NUL fit in the 32 bytes allocated. -/
theorem C32_print_fits (i : Int) (h : i.natAbs < 2 ^ 64) : (decimal i).length + 1 ≤ 32 := by
  have := (Nat.length_toDigits_le_iff (b := 10) (n := i.natAbs) (k := 20) (by omega) (by omega)).mpr (by omega)
  unfold decimal
  split <;> simp <;> omega

/-- C32 (parse): wvstring_to_num accepts the decimal text of each signed value but the smallest, with that value. -/
theorem C32_parse_signed_partial (w : Nat) (i : Int) (h : inRange w i) (hmin : i ≠ -(2 ^ (w - 1) : Nat)) :
    toNum w (decimal i) = some (true, i) := by
  unfold inRange at h
  unfold toNum decimal
  by_cases hn : i < 0
  · rw [if_pos hn, List.singleton_append, toNumLoop, if_neg (by decide), if_pos (by decide)]
    have := toNumLoop_dec w true i.natAbs false [] (by unfold inRange; omega)
    rw [List.append_nil] at this
    rw [this, toNumLoop, if_pos rfl]
    have e : -(i.natAbs : Int) = i := by omega
    rw [e, store, if_pos (show inRange w i from h)]; rfl
  · rw [if_neg hn, List.nil_append]
    have := toNumLoop_dec w false i.natAbs true [] (by unfold inRange; omega)
    rw [List.append_nil] at this
    rw [this, toNumLoop, if_neg (by decide)]
    have e : (i.natAbs : Int) = i := by omega
    rw [e]

/-- C32 (parse): the same for unsigned types, without exception. -/
theorem C32_parse_unsigned (w n : Nat) (h : n < 2 ^ w) : toNumU w (decimal n) = (true, n) := by
  have := toNumULoop_dec w false n true [] h
  rw [List.append_nil] at this
  have hn : ¬ ((n : Int) < 0) := by omega
  simp only [toNumU, decimal, hn, if_false, List.nil_append, Int.natAbs_natCast, this, toNumULoop]
  rfl

/-- C32 (parse): num() of the decimal text of an int is that int. -/
theorem C32_num (i : Int) (h : inRange 32 i) : num (decimal i) = some i := by
  unfold num decimal
  have hd : ∀ r, digits 0 ((Nat.toDigits 10 i.natAbs).map ch ++ r) = digits i.natAbs r := digits_dec i.natAbs
  have hd0 := hd []
  rw [List.append_nil] at hd0
  by_cases hn : i < 0
  · rw [if_pos hn, List.singleton_append, List.dropWhile_cons, show isspace (ch '-') = false from by decide]
    have e : -(i.natAbs : Int) = i := by omega
    simp only [Bool.false_eq_true, if_false, beq_self_eq_true, if_true, hd0, digits, e, h]
  · rw [if_neg hn, List.nil_append]
    have hg := dec_isdigit i.natAbs
    have hne := dec_ne_nil i.natAbs
    cases hl : (Nat.toDigits 10 i.natAbs).map ch with
    | nil => exact absurd hl hne
    | cons c r =>
      have hc := hg c (by unfold dec; rw [hl]; simp)
      have hs : isspace c = false := by
        have : ∀ c : Byte, isdigit c = true → isspace c = false := by
          intro c; revert c; exact forall_byte (by decide +kernel)
        exact this c hc.1
      have hp : (c == ch '+') = false := by
        have : ∀ c : Byte, isdigit c = true → (c == ch '+') = false := by
          intro c; revert c; exact forall_byte (by decide +kernel)
        exact this c hc.1
      have hm : (c == ch '-') = false := by simpa using hc.2
      rw [hl] at hd0
      have e : (i.natAbs : Int) = i := by omega
      rw [List.dropWhile_cons, hs]
      simp only [Bool.false_eq_true, if_false, hm, hp, hd0, digits, e, h, if_true]

/-- C32: is_int accepts the decimal text of every integer. -/
theorem C32_is_int (i : Int) : isInt (decimal i) = true := by
  have hg := dec_isdigit i.natAbs
  have hne := dec_ne_nil i.natAbs
  have hall : (dec i.natAbs).all isdigit = true := List.all_eq_true.mpr fun c hc => (hg c hc).1
  unfold isInt decimal
  by_cases hn : i < 0
  · rw [if_pos hn, List.singleton_append]
    simp only [beq_self_eq_true, if_true]
    rw [if_neg hne]; exact hall
  · rw [if_neg hn, List.nil_append]
    cases hl : (Nat.toDigits 10 i.natAbs).map ch with
    | nil => exact absurd hl hne
    | cons c r =>
      have hm : (c == ch '-') = false := by
        have := (hg c (by unfold dec; rw [hl]; simp)).2
        simpa using this
      simp only [hm, Bool.false_eq_true, if_false]
      rw [if_neg (by simp), ← hl]; exact hall

/-- C32: wvstring_to_num also accepts texts that are not numbers. -/
theorem C32_parse_only_numbers_fails : ¬ ∀ s n, toNum 32 s = some (true, n) → isInt s = true := by
  intro h
  exact absurd (h [ch '-'] 0 (by decide)) (by decide)

example : inRange 32 (-2147483647) ∧ (-2147483647 : Int) ≠ -(2 ^ (32 - 1) : Nat) := by decide
example : decimal (-1203) = str ['-', '1', '2', '0', '3'] := by decide +kernel
example : (18446744073709551615 : Int).natAbs < 2 ^ 64 := by decide

/-- The value of a text of decimal digits. -/
def digitsValue (d : List Byte) : Nat := d.foldl (fun a c => a * 10 + (c.toNat - 48)) 0

theorem toNumLoop_digits (w : Nat) (neg : Bool) (s : List Byte) : ∀ (a : Int) (n : Int) (k : Nat), (32 ≤ w → a = k) →
    toNumLoop w false neg a s = some (true, n) →
    (∀ c ∈ s, 48 ≤ c ∧ c ≤ 57) ∧
    (32 ≤ w → n = (if neg then -1 else 1) * (s.foldl (fun a c => a * 10 + (c.toNat - 48)) k : Nat)) := by
  induction s with
  | nil =>
    intro a n k hk h
    refine ⟨by simp, ?_⟩
    intro hw
    cases neg
    · simp only [toNumLoop, Bool.false_eq_true, if_false, Option.some.injEq, Prod.mk.injEq, true_and] at h
      rw [← h, hk hw]; simp
    · simp only [toNumLoop, if_true, store, show ¬ w < 32 by omega, if_false] at h
      split at h
      · simp only [Option.map_some, Option.some.injEq, Prod.mk.injEq, true_and] at h
        rw [← h, hk hw]; simp
      · simp at h
  | cons c s ih =>
    intro a n k hk h
    rw [toNumLoop] at h
    by_cases hd : isdigit c = true
    · rw [if_pos hd] at h
      have hd' : 48 ≤ c ∧ c ≤ 57 := by
        have : ∀ c : Byte, isdigit c = true → 48 ≤ c ∧ c ≤ 57 := by
          intro c; revert c; exact forall_byte (by decide +kernel)
        exact this c hd
      cases hst : store w (a * 10 + (c.toNat - 48 : Nat)) with
      | none => rw [hst] at h; simp at h
      | some b =>
        rw [hst, Option.bind_some] at h
        have hb : 32 ≤ w → b = ((k * 10 + (c.toNat - 48) : Nat) : Int) := by
          intro hw
          simp only [store, show ¬ w < 32 by omega, if_false] at hst
          split at hst
          · simp only [Option.some.injEq] at hst
            rw [← hst, hk hw]; simp
          · simp at hst
        obtain ⟨h1, h2⟩ := ih b n _ hb h
        refine ⟨?_, h2⟩
        intro d hdm
        rcases List.mem_cons.mp hdm with rfl | hdm
        · exact hd'
        · exact h1 d hdm
    · rw [if_neg hd] at h
      simp at h

/-- C32 (parse): whatever wvstring_to_num accepts is an optional minus sign followed by digits, and for types at least as
    wide as int the value returned is exactly what the digits say. -/
theorem C32_parse_accepts_only (w : Nat) (s : List Byte) (n : Int) (h : toNum w s = some (true, n)) :
    ∃ (neg : Bool) (d : List Byte), s = (if neg then [ch '-'] else []) ++ d ∧ (∀ c ∈ d, 48 ≤ c ∧ c ≤ 57) ∧
      (32 ≤ w → n = (if neg then -1 else 1) * (digitsValue d : Int)) := by
  unfold toNum at h
  cases s with
  | nil =>
    simp only [toNumLoop, Bool.false_eq_true, if_false, Option.some.injEq, Prod.mk.injEq, true_and] at h
    exact ⟨false, [], rfl, by simp, fun _ => by rw [← h]; rfl⟩
  | cons c s =>
    rw [toNumLoop] at h
    by_cases hd : isdigit c = true
    · have h' : toNumLoop w false false 0 (c :: s) = some (true, n) := by
        rw [toNumLoop, if_pos hd]; rw [if_pos hd] at h; exact h
      obtain ⟨h1, h2⟩ := toNumLoop_digits w false (c :: s) 0 n 0 (fun _ => rfl) h'
      exact ⟨false, c :: s, rfl, h1, h2⟩
    · rw [if_neg hd] at h
      by_cases hm : c = ch '-'
      · subst hm
        simp only [beq_self_eq_true, Bool.and_self, if_true] at h
        obtain ⟨h1, h2⟩ := toNumLoop_digits w true s 0 n 0 (fun _ => rfl) h
        exact ⟨true, s, rfl, h1, h2⟩
      · have : (c == ch '-') = false := by simpa using hm
        simp [this] at h

theorem toNumULoop_digits (w : Nat) (neg : Bool) (s : List Byte) : ∀ (a n k : Nat), a % 2 ^ w = k % 2 ^ w → a < 2 ^ w →
    toNumULoop w false neg a s = (true, n) →
    (∀ c ∈ s, 48 ≤ c ∧ c ≤ 57) ∧
    n = (if neg then (2 ^ w - (s.foldl (fun a c => a * 10 + (c.toNat - 48)) k) % 2 ^ w) % 2 ^ w
      else (s.foldl (fun a c => a * 10 + (c.toNat - 48)) k) % 2 ^ w) := by
  induction s with
  | nil =>
    intro a n k hk ha h
    refine ⟨by simp, ?_⟩
    rw [Nat.mod_eq_of_lt ha] at hk
    cases neg <;> simp [toNumULoop] at h <;> simp [← h, ← hk]
  | cons c s ih =>
    intro a n k hk ha h
    rw [toNumULoop] at h
    by_cases hd : isdigit c = true
    · rw [if_pos hd] at h
      have hd' : 48 ≤ c ∧ c ≤ 57 := by
        have : ∀ c : Byte, isdigit c = true → 48 ≤ c ∧ c ≤ 57 := by
          intro c; revert c; exact forall_byte (by decide +kernel)
        exact this c hd
      obtain ⟨h1, h2⟩ := ih ((a * 10 + (c.toNat - 48)) % 2 ^ w) n (k * 10 + (c.toNat - 48)) (by
        rw [Nat.mod_mod, Nat.add_mod, Nat.mul_mod, hk, ← Nat.mul_mod, ← Nat.add_mod])
        (Nat.mod_lt _ (Nat.two_pow_pos w)) h
      refine ⟨?_, h2⟩
      intro d hdm
      rcases List.mem_cons.mp hdm with rfl | hdm
      · exact hd'
      · exact h1 d hdm
    · rw [if_neg hd] at h
      simp at h

/-- C32 (parse): the same for an unsigned type, where the value is what the digits say modulo the size of the type. -/
theorem C32_parse_accepts_only_unsigned (w : Nat) (s : List Byte) (n : Nat) (h : toNumU w s = (true, n)) :
    ∃ (neg : Bool) (d : List Byte), s = (if neg then [ch '-'] else []) ++ d ∧ (∀ c ∈ d, 48 ≤ c ∧ c ≤ 57) ∧
      n = (if neg then (2 ^ w - digitsValue d % 2 ^ w) % 2 ^ w else digitsValue d % 2 ^ w) := by
  unfold toNumU at h
  have hz : 0 < 2 ^ w := Nat.two_pow_pos w
  cases s with
  | nil =>
    simp [toNumULoop] at h
    exact ⟨false, [], rfl, by simp, by simp [digitsValue, ← h]⟩
  | cons c s =>
    rw [toNumULoop] at h
    by_cases hd : isdigit c = true
    · have h' : toNumULoop w false false 0 (c :: s) = (true, n) := by
        rw [toNumULoop, if_pos hd]; rw [if_pos hd] at h; exact h
      obtain ⟨h1, h2⟩ := toNumULoop_digits w false (c :: s) 0 n 0 rfl hz h'
      exact ⟨false, c :: s, rfl, h1, h2⟩
    · rw [if_neg hd] at h
      by_cases hm : c = ch '-'
      · subst hm
        simp only [beq_self_eq_true, Bool.and_self, if_true] at h
        obtain ⟨h1, h2⟩ := toNumULoop_digits w true s 0 n 0 rfl hz h
        exact ⟨true, s, rfl, h1, h2⟩
      · have : (c == ch '-') = false := by simpa using hm
        simp [this] at h

/-- C32: is_int accepts exactly an optional minus sign followed by at least one digit. -/
theorem C32_is_int_exact (s : List Byte) :
    isInt s = true ↔ ∃ (neg : Bool) (d : List Byte), s = (if neg then [ch '-'] else []) ++ d ∧ d ≠ [] ∧ ∀ c ∈ d, 48 ≤ c ∧ c ≤ 57 := by
  have hd : ∀ c : Byte, isdigit c = true ↔ 48 ≤ c ∧ c ≤ 57 := by
    intro c
    have : ∀ c : Byte, isdigit c = decide (48 ≤ c ∧ c ≤ 57) := forall_byte (by decide +kernel)
    rw [this c]; simp
  have hm : isdigit (ch '-') = false := by decide
  unfold isInt
  cases s with
  | nil =>
    simp only [if_true, Bool.false_eq_true, false_iff]
    rintro ⟨neg, d, h, hne, -⟩
    have := congrArg List.length h
    simp at this
    cases d with
    | nil => exact hne rfl
    | cons => simp at this
  | cons c r =>
    by_cases hc : c = ch '-'
    · subst hc
      simp only [beq_self_eq_true, if_true]
      by_cases hr : r = []
      · subst hr
        simp only [if_true, Bool.false_eq_true, false_iff]
        rintro ⟨neg, d, h, hne, hall⟩
        cases neg
        · simp at h
          have := (hd (ch '-')).mpr (hall _ (by rw [← h]; simp))
          rw [hm] at this; simp at this
        · simp at h; exact hne h
      · rw [if_neg hr, List.all_eq_true]
        constructor
        · intro h; exact ⟨true, r, rfl, hr, fun c hc => (hd c).mp (h c hc)⟩
        · rintro ⟨neg, d, h, hne, hall⟩
          cases neg
          · simp at h
            have := (hd (ch '-')).mpr (hall _ (by rw [← h]; simp))
            rw [hm] at this; simp at this
          · simp at h; subst h; exact fun c hc => (hd c).mpr (hall c hc)
    · have hb : (c == ch '-') = false := by simpa using hc
      simp only [hb, Bool.false_eq_true, if_false]
      rw [if_neg (by simp), List.all_eq_true]
      constructor
      · intro h; exact ⟨false, c :: r, rfl, by simp, fun c hc => (hd c).mp (h c hc)⟩
      · rintro ⟨neg, d, h, hne, hall⟩
        cases neg
        · simp at h; rw [h]; exact fun c hc => (hd c).mpr (hall c hc)
        · simp at h; exact absurd h.1 hc

example : toNum 32 (str ['-', '0', '7']) = some (true, -7) ∧ toNum 32 (str ['7', '-']) = some (false, 7) := by decide

end Props
