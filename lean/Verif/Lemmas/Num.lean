import Verif.Model.Num
import Mathlib.Tactic.Conv
/-
Lemmas about the number conversions.
-/
namespace Wv.Num

theorem xor_swap (a b : Byte) : (b ^^^ (a ^^^ b)) = a ∧ ((a ^^^ b) ^^^ (b ^^^ (a ^^^ b))) = b := by
  have h : (b ^^^ (a ^^^ b)) = a := by
    rw [UInt8.xor_comm a b, ← UInt8.xor_assoc]; simp
  refine ⟨h, ?_⟩
  rw [h, UInt8.xor_comm (a ^^^ b) a, ← UInt8.xor_assoc]; simp

theorem swap_length (l : List Byte) (b e : Nat) : (swap l b e).length = l.length := by simp [swap]

theorem swap_get (l : List Byte) (b e i : Nat) (hb : b < l.length) (he : e < l.length) (hne : b ≠ e) :
    (swap l b e).getD i 0 = if i = b then l.getD e 0 else if i = e then l.getD b 0 else l.getD i 0 := by
  have hx := xor_swap (l.getD b 0) (l.getD e 0)
  unfold swap
  simp only [List.getD_eq_getElem?_getD, List.getElem?_set, List.length_set] at hx ⊢
  by_cases h1 : i = b
  · subst h1
    simp only [if_true, hb, he, hne, hne.symm, if_false, Option.getD_some]
    exact hx.2
  · by_cases h2 : i = e
    · subst h2
      simp only [if_true, hb, he, hne, hne.symm, if_false, Option.getD_some, h1]
      exact hx.1
    · simp [h1, h2, Ne.symm h1, Ne.symm h2]

theorem strrevLoop_length (l : List Byte) (b e : Nat) : (strrevLoop l b e).length = l.length := by
  fun_induction strrevLoop l b e with
  | case1 l b e h ih => rw [ih, swap_length]
  | case2 => rfl

theorem strrevLoop_get (l : List Byte) (b e : Nat) (he : e ≤ l.length) (i : Nat) :
    (strrevLoop l b e).getD i 0 = if b ≤ i ∧ i < e then l.getD (b + e - 1 - i) 0 else l.getD i 0 := by
  fun_induction strrevLoop l b e with
  | case1 l b e h ih =>
    rw [ih (by rw [swap_length]; omega)]
    by_cases h1 : b + 1 ≤ i ∧ i < e - 1
    · rw [if_pos h1, if_pos (by omega), swap_get _ _ _ _ (by omega) (by omega) (by omega),
        if_neg (by omega), if_neg (by omega)]
      congr 1; omega
    · rw [if_neg h1, swap_get _ _ _ _ (by omega) (by omega) (by omega)]
      by_cases h2 : i = b
      · rw [if_pos h2, if_pos (by omega)]; congr 1; omega
      · rw [if_neg h2]
        by_cases h3 : i = e - 1
        · rw [if_pos h3, if_pos (by omega)]; congr 1; omega
        · rw [if_neg h3, if_neg (by omega)]
  | case2 l b e h =>
    by_cases h1 : b ≤ i ∧ i < e
    · rw [if_pos h1]; congr 1; omega
    · rw [if_neg h1]

theorem strrev_eq (l : List Byte) : strrev l = l.reverse := by
  apply List.ext_getElem
  · simp [strrev, strrevLoop_length]
  · intro i h1 h2
    have h := strrevLoop_get l 0 l.length (Nat.le_refl _) i
    rw [List.length_reverse] at h2
    rw [if_pos (by omega)] at h
    have e1 : (strrev l)[i] = (strrev l).getD i 0 := by simp [h1]
    rw [e1, List.getElem_reverse]
    show (strrevLoop l 0 l.length).getD i 0 = _
    rw [h]
    have : 0 + l.length - 1 - i < l.length := by omega
    rw [List.getD_eq_getElem?_getD, List.getElem?_eq_getElem this, Option.getD_some]
    congr 1; omega

/-- The digits of a natural number. -/
abbrev dec (n : Nat) : List Byte := (Nat.toDigits 10 n).map ch

theorem dec_step (n : Nat) (h : 10 ≤ n) : dec n = dec (n / 10) ++ dec (n % 10) := by
  unfold dec
  rw [Nat.toDigits_of_base_le (by omega) h, List.map_append, Nat.toDigits_of_lt_base (Nat.mod_lt _ (by omega))]

theorem dec_digit : ∀ n < 10, dec n = [ch '0' + UInt8.ofNat n] ∧ isdigit (ch '0' + UInt8.ofNat n) = true ∧
    (ch '0' + UInt8.ofNat n).toNat - 48 = n ∧ (ch '0' + UInt8.ofNat n) ≠ ch '-' := by
  decide +kernel

theorem uitoarLoop_pos (n : Nat) (h : 0 < n) : (uitoarLoop n).reverse = dec n := by
  induction n using Nat.strongRecOn with
  | ind n ih =>
    rw [uitoarLoop, dif_pos (by omega)]
    have e1 : ((n : Int) % 10).toNat = n % 10 := by omega
    have e2 : (n : Int) / 10 = ((n / 10 : Nat) : Int) := by omega
    rw [e1, e2, List.reverse_cons]
    have hd := (dec_digit (n % 10) (Nat.mod_lt _ (by omega))).1
    by_cases h10 : 10 ≤ n
    · rw [dec_step n h10, hd, ih (n / 10) (by omega) (by omega)]
    · have e3 : n / 10 = 0 := by omega
      have e4 : n % 10 = n := by omega
      rw [e4] at hd
      rw [e3, e4, uitoarLoop]
      simpa using hd.symm

theorem uitoar_eq (n : Nat) : (uitoar n).reverse = dec n := by
  unfold uitoar
  by_cases h : n = 0
  · subst h; decide +kernel
  · rw [if_neg (by omega), uitoarLoop_pos n (by omega)]

theorem dec_isdigit (n : Nat) : ∀ c ∈ dec n, isdigit c = true ∧ c ≠ ch '-' := by
  induction n using Nat.strongRecOn with
  | ind n ih =>
    intro c hc
    by_cases h10 : 10 ≤ n
    · rw [dec_step n h10] at hc
      rcases List.mem_append.mp hc with hc | hc
      · exact ih _ (by omega) c hc
      · exact ih _ (by omega) c hc
    · obtain ⟨h1, h2, h3, h4⟩ := dec_digit n (by omega)
      rw [h1] at hc
      have := List.mem_singleton.mp hc
      rw [this]; exact ⟨h2, h4⟩

theorem dec_ne_nil (n : Nat) : dec n ≠ [] := by
  unfold dec
  intro h
  exact Nat.toDigits_ne_nil (List.map_eq_nil_iff.mp h)

/-- Reading digits into a signed type: the value before, the text after them. -/
theorem toNumLoop_dec (w : Nat) (neg : Bool) (n : Nat) (first : Bool) (r : List Byte) (hn : inRange w n) :
    toNumLoop w first neg 0 (dec n ++ r) = toNumLoop w false neg n r := by
  induction n using Nat.strongRecOn generalizing r first with
  | ind n ih =>
    by_cases h10 : 10 ≤ n
    · rw [dec_step n h10, List.append_assoc, ih (n / 10) (by omega) _ _ (by unfold inRange at *; omega)]
      obtain ⟨h1, h2, h3, -⟩ := dec_digit (n % 10) (Nat.mod_lt _ (by omega))
      rw [h1, List.singleton_append, toNumLoop, if_pos h2, h3]
      have e : ((n / 10 : Nat) : Int) * 10 + ((n % 10 : Nat) : Int) = (n : Int) := by omega
      rw [e, store, if_pos hn]; rfl
    · obtain ⟨h1, h2, h3, -⟩ := dec_digit n (by omega)
      rw [h1, List.singleton_append, toNumLoop, if_pos h2, h3]
      have e : (0 : Int) * 10 + (n : Int) = (n : Int) := by omega
      rw [e, store, if_pos hn]; rfl

theorem toNumULoop_dec (w : Nat) (neg : Bool) (n : Nat) (first : Bool) (r : List Byte) (hn : n < 2 ^ w) :
    toNumULoop w first neg 0 (dec n ++ r) = toNumULoop w false neg n r := by
  induction n using Nat.strongRecOn generalizing r first with
  | ind n ih =>
    by_cases h10 : 10 ≤ n
    · rw [dec_step n h10, List.append_assoc, ih (n / 10) (by omega) _ _ (by omega)]
      obtain ⟨h1, h2, h3, -⟩ := dec_digit (n % 10) (Nat.mod_lt _ (by omega))
      rw [h1, List.singleton_append, toNumULoop, if_pos h2, h3]
      have e : n / 10 * 10 + n % 10 = n := by omega
      rw [e, Nat.mod_eq_of_lt hn]
    · obtain ⟨h1, h2, h3, -⟩ := dec_digit n (by omega)
      rw [h1, List.singleton_append, toNumULoop, if_pos h2, h3]
      rw [Nat.zero_mul, Nat.zero_add, Nat.mod_eq_of_lt hn]

theorem digits_dec (n : Nat) (r : List Byte) : digits 0 (dec n ++ r) = digits n r := by
  induction n using Nat.strongRecOn generalizing r with
  | ind n ih =>
    by_cases h10 : 10 ≤ n
    · rw [dec_step n h10, List.append_assoc, ih (n / 10) (by omega)]
      obtain ⟨h1, h2, h3, -⟩ := dec_digit (n % 10) (Nat.mod_lt _ (by omega))
      rw [h1, List.singleton_append, digits, if_pos h2, h3]
      have e : n / 10 * 10 + n % 10 = n := by omega
      rw [e]
    · obtain ⟨h1, h2, h3, -⟩ := dec_digit n (by omega)
      rw [h1, List.singleton_append, digits, if_pos h2, h3, Nat.zero_mul, Nat.zero_add]

end Wv.Num
