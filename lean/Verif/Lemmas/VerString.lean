import Verif.Model.VerString
import Verif.Lemmas.Basic
/-
Lemmas about version strings.
-/
namespace Wv.Ver

theorem hexchar_facts : ∀ d < 16, find (hexchar d) = some d ∧ isSep (hexchar d) = false ∧
    (hexchar d != ch '.') = true ∧ (hexchar d == ch '.') = false ∧ (hexchar d != ch '0') = (d != 0) := by
  decide +kernel

theorem shor_eq (x k y : Nat) (hy : y < 2 ^ k) (hx : x * 2 ^ k < 2 ^ 32) : shor x k y = x * 2 ^ k + y := by
  unfold shor
  rw [Nat.shiftLeft_eq, Nat.mod_eq_of_lt hx, ← Nat.shiftLeft_eq, Nat.shiftLeft_add_eq_or_of_lt hy]

theorem shor_zero (x k : Nat) (hx : x * 2 ^ k < 2 ^ 32) : shor x k 0 = x * 2 ^ k := by
  rw [shor_eq x k 0 (Nat.two_pow_pos _) hx]; omega

/-- The `k` hexadecimal digits of `n`, most significant first. -/
def nibbles : Nat → Nat → List Nat
  | 0, _ => []
  | k + 1, n => nibbles k (n / 16) ++ [n % 16]

theorem hexFrom_eq (k : Nat) : ∀ n acc, n < 16 ^ k → hexFrom n k acc = (nibbles k n).map hexchar ++ acc := by
  induction k with
  | zero =>
    intro n acc h
    have : n = 0 := by simpa using h
    subst this
    rw [hexFrom]; simp [nibbles]
  | succ k ih =>
    intro n acc h
    rw [hexFrom]
    split
    · rename_i h0
      subst h0
      have hr : ∀ k, (nibbles k 0).map hexchar = List.replicate k (ch '0') := by
        intro k
        induction k with
        | zero => rfl
        | succ k ih =>
          rw [nibbles, List.map_append, Nat.zero_div, ih, List.replicate_succ']
          rfl
      rw [hr]
    · rw [Nat.add_sub_cancel, ih _ _ (by rw [Nat.pow_succ] at h; omega), nibbles]
      simp

theorem hex_eq (k n : Nat) (h : n < 16 ^ k) : hex k n = (nibbles k n).map hexchar := by
  rw [hex, hexFrom_eq k n [] h, List.append_nil]

theorem hex1_eq (n : Nat) (h : n < 256) :
    hex 1 n = if n < 16 then [hexchar n] else [hexchar (n / 16), hexchar (n % 16)] := by
  by_cases h1 : n < 16
  · rw [if_pos h1, hex_eq 1 n (by omega)]; simp [nibbles, Nat.mod_eq_of_lt h1]
  · rw [if_neg h1, hex, hexFrom, dif_neg (by omega), hexFrom, dif_neg (by omega), hexFrom, dif_pos (by omega)]
    rw [Nat.mod_eq_of_lt (by omega : n / 16 < 16)]
    rfl

theorem major_digits (ds : List Nat) (r : List Byte) (c : Byte) (hc : isSep c = true) :
    ∀ m, (∀ d ∈ ds, d < 16) → m * 16 ^ ds.length + 16 ^ ds.length ≤ 2 ^ 32 →
    major m (ds.map hexchar ++ c :: r) = (ds.foldl (fun n d => n * 16 + d) m, c :: r) := by
  induction ds with
  | nil => intro m _ _; simp [major, hc]
  | cons d ds ih =>
    intro m h hm
    have hd := hexchar_facts d (h d (by simp))
    rw [List.map_cons, List.cons_append, major, hd.2.1]
    simp only [Bool.false_eq_true, if_false, hd.1]
    have hlt := h d (by simp)
    rw [List.length_cons, Nat.pow_succ] at hm
    have hp : 1 ≤ 16 ^ ds.length := Nat.pos_of_ne_zero (by simp)
    have h2 : m * 16 < 2 ^ 32 := by
      have : m * 16 * 16 ^ ds.length + 16 * 16 ^ ds.length ≤ 2 ^ 32 := by
        calc _ = m * (16 ^ ds.length * 16) + 16 ^ ds.length * 16 := by
              rw [Nat.mul_assoc, Nat.mul_comm 16 (16 ^ ds.length)]
          _ ≤ _ := hm
      have := Nat.le_mul_of_pos_right (m * 16) hp
      omega
    rw [shor_eq m 4 d hlt h2, ih (m * 16 + d) (fun x hx => h x (by simp [hx])), List.foldl_cons]
    · calc (m * 16 + d) * 16 ^ ds.length + 16 ^ ds.length ≤ (m * 16 + 15) * 16 ^ ds.length + 16 ^ ds.length :=
            Nat.add_le_add_right (Nat.mul_le_mul_right _ (by omega)) _
        _ = m * (16 ^ ds.length * 16) + 16 ^ ds.length * 16 := by
            rw [Nat.add_mul, Nat.mul_assoc, Nat.mul_comm 16 (16 ^ ds.length)]; omega
        _ ≤ _ := hm

theorem digits_digits (stop : Bool) (ds : List Nat) (r : List Byte) :
    ∀ bits m, (∀ d ∈ ds, d < 16) → ds.length ≤ bits → m * 16 ^ ds.length + 16 ^ ds.length ≤ 2 ^ 32 →
    digits stop bits m (ds.map hexchar ++ r) = digits stop (bits - ds.length) (ds.foldl (fun n d => n * 16 + d) m) r := by
  induction ds with
  | nil => intro bits m _ _ _; simp
  | cons d ds ih =>
    intro bits m h hb hm
    have hd := hexchar_facts d (h d (by simp))
    rw [List.length_cons] at hb
    rw [List.map_cons, List.cons_append, digits, if_neg (by omega), hd.2.1]
    simp only [Bool.and_false, Bool.false_eq_true, if_false, hd.1]
    have hlt := h d (by simp)
    rw [List.length_cons, Nat.pow_succ] at hm
    have hp : 1 ≤ 16 ^ ds.length := Nat.pos_of_ne_zero (by simp)
    have h2 : m * 16 < 2 ^ 32 := by
      have : m * 16 * 16 ^ ds.length + 16 * 16 ^ ds.length ≤ 2 ^ 32 := by
        calc _ = m * (16 ^ ds.length * 16) + 16 ^ ds.length * 16 := by
              rw [Nat.mul_assoc, Nat.mul_comm 16 (16 ^ ds.length)]
          _ ≤ _ := hm
      have := Nat.le_mul_of_pos_right (m * 16) hp
      omega
    rw [shor_eq m 4 d hlt h2, ih (bits - 1) (m * 16 + d) (fun x hx => h x (by simp [hx])) (by omega), List.foldl_cons,
      List.length_cons, Nat.sub_sub, Nat.add_comm 1]
    · calc (m * 16 + d) * 16 ^ ds.length + 16 ^ ds.length ≤ (m * 16 + 15) * 16 ^ ds.length + 16 ^ ds.length :=
            Nat.add_le_add_right (Nat.mul_le_mul_right _ (by omega)) _
        _ = m * (16 ^ ds.length * 16) + 16 ^ ds.length * 16 := by
            rw [Nat.add_mul, Nat.mul_assoc, Nat.mul_comm 16 (16 ^ ds.length)]; omega
        _ ≤ _ := hm

theorem digits_dot (bits m : Nat) (r : List Byte) (hb : bits ≠ 0) :
    digits false bits m (ch '.' :: r) = digits false bits m r := by
  rw [digits, if_neg hb]
  have : find (ch '.') = none := by decide +kernel
  rw [this]; rfl

theorem nodot (ds : List Nat) (h : ∀ d ∈ ds, d < 16) : ∀ c ∈ ds.map hexchar, (c != ch '.') = true := by
  intro c hc
  obtain ⟨d, hd, rfl⟩ := List.mem_map.mp hc
  exact (hexchar_facts d (h d hd)).2.2.1

theorem isNewStr_two (a b : List Nat) (r : List Byte) (ha : ∀ d ∈ a, d < 16) :
    isNewStr (a.map hexchar ++ ch '.' :: (b.map hexchar ++ ch '.' :: r)) = true := by
  unfold isNewStr
  rw [List.dropWhile_append_of_pos (nodot a ha), List.dropWhile_cons]
  have : (ch '.' != ch '.') = false := by decide
  rw [this]; simp

theorem isNewStr_one (a b : List Nat) (ha : ∀ d ∈ a, d < 16) (hb : ∀ d ∈ b, d < 16) :
    isNewStr (a.map hexchar ++ ch '.' :: b.map hexchar) = false := by
  unfold isNewStr
  rw [List.dropWhile_append_of_pos (nodot a ha), List.dropWhile_cons]
  have : (ch '.' != ch '.') = false := by decide
  rw [this]
  simp only [Bool.false_eq_true, if_false, List.drop_succ_cons, List.drop_zero]
  have := nodot b hb
  cases h : (b.map hexchar).contains (ch '.') with
  | false => rfl
  | true =>
    have := this _ (List.contains_iff_mem.mp h)
    simp at this

/-- The number of a list of digits. -/
abbrev val (ds : List Nat) : Nat := ds.foldl (fun n d => n * 16 + d) 0

/-- What trimming does to four digits after the dot. -/
def trim4 (a b c d : Nat) : List Nat :=
  if d ≠ 0 then [a, b, c, d] else if c ≠ 0 then [a, b, c] else if b ≠ 0 then [a, b] else [a]

theorem trim_eq (m : List Byte) (a b c d : Nat) (ha : a < 16) (hb : b < 16) (hc : c < 16) (hd : d < 16) :
    trim (m ++ ch '.' :: [a, b, c, d].map hexchar) = m ++ ch '.' :: (trim4 a b c d).map hexchar := by
  have fa := hexchar_facts a ha
  have fb := hexchar_facts b hb
  have fc := hexchar_facts c hc
  have fd := hexchar_facts d hd
  unfold trim trim4
  simp only [List.map_cons, List.map_nil, List.reverse_append, List.reverse_cons, List.reverse_nil, List.nil_append,
    List.cons_append, List.append_assoc]
  rw [trimRev, fd.2.2.2.2]
  by_cases h1 : d = 0
  · rw [trimRev, fc.2.2.2.2, fc.2.2.2.1]
    by_cases h2 : c = 0
    · rw [trimRev, fb.2.2.2.2, fb.2.2.2.1]
      by_cases h3 : b = 0
      · rw [trimRev, fa.2.2.2.2, fa.2.2.2.1]
        by_cases h4 : a = 0 <;> simp [h1, h2, h3, h4]
      · simp [h1, h2, h3]
    · simp [h1, h2]
  · simp [h1]

theorem oldOfString_eq (m : List Nat) (a b c d : Nat) (hm : ∀ d ∈ m, d < 16) (hl : m.length ≤ 4)
    (hv : val m < 65536)
    (ha : a < 16) (hb : b < 16) (hc : c < 16) (hd : d < 16) :
    oldOfString (m.map hexchar ++ ch '.' :: (trim4 a b c d).map hexchar) =
      val m * 65536 + val [a, b, c, d] := by
  unfold oldOfString
  have hpow : 16 ^ m.length ≤ 16 ^ 4 := Nat.pow_le_pow_right (by omega) hl
  rw [major_digits m _ _ (by decide) 0 hm (by omega)]
  simp only
  rw [digits_dot _ _ _ (by omega)]
  have ht : ∀ x ∈ trim4 a b c d, x < 16 := by
    unfold trim4
    intro x hx
    repeat' split at hx
    all_goals simp at hx; omega
  have hlen : (trim4 a b c d).length ≤ 4 := by unfold trim4; repeat' split
                                               all_goals simp
  have hpow2 : 16 ^ (trim4 a b c d).length ≤ 16 ^ 4 := Nat.pow_le_pow_right (by omega) hlen
  have := digits_digits false (trim4 a b c d) [] 4 0 ht hlen (by omega)
  rw [List.append_nil] at this
  rw [this]
  simp only [digits]
  have hval : shor ((trim4 a b c d).foldl (fun n d => n * 16 + d) 0) (4 * (4 - (trim4 a b c d).length)) 0 =
      val [a, b, c, d] := by
    unfold trim4 val
    split
    · simp only [List.foldl_cons, List.foldl_nil, List.length_cons, List.length_nil]
      rw [shor_zero _ _ (by simp; omega)]; simp
    · split
      · simp only [List.foldl_cons, List.foldl_nil, List.length_cons, List.length_nil]
        rw [shor_zero _ _ (by simp; omega)]; simp; omega
      · split
        · simp only [List.foldl_cons, List.foldl_nil, List.length_cons, List.length_nil]
          rw [shor_zero _ _ (by simp; omega)]; simp; omega
        · simp only [List.foldl_cons, List.foldl_nil, List.length_cons, List.length_nil]
          rw [shor_zero _ _ (by simp; omega)]; simp; omega
  rw [hval, shor_eq _ 16 _ (by simp; omega) (by unfold val at hv; omega)]

theorem newOfString_eq (m : List Nat) (e f a b c d : Nat) (hm : ∀ d ∈ m, d < 16) (hl : m.length ≤ 2)
    (hv : val m < 256) (he : e < 16) (hf : f < 16)
    (ha : a < 16) (hb : b < 16) (hc : c < 16) (hd : d < 16) :
    newOfString (m.map hexchar ++ ch '.' :: ([e, f].map hexchar ++ ch '.' :: [a, b, c, d].map hexchar)) =
      val m * 16777216 + val [e, f] * 65536 + val [a, b, c, d] := by
  unfold newOfString
  have hpow : 16 ^ m.length ≤ 16 ^ 2 := Nat.pow_le_pow_right (by omega) hl
  rw [major_digits m _ _ (by decide) 0 hm (by omega)]
  simp only [List.drop_succ_cons, List.drop_zero]
  rw [digits_digits true [e, f] _ 2 0 (by simp; omega) (by simp) (by simp)]
  have h0 : ∀ n r, digits true (2 - [e, f].length) n (ch '.' :: r) = (n, 0, ch '.' :: r) := by
    intro n r; simp [digits]
  rw [h0]
  simp only
  rw [digits_dot _ _ _ (by omega)]
  have := digits_digits false [a, b, c, d] [] 4 0 (by simp; omega) (by simp) (by simp)
  rw [List.append_nil] at this
  rw [this]
  simp only [digits]
  have h1 : shor (val [a, b, c, d]) (4 * (4 - [a, b, c, d].length)) 0 = val [a, b, c, d] := by
    rw [shor_zero _ _ (by simp; omega)]; simp
  have h2 : shor (val [e, f]) 16 (val [a, b, c, d]) = val [e, f] * 65536 + val [a, b, c, d] :=
    shor_eq _ 16 _ (by simp; omega) (by simp; omega)
  unfold val at *
  rw [h1, h2, shor_eq _ 24 _ (by simp; omega) (by omega)]
  omega

end Wv.Ver
