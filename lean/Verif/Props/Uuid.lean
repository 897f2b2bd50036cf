import Verif.Model.Uuid
import Verif.Spec.Uuid
import Verif.Lemmas.IntText
/- C84: UUIDs as text. -/
namespace Props
open Wv Wv.Uuid Wv.IntText Spec.IntText Spec.Uuid IntT

namespace Uid

theorem dig16 (c : Byte) : isDig 16 c = true → isspace c = false ∧ c ≠ ch '-' ∧ c ≠ ch '+' ∧ c ≠ ch 'x' ∧ c ≠ ch 'X' ∧ c ≠ ch '{' ∧ digitVal c < 16 := by
  revert c; apply forall_byte; decide +kernel

theorem hex_lower (w : Nat) : ∀ (n : Nat) (x : Byte), x ∈ hex w n → x ∉ str ['A', 'B', 'C', 'D', 'E', 'F'] := by
  induction w with
  | zero => intro n x h; simp [hex] at h
  | succ w ih =>
    intro n x h
    rw [hex, List.mem_append] at h
    rcases h with h | h
    · exact ih _ _ h
    · rw [List.mem_singleton] at h
      rw [h]
      have : ∀ k : Fin 16, hexDigit k ∉ str ['A', 'B', 'C', 'D', 'E', 'F'] := by decide +kernel
      exact this ⟨n % 16, Nat.mod_lt _ (by decide)⟩

theorem fold_lt (ds : List Byte) (h : ∀ c ∈ ds, isDig 16 c = true) :
    ∀ m, ds.foldl (fun n c => n * 16 + digitVal c) m < (m + 1) * 16 ^ ds.length := by
  induction ds with
  | nil => intro m; simp
  | cons c ds ih =>
    intro m
    have h1 := ih (fun x hx => h x (by simp [hx])) (m * 16 + digitVal c)
    have h2 := (dig16 c (h c (by simp))).2.2.2.2.2.2
    rw [List.foldl_cons, List.length_cons]
    refine Nat.lt_of_lt_of_le h1 ?_
    rw [Nat.pow_succ, Nat.mul_comm (16 ^ ds.length) 16, ← Nat.mul_assoc]
    exact Nat.mul_le_mul_right _ (by omega)

theorem strtoul_digits (ds rest : List Byte) (n : Nat) (h : Digits 16 ds n) (hne : ds ≠ []) (hl : ds.length ≤ 8)
    (hr : ∀ c r, rest = c :: r → c = ch '-') : strtoul16 (ds ++ rest) = (n, ds.length) := by
  obtain ⟨hall, hn⟩ := digits_val (b := 16) (by omega) h
  have htk : (ds ++ rest).takeWhile (isDig 16) = ds := by
    rw [List.takeWhile_append_of_pos hall]
    cases rest with
    | nil => simp
    | cons c r =>
      have : isDig 16 c = false := by rw [hr c r rfl]; decide +kernel
      simp [this]
  have hlt := fold_lt ds hall 0
  have hpow : 16 ^ ds.length ≤ 16 ^ 8 := Nat.pow_le_pow_right (by omega) hl
  obtain ⟨c, r, rfl⟩ : ∃ c r, ds = c :: r := List.exists_cons_of_ne_nil hne
  have hc := dig16 c (hall c (by simp))
  have htw : ((c :: r ++ rest).takeWhile isspace).length = 0 := by simp [hc.1]
  unfold strtoul16
  simp only [htw, List.drop_zero]
  have hs1 : sign (c :: r ++ rest) = (false, 0) := by
    simp [sign, hc.2.1, hc.2.2.1]
  have hpx : pfx (c :: r ++ rest) = 0 := by
    cases r with
    | nil =>
      cases rest with
      | nil => rfl
      | cons x rest =>
        cases rest with
        | nil => rfl
        | cons d rest =>
          have hx : x = ch '-' := hr x _ rfl
          subst hx
          have h0 : (ch '-' == ch 'x' || ch '-' == ch 'X') = false := by decide +kernel
          simp only [List.cons_append, List.nil_append, pfx, h0, Bool.and_false, Bool.false_and, Bool.false_eq_true, if_false]
    | cons x r =>
      have hx := dig16 x (hall x (by simp))
      cases h2 : r ++ rest with
      | nil => simp [h2, pfx]
      | cons d q => simp [h2, pfx, hx.2.2.2.1, hx.2.2.2.2.1]
  simp only [hs1, List.drop_zero, hpx, htk]
  rw [if_neg hne]
  have hv : List.foldl (fun n c => n * 16 + digitVal c) 0 (c :: r) = n := hn
  rw [hv] at hlt ⊢
  rw [if_neg (by omega)]
  simp

theorem field_digits (w : Nat) (t rest : List Byte) (n : Nat) (h : Num w t n) (hw : 0 < w ∧ w ≤ 8) :
    field w (t ++ ch '-' :: rest) = some (n, ch '-' :: rest) := by
  unfold field
  rw [strtoul_digits t _ n h.2 (by intro e; have := h.1; rw [e] at this; simp at this; omega) (by rw [h.1]; exact hw.2)
    (by intro c r e; exact (List.cons.inj e).1.symm)]
  simp only [h.1, if_true]
  rw [← h.1, List.drop_left]

theorem pair_digits (t rest : List Byte) (b : Byte) (h : Num 2 t b.toNat) : pair (t ++ rest) = some (b, rest) := by
  unfold pair
  have ht : (t ++ rest).take 2 = t ++ [] := by rw [← h.1, List.take_left, List.append_nil]
  rw [ht, strtoul_digits t [] _ h.2 (by intro e; have := h.1; rw [e] at this; simp at this) (by rw [h.1]; omega) (by simp)]
  simp only [h.1, if_true]
  rw [← h.1, List.drop_left]
  simp

theorem sep_dash (c : Byte) (r : List Byte) : sep c (c :: r) = some r := by simp [sep]

theorem body_plain (f : Bool) (t tail : List Byte) (a b c : Nat) (bytes : List Byte) (h : Plain t a b c bytes)
    (ht : (if f then sep (ch '}') tail else some tail) = some []) :
    body f (t ++ tail) = some ⟨UInt32.ofNat a, UInt16.ofNat b, UInt16.ofNat c, bytes.map some⟩ := by
  obtain ⟨hl, ta, tb, tc, ps, h1, h2, h3, h4, rfl⟩ := h
  match bytes, hl with
  | [b0, b1, b2, b3, b4, b5, b6, b7], _ =>
    have e0 := h4 0
    have e1 := h4 1
    have e2 := h4 2
    have e3 := h4 3
    have e4 := h4 4
    have e5 := h4 5
    have e6 := h4 6
    have e7 := h4 7
    simp only [List.append_assoc, List.singleton_append, List.cons_append, List.nil_append]
    unfold body
    rw [field_digits 8 ta _ a h1 (by omega)]
    simp only [sep_dash]
    rw [field_digits 4 tb _ b h2 (by omega)]
    simp only [sep_dash]
    rw [field_digits 4 tc _ c h3 (by omega)]
    simp only [sep_dash]
    rw [pair_digits _ _ b0 e0]
    simp only
    rw [pair_digits _ _ b1 e1]
    simp only [sep_dash]
    have hp : pairs 6 (ps 2 ++ (ps 3 ++ (ps 4 ++ (ps 5 ++ (ps 6 ++ (ps 7 ++ tail)))))) =
        ([some b2, some b3, some b4, some b5, some b6, some b7], tail) := by
      simp only [pairs, pair_digits _ _ b2 e2, pair_digits _ _ b3 e3, pair_digits _ _ b4 e4, pair_digits _ _ b5 e5,
        pair_digits _ _ b6 e6, pair_digits _ _ b7 e7]
    rw [hp]
    simp only
    rw [ht]
    simp

theorem plain_first (t : List Byte) (a b c : Nat) (bytes : List Byte) (h : Plain t a b c bytes) :
    ∃ x r, t = x :: r ∧ x ≠ ch '{' := by
  obtain ⟨hl, ta, tb, tc, ps, h1, h2, h3, h4, rfl⟩ := h
  cases ta with
  | nil => simp [Num] at h1
  | cons x r =>
    obtain ⟨hall, _⟩ := digits_val (b := 16) (by omega) h1.2
    exact ⟨x, _, by simp only [List.cons_append]; rfl, (dig16 x (hall x (by simp))).2.2.2.2.2.1⟩

theorem hexDigit_ok (n : Nat) (h : n < 16) : isDig 16 (hexDigit n) = true ∧ digitVal (hexDigit n) = n := by
  have : ∀ n < 16, isDig 16 (hexDigit n) = true ∧ digitVal (hexDigit n) = n := by decide +kernel
  exact this n h

theorem hex_num : ∀ (w n : Nat), n < 16 ^ w → Num w (hex w n) n := by
  intro w
  induction w with
  | zero => intro n h; simp at h; subst h; exact ⟨rfl, Digits.nil⟩
  | succ w ih =>
    intro n h
    have h1 := ih (n / 16) (by rw [Nat.pow_succ] at h; omega)
    obtain ⟨h2, h3⟩ := hexDigit_ok (n % 16) (by omega)
    refine ⟨by rw [hex, List.length_append, h1.1]; rfl, ?_⟩
    have := Digits.snoc _ _ (hexDigit (n % 16)) _ h1.2 ((digit_some (b := 16) (by omega)).2 ⟨h2, rfl⟩)
    rw [h3] at this
    have e : n / 16 * 16 + n % 16 = n := by omega
    rw [e] at this
    exact this

end Uid
open Uid

/-- C84: every text that writes a UUID, in upper or lower case, with or without braces, is read as that UUID. -/
theorem C84_reads (s : List Byte) (a b c : Nat) (bytes : List Byte) (h : Writes s a b c bytes) :
    fromString s = ⟨UInt32.ofNat a, UInt16.ofNat b, UInt16.ofNat c, bytes.map some⟩ := by
  rcases h with h | ⟨t, rfl, h⟩
  · obtain ⟨x, r, e, hx⟩ := plain_first s a b c bytes h
    have := body_plain false s [] a b c bytes h rfl
    rw [List.append_nil] at this
    subst e
    unfold fromString
    simp only
    rw [if_neg (by simpa using hx), this]
    rfl
  · have := body_plain true t [ch '}'] a b c bytes h rfl
    unfold fromString
    simp only [List.singleton_append, List.cons_append, List.nil_append, beq_self_eq_true, if_true]
    rw [this]
    rfl

/-- C84: what is printed writes the UUID, in 38 bytes. -/
theorem C84_prints (a : UInt32) (b c : UInt16) (bytes : List Byte) (h : bytes.length = 8) :
    Writes (Uuid.toString a b c bytes) a.toNat b.toNat c.toNat bytes ∧ (Uuid.toString a b c bytes).length = 38 ∧
    ∀ x ∈ Uuid.toString a b c bytes, x ∉ str ['A', 'B', 'C', 'D', 'E', 'F'] := by
  have h8 : ∀ x : Byte, Num 2 (hex 2 x.toNat) x.toNat := fun x => hex_num 2 _ (UInt8.toNat_lt x)
  have ha := hex_num 8 a.toNat (UInt32.toNat_lt a)
  have hb := hex_num 4 b.toNat (UInt16.toNat_lt b)
  have hc := hex_num 4 c.toNat (UInt16.toNat_lt c)
  match bytes, h with
  | [b0, b1, b2, b3, b4, b5, b6, b7], _ =>
    constructor
    · refine .inr ⟨_, ?_, rfl, hex 8 a.toNat, hex 4 b.toNat, hex 4 c.toNat,
        fun i => hex 2 ([b0, b1, b2, b3, b4, b5, b6, b7].getD i 0).toNat, ha, hb, hc, fun i => h8 _, rfl⟩
      simp [Uuid.toString]; rfl
    · refine ⟨by simp [Uuid.toString, ha.1, hb.1, hc.1, (h8 _).1], ?_⟩
      intro x hx
      simp only [Uuid.toString, List.mem_cons, List.mem_append, List.mem_flatMap, List.not_mem_nil, or_false] at hx
      rcases hx with rfl | h | rfl | h | rfl | h | rfl | ⟨_, _, h⟩ | rfl | ⟨_, _, h⟩ | rfl <;>
        first | exact hex_lower _ _ _ h | decide
/-- C84: so a UUID that is printed and read again is the same. -/
theorem C84_roundtrip (a : UInt32) (b c : UInt16) (bytes : List Byte) (h : bytes.length = 8) :
    fromString (Uuid.toString a b c bytes) = ⟨a, b, c, bytes.map some⟩ := by
  rw [C84_reads _ _ _ _ _ (C84_prints a b c bytes h).1]
  simp

example : Writes (str ['{', '2', '2', 'b', 'D', 'a', 'b', 'd', '9', '-', 'a', '6', '3', 'a', '-', '4', 'B', '5', 'e', '-',
    'b', '1', '6', '1', '-', 'b', '6', '3', '6', '5', '2', '2', '7', 'd', '7', '8', 'e', '}'])
    0x22bdabd9 0xa63a 0x4b5e [0xb1, 0x61, 0xb6, 0x36, 0x52, 0x27, 0xd7, 0x8e] := by
  have num : ∀ (t : List Byte) (w n : Nat), t.length = w → (∀ c ∈ t, isDig 16 c = true) → val 16 t = n → Num w t n := by
    intro t w n h1 h2 h3
    exact ⟨h1, h3 ▸ val_digits (b := 16) (by omega) _ t rfl h2⟩
  refine .inr ⟨_, ?_, rfl, str ['2', '2', 'b', 'D', 'a', 'b', 'd', '9'], str ['a', '6', '3', 'a'], str ['4', 'B', '5', 'e'],
    fun i => [str ['b', '1'], str ['6', '1'], str ['b', '6'], str ['3', '6'], str ['5', '2'], str ['2', '7'], str ['d', '7'],
      str ['8', 'e']].getD i [], ?_, ?_, ?_, ?_, rfl⟩
  · rfl
  · exact num _ _ _ rfl (by decide +kernel) (by decide +kernel)
  · exact num _ _ _ rfl (by decide +kernel) (by decide +kernel)
  · exact num _ _ _ rfl (by decide +kernel) (by decide +kernel)
  · intro i
    exact num _ _ _ (by revert i; decide +kernel) (by revert i; decide +kernel) (by revert i; decide +kernel)

namespace Uid

theorem strtoul_le (s : List Byte) : (strtoul16 s).2 ≤ s.length := by
  unfold strtoul16
  simp only
  split
  · simp
  · have h1 := List.takeWhile_append_dropWhile (p := isspace) (l := s)
    have h2 : (s.takeWhile isspace).length ≤ s.length := by
      rw [← congrArg List.length h1, List.length_append]; omega
    generalize hw : (s.takeWhile isspace).length = ws at *
    have hs : (sign (s.drop ws)).2 ≤ (s.drop ws).length := by
      cases s.drop ws with
      | nil => simp [sign]
      | cons c r => simp only [sign, List.length_cons]; split <;> (try split) <;> simp
    generalize hg : (sign (s.drop ws)).2 = sg at *
    have hp : pfx ((s.drop ws).drop sg) ≤ ((s.drop ws).drop sg).length := by
      generalize (s.drop ws).drop sg = q
      unfold pfx
      split
      · split <;> simp
      · simp
    generalize hq : pfx ((s.drop ws).drop sg) = px at *
    have ht : (((s.drop ws).drop sg).drop px |>.takeWhile (isDig 16)).length ≤ (((s.drop ws).drop sg).drop px).length := by
      have := List.takeWhile_append_dropWhile (p := isDig 16) (l := ((s.drop ws).drop sg).drop px)
      rw [← congrArg List.length this, List.length_append]
      omega
    simp only [List.length_drop] at hs hp ht ⊢
    omega

theorem field_shape (n : Nat) (s r : List Byte) (v : Nat) (h : field n s = some (v, r)) : ∃ f, f.length = n ∧ s = f ++ r := by
  unfold field at h
  simp only at h
  split at h
  · rename_i hn
    have := strtoul_le s
    cases h
    exact ⟨s.take n, by rw [List.length_take]; omega, (List.take_append_drop n s).symm⟩
  · cases h

theorem pair_shape (s r : List Byte) (v : Byte) (h : pair s = some (v, r)) : ∃ f, f.length = 2 ∧ s = f ++ r := by
  unfold pair at h
  simp only at h
  split at h
  · rename_i hn
    have := strtoul_le (s.take 2)
    rw [hn] at this
    cases h
    exact ⟨s.take 2, by rw [List.length_take] at this ⊢; omega, (List.take_append_drop 2 s).symm⟩
  · cases h

theorem sep_shape (c : Byte) (s r : List Byte) (h : sep c s = some r) : s = c :: r := by
  cases s with
  | nil => cases h
  | cons x q =>
    simp only [sep] at h
    split at h
    · rename_i hx
      cases h
      rw [eq_of_beq hx]
    · cases h

theorem pairs_shape : ∀ (n : Nat) (s : List Byte), ∃ k f, k ≤ n ∧ f.length = 2 * k ∧ s = f ++ (pairs n s).2 ∧
    ∃ bs : List Byte, bs.length = k ∧ (pairs n s).1 = bs.map some ++ List.replicate (n - k) none := by
  intro n
  induction n with
  | zero => intro s; exact ⟨0, [], by omega, rfl, rfl, [], rfl, rfl⟩
  | succ n ih =>
    intro s
    cases h : pair s with
    | none =>
      have e : pairs (n + 1) s = (List.replicate (n + 1) none, s) := by rw [pairs, h]
      exact ⟨0, [], by omega, rfl, by rw [e]; rfl, [], rfl, by rw [e]; rfl⟩
    | some p =>
      obtain ⟨b, r⟩ := p
      have e : pairs (n + 1) s = (some b :: (pairs n r).1, (pairs n r).2) := by rw [pairs, h]
      obtain ⟨k, f, h1, h2, h3, bs, h4, h5⟩ := ih r
      obtain ⟨g, h6, h7⟩ := pair_shape s r b h
      refine ⟨k + 1, g ++ f, by omega, by rw [List.length_append]; omega, ?_, b :: bs, by simp [h4], ?_⟩
      · rw [e, List.append_assoc]
        simp only
        rw [← h3]; exact h7
      · rw [e]
        simp only [h5, List.map_cons, List.cons_append]
        congr 3
        omega

theorem body_shape (f : Bool) (s : List Byte) (u : Raw) (h : body f s = some u) : ∃ k t, k ≤ 6 ∧ Groups t k ∧
    s = t ++ (if f then [ch '}'] else []) ∧
    ∃ bs : List Byte, bs.length = k + 2 ∧ u.d4 = bs.map some ++ List.replicate (6 - k) none := by
  unfold body at h
  split at h
  · cases h
  rename_i d1 s1 e1
  split at h
  · cases h
  rename_i s2 e2
  split at h
  · cases h
  rename_i d2 s3 e3
  split at h
  · cases h
  rename_i s4 e4
  split at h
  · cases h
  rename_i d3 s5 e5
  split at h
  · cases h
  rename_i s6 e6
  split at h
  · cases h
  rename_i b0 s7 e7
  split at h
  · cases h
  rename_i b1 s8 e8
  split at h
  · cases h
  rename_i s9 e9
  simp only at h
  split at h
  · cases h
  rename_i s10 e10
  split at h
  rotate_left
  · cases h
  rename_i hnil
  subst hnil
  have h := Option.some.inj h
  obtain ⟨ta, a1, a2⟩ := field_shape 8 _ _ _ e1
  obtain ⟨tb, c1, c2⟩ := field_shape 4 _ _ _ e3
  obtain ⟨tc, g1, g2⟩ := field_shape 4 _ _ _ e5
  obtain ⟨p0, i1, i2⟩ := pair_shape _ _ _ e7
  obtain ⟨p1, j1, j2⟩ := pair_shape _ _ _ e8
  have b2 := sep_shape _ _ _ e2
  have b4 := sep_shape _ _ _ e4
  have b6 := sep_shape _ _ _ e6
  have b9 := sep_shape _ _ _ e9
  obtain ⟨k, te, k1, k2, k3, bs, k4, k5⟩ := pairs_shape 6 s9
  have hend : (pairs 6 s9).2 = if f then [ch '}'] else [] := by
    cases f with
    | true => exact sep_shape _ _ _ e10
    | false => exact Option.some.inj e10
  refine ⟨k, _, k1, ⟨ta, tb, tc, p0 ++ p1, te, a1, c1, g1, by rw [List.length_append]; omega, k2, rfl⟩, ?_, b0 :: b1 :: bs, by simp [k4], ?_⟩
  · rw [a2, b2, c2, b4, g2, b6, i2, j2, b9, k3, hend]
    simp only [List.append_assoc, List.singleton_append, List.cons_append, List.nil_append]
  · rw [← h]
    simp only [k5, List.map_cons, List.cons_append]

end Uid

/-- C84: everything else that has not at least the groups and dashes is read as the null UUID, but the last group may be too short,
    and then bytes of the result are undefined. -/
theorem C84_rejects_partial (s : List Byte) : fromString s = ⟨0, 0, 0, [some 0, some 0, some 0, some 0, some 0, some 0, some 0, some 0]⟩ ∨
    ∃ k ≤ 6, Shape s k ∧ ∃ bs : List Byte, bs.length = k + 2 ∧ (fromString s).d4 = bs.map some ++ List.replicate (6 - k) none := by
  have key : ∀ f r, (body f r).getD null = null ∨ ∃ k t, k ≤ 6 ∧ Groups t k ∧ r = t ++ (if f then [ch '}'] else []) ∧
      ∃ bs : List Byte, bs.length = k + 2 ∧ ((body f r).getD null).d4 = bs.map some ++ List.replicate (6 - k) none := by
    intro f r
    cases h : body f r with
    | none => exact .inl rfl
    | some u => exact .inr (body_shape f r u h)
  cases s with
  | nil =>
    rcases key false [] with h | ⟨k, t, h1, h2, h3, h4⟩
    · exact .inl h
    · exact .inr ⟨k, h1, .inl (by rw [h3]; simpa using h2), h4⟩
  | cons c r =>
    by_cases hc : c == ch '{'
    · have e : fromString (c :: r) = (body true r).getD null := by simp only [fromString, if_pos hc]
      rw [e]
      rcases key true r with h | ⟨k, t, h1, h2, h3, h4⟩
      · exact .inl h
      · exact .inr ⟨k, h1, .inr ⟨t, by rw [h3, eq_of_beq hc]; simp, h2⟩, h4⟩
    · have e : fromString (c :: r) = (body false (c :: r)).getD null := by simp only [fromString, if_neg hc]
      rw [e]
      rcases key false (c :: r) with h | ⟨k, t, h1, h2, h3, h4⟩
      · exact .inl h
      · exact .inr ⟨k, h1, .inl (by rw [h3]; simpa using h2), h4⟩

/-- C84: a UUID that is cut off is not rejected, and bytes of the result are undefined. -/
theorem C84_cut_fails : ∃ s : List Byte, Shape s 1 ∧ none ∈ (fromString s).d4 :=
  ⟨str ['2', '2', 'b', 'd', 'a', 'b', 'd', '9', '-', 'a', '6', '3', 'a', '-', '4', 'b', '5', 'e', '-', 'b', '1', '6', '1', '-', 'b', '6'],
    .inl ⟨str ['2', '2', 'b', 'd', 'a', 'b', 'd', '9'], str ['a', '6', '3', 'a'], str ['4', 'b', '5', 'e'], str ['b', '1', '6', '1'],
      str ['b', '6'], rfl, rfl, rfl, rfl, rfl, rfl⟩, by decide +kernel⟩

/-- C84: nor is one that has blanks, signs or a prefix instead of digits; a minus gives the number modulo a power of two. -/
theorem C84_digits_fails : fromString (str [' ', ' ', ' ', ' ', ' ', ' ', '+', '9', '-', '0', 'x', '3', 'a', '-', '4', 'b', '5', 'e', '-',
    'b', '1', '6', '1', '-', 'b', '6', '3', '6', '5', '2', '2', '7', 'd', '7', ' ', 'e']) =
    ⟨9, 0x3a, 0x4b5e, [0xb1, 0x61, 0xb6, 0x36, 0x52, 0x27, 0xd7, 0x0e].map some⟩ ∧
    fromString (str ['-', '0', '0', '0', '0', '0', '0', '2', '-', '-', '0', '0', '1', '-', '4', 'b', '5', 'e', '-',
      'b', '1', '6', '1', '-', 'b', '6', '3', '6', '5', '2', '2', '7', 'd', '7', '-', '3']) =
    ⟨0xfffffffe, 0xffff, 0x4b5e, [0xb1, 0x61, 0xb6, 0x36, 0x52, 0x27, 0xd7, 0xfd].map some⟩ := by decide +kernel

end Props
