import Verif.Model.TextUtil
import Verif.Lemmas.Basic
namespace Wv.TextUtil
open Spec.TextUtil

theorem strstr_some (a : Text) (s : Text) (k : Nat) (h : strstr a s = some k) :
    s = s.take k ++ a ++ s.drop (k + a.length) ∧ (a ≠ [] → First (s.take k) a) ∧ k + a.length ≤ s.length := by
  induction s generalizing k with
  | nil =>
    rw [strstr] at h
    split at h
    · rename_i ha
      have : a = [] := List.isEmpty_iff.1 ha
      subst this
      cases h
      exact ⟨rfl, fun h => absurd rfl h, by simp⟩
    · cases h
  | cons c r ih =>
    rw [strstr] at h
    split at h
    · rename_i hp
      cases h
      obtain ⟨t, ht⟩ := List.isPrefixOf_iff_prefix.1 hp
      refine ⟨?_, ?_, ?_⟩
      · rw [← ht]; simp
      · intro _ x y hxy
        have : ([] ++ a : Text).length = (x ++ a ++ y).length := congrArg _ hxy
        simp only [List.nil_append, List.length_append] at this
        exact List.length_eq_zero_iff.1 (by omega)
      · rw [← ht]; simp
    · rename_i hp
      cases hs : strstr a r with
      | none => rw [hs] at h; cases h
      | some j =>
        rw [hs] at h
        cases h
        obtain ⟨h1, h2, h3⟩ := ih j hs
        refine ⟨?_, ?_, ?_⟩
        · rw [List.take_succ_cons, show j + 1 + a.length = (j + a.length) + 1 from by omega, List.drop_succ_cons, List.cons_append, List.cons_append, ← h1]
        · intro ha x y hxy
          rw [List.take_succ_cons] at hxy
          cases x with
          | nil =>
            exfalso
            apply hp
            rw [List.isPrefixOf_iff_prefix]
            refine ⟨y ++ r.drop (j + a.length), ?_⟩
            rw [← List.append_assoc]
            rw [List.nil_append] at hxy
            rw [← hxy, List.cons_append, List.cons_append, ← h1]
          | cons d x =>
            simp only [List.cons_append, List.cons.injEq] at hxy
            exact h2 ha x y hxy.2
        · rw [List.length_cons]; show j + 1 + a.length ≤ _; omega

theorem strstr_none (a : Text) (s : Text) (h : strstr a s = none) : ¬ a <:+: s := by
  induction s with
  | nil =>
    rw [strstr] at h
    split at h
    · cases h
    · rename_i ha
      intro hi
      exact ha (by rw [List.infix_nil.1 hi]; rfl)
  | cons c r ih =>
    rw [strstr] at h
    split at h
    · cases h
    · rename_i hp
      rw [Option.map_eq_none_iff] at h
      intro hi
      rcases List.infix_cons_iff.1 hi with hi | hi
      · exact hp (List.isPrefixOf_iff_prefix.2 hi)
      · exact ih h hi

theorem replaceLoop_spec (a b : Text) (ha : a ≠ []) (n : Nat) : ∀ (s buf : Text), s.length < n →
    ∃ t, replaceLoop a b n s buf = some (buf ++ t) ∧ Replaced a b s t := by
  induction n with
  | zero => intro s buf h; omega
  | succ n ih =>
    intro s buf hn
    rw [replaceLoop]
    cases hs : strstr a s with
    | none => exact ⟨s, rfl, [], s, by simp, by simp, by simp, strstr_none a s hs⟩
    | some k =>
      obtain ⟨h1, h2, h3⟩ := strstr_some a s k hs
      have : 0 < a.length := List.length_pos_iff.2 ha
      obtain ⟨t, e, pieces, last, q1, q2, q3, q4⟩ := ih (s.drop (k + a.length)) (buf ++ s.take k ++ b) (by rw [List.length_drop]; omega)
      refine ⟨s.take k ++ b ++ t, ?_, s.take k :: pieces, last, ?_, ?_, ?_, q4⟩
      · dsimp only
        rw [e]; simp [List.append_assoc]
      · rw [List.flatMap_cons, List.append_assoc, ← q1]; exact h1
      · rw [List.flatMap_cons, q2]; simp only [List.append_assoc]
      · intro p hp
        rcases List.mem_cons.1 hp with rfl | hp
        · exact h2 ha
        · exact q3 p hp

theorem undupe_once (c : Byte) (s : Text) : ∀ (before : Option Byte),
    undupeLoop c (before == some c) s =
      (((before :: s.map some).zip s).filter fun (b, x) => !(x == c && b == some c)).map Prod.snd := by
  induction s with
  | nil => intro b; simp [undupeLoop]
  | cons x r ih =>
    intro b
    rw [undupeLoop, List.map_cons, List.zip_cons_cons, List.filter_cons]
    have := ih (some x)
    by_cases hx : x = c
    · subst hx
      simp only [bne_self_eq_false, Bool.false_eq_true, if_false, BEq.rfl, Bool.true_and]
      by_cases hb : b = some x
      · subst hb
        simp only [BEq.rfl, Bool.not_true, Bool.false_eq_true, if_false]
        simpa using this
      · have hb' : (b == some x) = false := by simpa using hb
        rw [hb']
        simp only [Bool.not_false, if_true, List.map_cons]
        simpa using this
    · have hx' : (x != c) = true := by simpa using hx
      have hx2 : (x == c) = false := by simpa using hx
      have hx3 : (some x == some c) = false := by simpa using hx
      rw [hx3] at this
      rw [if_pos hx', this, if_pos (by simp [hx2])]
      rfl

/-! Names of files -/

theorem lastSlash_none (s : Text) (h : lastSlash s = none) : ch '/' ∉ s := by
  induction s with
  | nil => simp
  | cons c r ih =>
    rw [lastSlash] at h
    cases hr : lastSlash r with
    | none =>
      rw [hr] at h
      dsimp only at h
      split at h
      · cases h
      · rename_i hc
        intro hm
        rcases List.mem_cons.1 hm with e | e
        · exact hc (by simp [e])
        · exact ih hr e
    | some pq => obtain ⟨p, q⟩ := pq; rw [hr] at h; cases h

theorem lastSlash_some (s p q : Text) (h : lastSlash s = some (p, q)) : s = p ++ [ch '/'] ++ q ∧ ch '/' ∉ q := by
  induction s generalizing p with
  | nil => cases h
  | cons c r ih =>
    rw [lastSlash] at h
    cases hr : lastSlash r with
    | none =>
      rw [hr] at h
      dsimp only at h
      split at h
      · rename_i hc
        cases h
        exact ⟨by simp at hc; rw [hc]; rfl, lastSlash_none _ hr⟩
      · cases h
    | some pq =>
      obtain ⟨p', q'⟩ := pq
      rw [hr] at h
      cases h
      obtain ⟨h1, h2⟩ := ih p' hr
      exact ⟨by rw [h1]; simp, h2⟩

/-- The name and the directory of a path that is not only slashes. -/
theorem names (n : Nat) : ∀ s : Text, s.length < n → (∃ c ∈ s, c ≠ ch '/') →
    ∃ d f k, s = d ++ f ++ List.replicate k (ch '/') ∧ f ≠ [] ∧ ch '/' ∉ f ∧ getfilenameLoop n s = f ∧
      ((d = [] ∧ getdirnameLoop n s = str ['.']) ∨ ∃ d', d = d' ++ [ch '/'] ∧ getdirnameLoop n s = if d' = [] then str ['/'] else d') := by
  induction n with
  | zero => intro s h; omega
  | succ n ih =>
    intro s hn hc
    obtain ⟨c, hcs, hcn⟩ := hc
    have hse : s.isEmpty = false := by cases s with
      | nil => cases hcs
      | cons a l => rfl
    rw [getfilenameLoop, getdirnameLoop, hse]
    simp only [Bool.false_eq_true, if_false]
    cases hl : lastSlash s with
    | none =>
      refine ⟨[], s, 0, by simp, (by intro e; subst e; cases hcs), lastSlash_none s hl, rfl, Or.inl ⟨rfl, rfl⟩⟩
    | some pq =>
      obtain ⟨p, q⟩ := pq
      obtain ⟨h1, h2⟩ := lastSlash_some s p q hl
      cases q with
      | nil =>
        have hcp : c ∈ p := by
          rw [h1] at hcs
          rcases List.mem_append.1 hcs with h | h
          · rcases List.mem_append.1 h with h | h
            · exact h
            · simp at h; exact absurd h hcn
          · cases h
        obtain ⟨d, f, k, a1, a2, a3, a4, a5⟩ := ih p (by rw [h1] at hn; simp at hn; omega) ⟨c, hcp, hcn⟩
        refine ⟨d, f, k + 1, ?_, a2, a3, a4, a5⟩
        rw [h1, a1, List.replicate_succ']
        simp
      | cons x q =>
        refine ⟨p ++ [ch '/'], x :: q, 0, by simpa using h1, by simp, h2, rfl, Or.inr ⟨p, rfl, ?_⟩⟩
        dsimp only
        cases p <;> rfl

theorem names_slashes (n k : Nat) (h : k < n) : getfilenameLoop n (List.replicate k (ch '/')) = [] ∧ getdirnameLoop n (List.replicate k (ch '/')) = [] := by
  induction k generalizing n with
  | zero =>
    cases n with
    | zero => omega
    | succ n => exact ⟨rfl, rfl⟩
  | succ k ih =>
    cases n with
    | zero => omega
    | succ n =>
      have hl : lastSlash (List.replicate (k + 1) (ch '/')) = some (List.replicate k (ch '/'), []) := by
        clear ih h
        induction k with
        | zero => decide +kernel
        | succ k ih => rw [List.replicate_succ, lastSlash, ih]; rfl
      rw [getfilenameLoop, getdirnameLoop, hl]
      exact ih n (by omega)

/-! Dumps -/

theorem row_spec (row : Text) (h : row.length ≤ 16) (h0 : row ≠ []) :
    hexLoop 0 row ++ sepLoop row.length (16 - row.length) = List.rightpad 35 32 (Spec.Split.join [32] ((fours row).map fun g => g.flatMap hexByte)) ∧
    charLoop 0 row = (fours row).flatMap (fun g => 32 :: g.map fun c => if isprint c then c else ch '.') := by
  match row, h0 with
  | [a], _ => exact ⟨by simp [hexLoop, sepLoop, fours, List.range_succ, List.rightpad, Spec.Split.join, x02, hexByte, List.replicate_succ], by simp [charLoop, fours, List.range_succ]⟩
  | [a, b], _ => exact ⟨by simp [hexLoop, sepLoop, fours, List.range_succ, List.rightpad, Spec.Split.join, x02, hexByte, List.replicate_succ], by simp [charLoop, fours, List.range_succ]⟩
  | [a, b, c], _ => exact ⟨by simp [hexLoop, sepLoop, fours, List.range_succ, List.rightpad, Spec.Split.join, x02, hexByte, List.replicate_succ], by simp [charLoop, fours, List.range_succ]⟩
  | [a, b, c, d], _ => exact ⟨by simp [hexLoop, sepLoop, fours, List.range_succ, List.rightpad, Spec.Split.join, x02, hexByte, List.replicate_succ], by simp [charLoop, fours, List.range_succ]⟩
  | [a, b, c, d, e], _ => exact ⟨by simp [hexLoop, sepLoop, fours, List.range_succ, List.rightpad, Spec.Split.join, x02, hexByte, List.replicate_succ], by simp [charLoop, fours, List.range_succ]⟩
  | [a, b, c, d, e, f], _ => exact ⟨by simp [hexLoop, sepLoop, fours, List.range_succ, List.rightpad, Spec.Split.join, x02, hexByte, List.replicate_succ], by simp [charLoop, fours, List.range_succ]⟩
  | [a, b, c, d, e, f, g], _ => exact ⟨by simp [hexLoop, sepLoop, fours, List.range_succ, List.rightpad, Spec.Split.join, x02, hexByte, List.replicate_succ], by simp [charLoop, fours, List.range_succ]⟩
  | [a, b, c, d, e, f, g, i], _ => exact ⟨by simp [hexLoop, sepLoop, fours, List.range_succ, List.rightpad, Spec.Split.join, x02, hexByte, List.replicate_succ], by simp [charLoop, fours, List.range_succ]⟩
  | [a, b, c, d, e, f, g, i, j], _ => exact ⟨by simp [hexLoop, sepLoop, fours, List.range_succ, List.rightpad, Spec.Split.join, x02, hexByte, List.replicate_succ], by simp [charLoop, fours, List.range_succ]⟩
  | [a, b, c, d, e, f, g, i, j, k], _ => exact ⟨by simp [hexLoop, sepLoop, fours, List.range_succ, List.rightpad, Spec.Split.join, x02, hexByte, List.replicate_succ], by simp [charLoop, fours, List.range_succ]⟩
  | [a, b, c, d, e, f, g, i, j, k, l], _ => exact ⟨by simp [hexLoop, sepLoop, fours, List.range_succ, List.rightpad, Spec.Split.join, x02, hexByte, List.replicate_succ], by simp [charLoop, fours, List.range_succ]⟩
  | [a, b, c, d, e, f, g, i, j, k, l, m], _ => exact ⟨by simp [hexLoop, sepLoop, fours, List.range_succ, List.rightpad, Spec.Split.join, x02, hexByte, List.replicate_succ], by simp [charLoop, fours, List.range_succ]⟩
  | [a, b, c, d, e, f, g, i, j, k, l, m, n], _ => exact ⟨by simp [hexLoop, sepLoop, fours, List.range_succ, List.rightpad, Spec.Split.join, x02, hexByte, List.replicate_succ], by simp [charLoop, fours, List.range_succ]⟩
  | [a, b, c, d, e, f, g, i, j, k, l, m, n, o], _ => exact ⟨by simp [hexLoop, sepLoop, fours, List.range_succ, List.rightpad, Spec.Split.join, x02, hexByte, List.replicate_succ], by simp [charLoop, fours, List.range_succ]⟩
  | [a, b, c, d, e, f, g, i, j, k, l, m, n, o, p], _ => exact ⟨by simp [hexLoop, sepLoop, fours, List.range_succ, List.rightpad, Spec.Split.join, x02, hexByte, List.replicate_succ], by simp [charLoop, fours, List.range_succ]⟩
  | [a, b, c, d, e, f, g, i, j, k, l, m, n, o, p, q], _ => exact ⟨by simp [hexLoop, sepLoop, fours, List.range_succ, List.rightpad, Spec.Split.join, x02, hexByte, List.replicate_succ], by simp [charLoop, fours, List.range_succ]⟩
  | a :: b :: c :: d :: e :: f :: g :: i :: j :: k :: l :: m :: n :: o :: p :: q :: r :: s, _ => simp at h

theorem x03_spec (n : Nat) : x03 n = hexNumber n := rfl

theorem dumpLoop_spec (charRep : Bool) (n : Nat) : ∀ (i : Nat) (buf : Text), buf.length ≤ 16 * n → 16 * i + buf.length ≤ 2 ^ 32 →
    dumpLoop charRep n (16 * i) buf =
      (List.range ((buf.length + 15) / 16)).flatMap fun j => dumpLine charRep (16 * (i + j)) ((buf.drop (16 * j)).take 16) := by
  induction n with
  | zero =>
    intro i buf h _
    have : buf = [] := List.length_eq_zero_iff.1 (by omega)
    subst this; rfl
  | succ n ih =>
    intro i buf h h32
    rw [dumpLoop]
    by_cases hb : buf = []
    · subst hb; rfl
    · have hbe : buf.isEmpty = false := by simpa using hb
      have hpos := List.length_pos_iff.2 hb
      rw [hbe]
      simp only [Bool.false_eq_true, if_false]
      have hlen : (buf.length + 15) / 16 = ((buf.drop 16).length + 15) / 16 + 1 := by rw [List.length_drop]; omega
      rw [hlen, List.range_succ_eq_map, List.flatMap_cons, List.flatMap_map]
      have hrec := ih (i + 1) (buf.drop 16) (by rw [List.length_drop]; omega) (by rw [List.length_drop]; omega)
      rw [show 16 * i + 16 = 16 * (i + 1) from by omega, hrec]
      congr 1
      · have htake : buf.take (min buf.length 16) = buf.take 16 := by
          rcases Nat.le_total buf.length 16 with hle | hle
          · rw [Nat.min_eq_left hle, List.take_length, List.take_of_length_le hle]
          · rw [Nat.min_eq_right hle]
        have hl : (buf.take 16).length = min buf.length 16 := by rw [List.length_take, Nat.min_comm]
        obtain ⟨r1, r2⟩ := row_spec (buf.take 16) (by rw [hl]; omega) (by intro e; rw [e] at hl; simp at hl; omega)
        rw [htake, ← hl, Nat.mod_eq_of_lt (by omega), x03_spec, Nat.mul_zero, List.drop_zero, Nat.add_zero]
        unfold dumpLine
        rw [← r1, ← r2]
        cases charRep <;> simp [List.append_assoc]
      · congr 1
        funext j
        rw [List.drop_drop, show i + 1 + j = i + (j + 1) from by omega, show 16 + 16 * j = 16 * (j + 1) from by omega]

theorem toDigits_le : ∀ (k n : Nat), n < 16 ^ (k + 1) → (Nat.toDigits 16 n).length ≤ k + 1 := by
  intro k
  induction k with
  | zero => intro n h; rw [Nat.toDigits_of_lt_base (by omega)]; simp
  | succ k ih =>
    intro n h
    by_cases h16 : n < 16
    · rw [Nat.toDigits_of_lt_base h16]; simp
    · rw [Nat.toDigits_of_base_le (by omega) (by omega), List.length_append]
      have := ih (n / 16) (by rw [Nat.pow_succ] at h; omega)
      simp only [List.length_singleton]
      omega

theorem hexLoop_len (r : Text) : ∀ k, (hexLoop k r).length ≤ 3 * r.length := by
  induction r with
  | nil => intro k; simp [hexLoop]
  | cons b r ih =>
    intro k
    have := ih (k + 1)
    rw [hexLoop, List.length_append, List.length_append, List.length_cons]
    have h2 : (x02 b).length = 2 := rfl
    rw [h2]
    split <;> simp <;> omega

theorem line_len (row : Text) (h : row.length ≤ 16) (h0 : row ≠ []) (charRep : Bool) (off : Nat) (ho : off < 2 ^ 32) :
    (dumpLine charRep off row).length ≤ 68 := by
  have hrow : (List.rightpad 35 32 (Spec.Split.join [32] ((fours row).map fun g => g.flatMap hexByte))).length = 35 ∧
      ((fours row).flatMap (fun g => 32 :: g.map fun c => if isprint c then c else ch '.')).length ≤ 20 := by
    match row, h0 with
    | [a], _ => exact ⟨by simp [fours, List.range_succ, List.rightpad, Spec.Split.join, hexByte, List.replicate_succ], by simp [fours, List.range_succ]⟩
    | [a, b], _ => exact ⟨by simp [fours, List.range_succ, List.rightpad, Spec.Split.join, hexByte, List.replicate_succ], by simp [fours, List.range_succ]⟩
    | [a, b, c], _ => exact ⟨by simp [fours, List.range_succ, List.rightpad, Spec.Split.join, hexByte, List.replicate_succ], by simp [fours, List.range_succ]⟩
    | [a, b, c, d], _ => exact ⟨by simp [fours, List.range_succ, List.rightpad, Spec.Split.join, hexByte, List.replicate_succ], by simp [fours, List.range_succ]⟩
    | [a, b, c, d, e], _ => exact ⟨by simp [fours, List.range_succ, List.rightpad, Spec.Split.join, hexByte, List.replicate_succ], by simp [fours, List.range_succ]⟩
    | [a, b, c, d, e, f], _ => exact ⟨by simp [fours, List.range_succ, List.rightpad, Spec.Split.join, hexByte, List.replicate_succ], by simp [fours, List.range_succ]⟩
    | [a, b, c, d, e, f, g], _ => exact ⟨by simp [fours, List.range_succ, List.rightpad, Spec.Split.join, hexByte, List.replicate_succ], by simp [fours, List.range_succ]⟩
    | [a, b, c, d, e, f, g, i], _ => exact ⟨by simp [fours, List.range_succ, List.rightpad, Spec.Split.join, hexByte, List.replicate_succ], by simp [fours, List.range_succ]⟩
    | [a, b, c, d, e, f, g, i, j], _ => exact ⟨by simp [fours, List.range_succ, List.rightpad, Spec.Split.join, hexByte, List.replicate_succ], by simp [fours, List.range_succ]⟩
    | [a, b, c, d, e, f, g, i, j, k], _ => exact ⟨by simp [fours, List.range_succ, List.rightpad, Spec.Split.join, hexByte, List.replicate_succ], by simp [fours, List.range_succ]⟩
    | [a, b, c, d, e, f, g, i, j, k, l], _ => exact ⟨by simp [fours, List.range_succ, List.rightpad, Spec.Split.join, hexByte, List.replicate_succ], by simp [fours, List.range_succ]⟩
    | [a, b, c, d, e, f, g, i, j, k, l, m], _ => exact ⟨by simp [fours, List.range_succ, List.rightpad, Spec.Split.join, hexByte, List.replicate_succ], by simp [fours, List.range_succ]⟩
    | [a, b, c, d, e, f, g, i, j, k, l, m, n], _ => exact ⟨by simp [fours, List.range_succ, List.rightpad, Spec.Split.join, hexByte, List.replicate_succ], by simp [fours, List.range_succ]⟩
    | [a, b, c, d, e, f, g, i, j, k, l, m, n, o], _ => exact ⟨by simp [fours, List.range_succ, List.rightpad, Spec.Split.join, hexByte, List.replicate_succ], by simp [fours, List.range_succ]⟩
    | [a, b, c, d, e, f, g, i, j, k, l, m, n, o, p], _ => exact ⟨by simp [fours, List.range_succ, List.rightpad, Spec.Split.join, hexByte, List.replicate_succ], by simp [fours, List.range_succ]⟩
    | [a, b, c, d, e, f, g, i, j, k, l, m, n, o, p, q], _ => exact ⟨by simp [fours, List.range_succ, List.rightpad, Spec.Split.join, hexByte, List.replicate_succ], by simp [fours, List.range_succ]⟩
    | a :: b :: c :: d :: e :: f :: g :: i :: j :: k :: l :: m :: n :: o :: p :: q :: r :: s, _ => simp at h
  have hn : (hexNumber off).length ≤ 8 := by
    have := toDigits_le 7 off (by have : (16 : Nat) ^ (7 + 1) = 2 ^ 32 := by decide
                                  omega)
    unfold hexNumber
    rw [List.length_leftpad, List.length_map]
    omega
  unfold dumpLine
  simp only [List.length_append, hrow.1]
  have h1 : (str ['[']).length = 1 := rfl
  have h2 : (str [']', ' ']).length = 2 := rfl
  rw [h1, h2]
  cases charRep
  · simp; omega
  · have := hrow.2
    simp only [if_true, List.length_singleton] at *
    omega

/-! Names of hosts -/

theorem nice_mem (last : Bool) (s : Text) : ∀ c ∈ niceLoop last s, isalnum c = true ∨ c = ch '-' ∨ c = ch '.' := by
  induction s generalizing last with
  | nil => intro c hc; cases hc
  | cons x r ih =>
    intro c hc
    rw [niceLoop] at hc
    split at hc
    · exact ih _ c hc
    · split at hc
      · split at hc
        · exact ih _ c hc
        · rcases List.mem_cons.1 hc with e | e
          · exact Or.inr (Or.inl e)
          · exact ih _ c e
      · split at hc
        · rename_i h
          rcases List.mem_cons.1 hc with e | e
          · subst e
            simp at h
            exact h.imp id Or.inr
          · exact ih _ c e
        · exact ih _ c hc

theorem nice_dash (last : Bool) (s : Text) : (last = true → (niceLoop last s).head? ≠ some (ch '-')) ∧ ¬ [ch '-', ch '-'] <:+: niceLoop last s := by
  induction s generalizing last with
  | nil => exact ⟨fun _ => by simp [niceLoop], by simp [niceLoop]⟩
  | cons x r ih =>
    rw [niceLoop]
    split
    · exact ih _
    · split
      · split
        · exact ih _
        · rename_i hl
          refine ⟨fun h => absurd h hl, fun hi => ?_⟩
          rcases List.infix_cons_iff.1 hi with h | h
          · obtain ⟨t, ht⟩ := h
            simp only [List.cons_append, List.cons.injEq, true_and, List.nil_append] at ht
            exact (ih true).1 rfl (by rw [← ht]; rfl)
          · exact (ih true).2 h
      · rename_i hd
        have hx : x ≠ ch '-' := by intro e; exact hd (by simp [e])
        split
        · refine ⟨fun _ => by simp [hx], fun hi => ?_⟩
          rcases List.infix_cons_iff.1 hi with h | h
          · obtain ⟨t, ht⟩ := h
            simp only [List.cons_append, List.cons.injEq] at ht
            exact hx ht.1.symm
          · exact (ih false).2 h
        · exact ih _

theorem nice_len (last : Bool) (s : Text) : (niceLoop last s).length ≤ s.length := by
  induction s generalizing last with
  | nil => simp [niceLoop]
  | cons x r ih =>
    rw [niceLoop, List.length_cons]
    have h1 := ih last
    have h2 := ih true
    have h3 := ih false
    split
    · omega
    · split
      · split
        · omega
        · rw [List.length_cons]; omega
      · split
        · rw [List.length_cons]; omega
        · omega

theorem nice_id (last : Bool) (s : Text) (h1 : ∀ c ∈ s, isalnum c = true ∨ c = ch '-' ∨ c = ch '.') (h2 : ¬ [ch '-', ch '-'] <:+: s)
    (h3 : last = true → s.head? ≠ some (ch '-')) : niceLoop last s = s := by
  induction s generalizing last with
  | nil => rfl
  | cons x r ih =>
    have hx := h1 x (by simp)
    have hr1 : ∀ c ∈ r, isalnum c = true ∨ c = ch '-' ∨ c = ch '.' := fun c hc => h1 c (by simp [hc])
    have hr2 : ¬ [ch '-', ch '-'] <:+: r := fun h => h2 (List.infix_cons_iff.2 (Or.inr h))
    have hascii : x < 128 := by
      rcases hx with h | h | h
      · exact (show ∀ x : Byte, isalnum x = true → x < 128 by apply forall_byte; decide +kernel) x h
      · rw [h]; decide
      · rw [h]; decide
    have hus : x ≠ ch '_' := by
      rcases hx with h | h | h
      · intro e; rw [e] at h; revert h; decide
      · rw [h]; decide
      · rw [h]; decide
    rw [niceLoop, if_neg (by simpa using hascii)]
    by_cases hd : x = ch '-'
    · subst hd
      have hl : last = false := by
        cases last with
        | false => rfl
        | true => exact absurd rfl (h3 rfl)
      subst hl
      rw [if_pos (by simp), if_neg (by simp), ih true hr1 hr2]
      intro _ hh
      apply h2
      cases r with
      | nil => cases hh
      | cons y r =>
        simp only [List.head?_cons, Option.some.injEq] at hh
        subst hh
        exact ⟨[], r, rfl⟩
    · rw [if_neg (by simp [hd, hus]), if_pos, ih false hr1 hr2 (fun h => by cases h)]
      rcases hx with h | h | h
      · simp [h]
      · exact absurd h hd
      · simp [h]

theorem nice_undupe (last : Bool) (s : Text) :
    niceLoop last s =
      undupeLoop (ch '-') last ((s.map fun c => if c = ch '_' then ch '-' else c).filter fun c => isalnum c || c == ch '-' || c == ch '.') := by
  induction s generalizing last with
  | nil => rfl
  | cons x r ih =>
    rw [niceLoop, List.map_cons, List.filter_cons]
    by_cases hu : x = ch '_' ∨ x = ch '-'
    · have h1 : ¬ (!decide (x < 128)) = true := by rcases hu with e | e <;> subst e <;> decide
      have h2 : (x == ch '-' || x == ch '_') = true := by rcases hu with e | e <;> subst e <;> decide
      have h3 : (if x = ch '_' then ch '-' else x) = ch '-' := by rcases hu with e | e <;> subst e <;> decide
      rw [if_neg h1, if_pos h2, h3, if_pos (show (isalnum (ch '-') || ch '-' == ch '-' || ch '-' == ch '.') = true by decide +kernel), undupeLoop,
        if_neg (show ¬ (ch '-' != ch '-') = true by decide)]
      cases last
      · rw [if_neg (by simp), if_pos (by simp), ih]
      · rw [if_pos rfl, if_neg (by simp), ih]
    · have hu1 : x ≠ ch '_' := fun h => hu (Or.inl h)
      have hu2 : x ≠ ch '-' := fun h => hu (Or.inr h)
      rw [if_neg (show ¬ x = ch '_' from hu1)]
      have hc : (isalnum x || x == ch '-' || x == ch '.') = (isalnum x || x == ch '.') := by
        have : (x == ch '-') = false := by simpa using hu2
        rw [this, Bool.or_false]
      rw [hc]
      have hasc : ∀ x : Byte, (isalnum x || x == ch '.') = true → (!decide (x < 128)) = false := by apply forall_byte; decide +kernel
      rcases (Bool.eq_false_or_eq_true (isalnum x || x == ch '.')).symm with h | h
      · rw [if_neg (show ¬ (isalnum x || x == ch '.') = true by rw [h]; simp)]
        rw [if_neg (show ¬ (x == ch '-' || x == ch '_') = true by simp [hu1, hu2]), if_neg (show ¬ (isalnum x || x == ch '.') = true by rw [h]; simp),
          ite_self, ih]
      · rw [if_pos h, if_neg (show ¬ (!decide (x < 128)) = true by rw [hasc x h]; simp),
          if_neg (show ¬ (x == ch '-' || x == ch '_') = true by simp [hu1, hu2]), if_pos h, undupeLoop, if_pos (by simpa using hu2), ih]

end Wv.TextUtil
