import Verif.Lemmas.FtpDate
import Verif.Lemmas.Basic
/- Words, numbers and months in a line of an FTP listing. -/
namespace FtpL
open Wv Wv.Ftp
open Spec.Ftp (Digits Number value Month monthNames lower Word spaces Field field)

theorem ok_bind {α β : Type} (a : α) (f : α → Out β) : (Out.ok a).bind f = f a := rfl

theorem dig_signed (c : Byte) : ch '0' ≤ c ∧ c ≤ ch '9' → signed c - 48 = ((c.toNat - 48 : Nat) : Int) ∧ c.toNat - 48 ≤ 9 := by
  revert c; apply forall_byte; decide +kernel

theorem fold_ge (t : List Byte) : ∀ n : Nat, n ≤ t.foldl (fun n c => n * 10 + (c.toNat - 48)) n := by
  induction t with
  | nil => intro n; exact Nat.le_refl _
  | cons c t ih =>
    intro n
    exact Nat.le_trans (show n ≤ n * 10 + (c.toNat - 48) by omega) (ih _)

theorem getlong_from (t : List Byte) (h : Digits t) : ∀ n : Nat, t.foldl (fun n c => n * 10 + (c.toNat - 48)) n < 2 ^ 63 →
    getlongFrom n t = .ok ((t.foldl (fun n c => n * 10 + (c.toNat - 48)) n : Nat) : Int) := by
  induction t with
  | nil => intro n _; rfl
  | cons c t ih =>
    intro n hn
    have hc := dig_signed c (h c (by simp))
    rw [List.foldl_cons] at hn
    have hge := fold_ge t (n * 10 + (c.toNat - 48))
    have e : (n : Int) * 10 + (signed c - 48) = ((n * 10 + (c.toNat - 48) : Nat) : Int) := by rw [hc.1]; omega
    rw [getlongFrom, e, if_pos, ih (fun x hx => h x (by simp [hx])) _ hn]
    · rfl
    · simp only [fits, Bool.and_eq_true, decide_eq_true_eq]; omega

theorem getlong_number (t : List Byte) (h : Number t) : getlong t = .ok (value t : Int) := by
  have := getlong_from t h.1 0 h.2
  exact this

theorem signed_range (c : Byte) : -176 ≤ signed c - 48 ∧ signed c - 48 ≤ 79 := by
  revert c; apply forall_byte; decide +kernel

theorem getlong_short_from (t : List Byte) : ∀ (u B : Int), -B ≤ u → u ≤ B → 0 ≤ B → (B + 20) * 10 ^ t.length ≤ 9223372036854775807 →
    ∃ n, getlongFrom u t = .ok n := by
  induction t with
  | nil => intro u B _ _ _ _; exact ⟨u, rfl⟩
  | cons c t ih =>
    intro u B h1 h2 h3 h4
    have hs := signed_range c
    have e : (B + 20) * 10 ^ (c :: t).length = (B * 10 + 180 + 20) * 10 ^ t.length := by
      rw [List.length_cons, Int.pow_succ, Int.mul_comm (10 ^ t.length) 10, ← Int.mul_assoc]
      congr 1; omega
    rw [e] at h4
    have hp : (1 : Int) ≤ 10 ^ t.length := by
      have : (0 : Int) < 10 ^ t.length := Int.pow_pos (by decide)
      omega
    have hb : B * 10 + 180 + 20 ≤ 9223372036854775807 := by
      refine Int.le_trans ?_ h4
      have := Int.mul_le_mul_of_nonneg_left hp (show (0 : Int) ≤ B * 10 + 180 + 20 by omega)
      omega
    rw [getlongFrom, if_pos]
    · exact ih _ (B * 10 + 180) (by omega) (by omega) (by omega) h4
    · simp only [fits, Bool.and_eq_true, decide_eq_true_eq]; omega

theorem getlong_short (t : List Byte) (h : t.length ≤ 17) : ∃ n, getlong t = .ok n := by
  refine getlong_short_from t 0 0 (by omega) (by omega) (by omega) ?_
  have h1 : (10 : Int) ^ t.length ≤ 10 ^ 17 := by
    have : (10 : Nat) ^ t.length ≤ 10 ^ 17 := Nat.pow_le_pow_right (by decide) h
    exact_mod_cast this
  omega

/-! ### Months -/

theorem lower_iff (c : Byte) : ∀ m ∈ (List.range 26).map (fun i => UInt8.ofNat (97 + i)), (c == m || c == m - 32) = true ↔ lower c = m := by
  revert c; apply forall_byte; decide +kernel

theorem names_low : ∀ n ∈ months, ∃ a b c : Byte, n = [a, b, c] ∧ a ∈ (List.range 26).map (fun i => UInt8.ofNat (97 + i)) ∧
    b ∈ (List.range 26).map (fun i => UInt8.ofNat (97 + i)) ∧ c ∈ (List.range 26).map (fun i => UInt8.ofNat (97 + i)) := by
  intro n hn
  have : ∀ n ∈ months, n = [n.getD 0 0, n.getD 1 0, n.getD 2 0] ∧ n.getD 0 0 ∈ (List.range 26).map (fun i => UInt8.ofNat (97 + i)) ∧
    n.getD 1 0 ∈ (List.range 26).map (fun i => UInt8.ofNat (97 + i)) ∧ n.getD 2 0 ∈ (List.range 26).map (fun i => UInt8.ofNat (97 + i)) := by
    decide +kernel
  exact ⟨_, _, _, this n hn⟩

theorem check_iff (w n : List Byte) (hw : w.length = 3) (hn : n ∈ months) : check w n = (n == w.map lower) := by
  obtain ⟨a, b, c, rfl, ha, hb, hc⟩ := names_low n hn
  match w, hw with
  | [x, y, z], _ =>
    have h1 := lower_iff x a ha
    have h2 := lower_iff y b hb
    have h3 := lower_iff z c hc
    rw [Bool.eq_iff_iff]
    simp only [check, List.zip_cons_cons, List.zip_nil_right, List.all_cons, List.all_nil, Bool.and_true, Bool.and_eq_true, h1, h2, h3,
      List.map_cons, List.map_nil, beq_iff_eq, List.cons.injEq, and_true]
    constructor
    · rintro ⟨h1, h2, h3⟩; exact ⟨h1.symm, h2.symm, h3.symm⟩
    · rintro ⟨h1, h2, h3⟩; exact ⟨h1.symm, h2.symm, h3.symm⟩

theorem find_name (t : List Byte) (m : Nat) : months.findIdx? (· == t) = some m ↔ monthNames[m]? = some t := by
  have hnd : monthNames.Nodup := by decide +kernel
  rw [show months = monthNames from rfl, List.findIdx?_eq_some_iff_getElem]
  constructor
  · rintro ⟨h, h1, _⟩
    rw [List.getElem?_eq_getElem h, eq_of_beq h1]
  · intro h
    obtain ⟨hl, h1⟩ := List.getElem?_eq_some_iff.mp h
    refine ⟨hl, by rw [h1]; exact beq_self_eq_true _, ?_⟩
    intro j hj hb
    have h2 := eq_of_beq hb
    have := (List.getElem_inj (h₀ := by omega) (h₁ := hl) hnd).mp (h2.trans h1.symm)
    omega

theorem findIdx_congr (p q : List Byte → Bool) : ∀ l : List (List Byte), (∀ x ∈ l, p x = q x) → l.findIdx? p = l.findIdx? q
  | [], _ => rfl
  | x :: l, h => by
    rw [List.findIdx?_cons, List.findIdx?_cons, h x (by simp), findIdx_congr p q l (fun y hy => h y (by simp [hy]))]

theorem getmonth_iff (w : List Byte) (m : Nat) : getmonth w = some m ↔ Month w m := by
  unfold getmonth Month
  by_cases h : w.length = 3
  · rw [if_pos h, findIdx_congr _ (· == w.map lower) _ (fun x hx => check_iff w x h hx), find_name]
  · rw [if_neg h]
    constructor
    · intro h; exact absurd h (by simp)
    · intro hm
      have h3 : ∀ n ∈ monthNames, n.length = 3 := by decide +kernel
      have := h3 _ (List.mem_of_getElem? hm)
      rw [List.length_map] at this
      exact absurd this h

theorem getmonth_none (w : List Byte) (h : ∀ m, ¬ Month w m) : getmonth w = none := by
  cases e : getmonth w with
  | none => rfl
  | some m => exact absurd ((getmonth_iff w m).mp e) (h m)

theorem month_lt (w : List Byte) (m : Nat) (h : Month w m) : m < 12 := (List.getElem?_eq_some_iff.mp h).1

theorem month_word (w : List Byte) (m : Nat) (h : Month w m) : Word w ∧ ch '-' ∉ w := by
  have key : ∀ c : Byte, lower c = ch ' ' ∨ lower c = ch '-' → c = ch ' ' ∨ c = ch '-' := by
    apply forall_byte; decide +kernel
  have h3 : ∀ n ∈ monthNames, n.length = 3 ∧ ch ' ' ∉ n ∧ ch '-' ∉ n := by decide +kernel
  obtain ⟨h1, h2, h4⟩ := h3 _ (List.mem_of_getElem? h)
  refine ⟨⟨?_, ?_⟩, ?_⟩
  · intro e; subst e; simp at h1
  · intro e; exact h2 (List.mem_map.mpr ⟨_, e, by decide⟩)
  · intro e; exact h4 (List.mem_map.mpr ⟨_, e, by decide⟩)

theorem digits_not_month (w : List Byte) (h : Digits w) (m : Nat) : ¬ Month w m := by
  intro hm
  have h3 : ∀ n ∈ monthNames, n ≠ [] ∧ ∀ c ∈ n, ¬ (ch '0' ≤ c ∧ c ≤ ch '9') := by decide +kernel
  have key : ∀ c : Byte, ch '0' ≤ c ∧ c ≤ ch '9' → ch '0' ≤ lower c ∧ lower c ≤ ch '9' := by
    apply forall_byte; decide +kernel
  obtain ⟨h1, h2⟩ := h3 _ (List.mem_of_getElem? hm)
  cases w with
  | nil => exact h1 rfl
  | cons c w => exact h2 (lower c) (by simp) (key c (h c (by simp)))

/-! ### Skipping -/

theorem skip_ok (p : Byte → Bool) (t : List Byte) (x : Byte) (r : List Byte) (h : ∀ a ∈ t, p a = true) (hx : p x = false) :
    skip p (t ++ x :: r) = .ok (t, x :: r) := by
  induction t with
  | nil => rw [List.nil_append, skip, if_neg (by simp [hx])]
  | cons c t ih =>
    rw [List.cons_append, skip, if_pos (h c (by simp)), if_neg (by simp), ih (fun a ha => h a (by simp [ha]))]
    rfl

theorem until_ok (c : Byte) (t r : List Byte) (h : c ∉ t) : until1 c (t ++ c :: r) = .ok (t, c :: r) :=
  skip_ok _ t c r (fun a ha => by simp only [bne_iff_ne, ne_eq]; intro e; exact h (e ▸ ha)) (by simp)

theorem while_ok (c : Byte) (n : Nat) (x : Byte) (r : List Byte) (h : x ≠ c) :
    while1 c (List.replicate n c ++ x :: r) = .ok (List.replicate n c, x :: r) :=
  skip_ok _ _ x r (fun a ha => by rw [(List.mem_replicate.mp ha).2]; simp) (by simpa using h)

theorem while_one (c x : Byte) (r : List Byte) (h : x ≠ c) : while1 c (c :: x :: r) = .ok ([c], x :: r) := while_ok c 1 x r h

/-- `skip` does not read behind the end, and leaves something. -/
theorem skip_safe (p : Byte → Bool) (s : List Byte) (h : s ≠ []) : skip p s ≠ .oob ∧ ∀ a, skip p s = .ok a → a.2 ≠ [] ∧ s = a.1 ++ a.2 := by
  induction s with
  | nil => exact absurd rfl h
  | cons c r ih =>
    rw [skip]
    by_cases hc : p c = true
    · rw [if_pos hc]
      by_cases hr : r = []
      · rw [if_pos hr]; exact ⟨by simp, by simp⟩
      · rw [if_neg hr]
        obtain ⟨i1, i2⟩ := ih hr
        cases e : skip p r with
        | ok a =>
          obtain ⟨j1, j2⟩ := i2 a e
          refine ⟨by simp [Out.bind], ?_⟩
          intro b hb
          rw [ok_bind] at hb
          have : (c :: a.1, a.2) = b := by injection hb
          subst this
          exact ⟨j1, by rw [List.cons_append, ← j2]⟩
        | no => exact ⟨by simp [Out.bind], by simp [Out.bind]⟩
        | oob => exact absurd e i1
        | overflow => exact ⟨by simp [Out.bind], by simp [Out.bind]⟩
    · rw [if_neg hc]
      refine ⟨by simp, ?_⟩
      intro a ha
      have : ([], c :: r) = a := by injection ha
      subst this
      exact ⟨by simp, rfl⟩

theorem opt_safe (c : Byte) (s : List Byte) (h : s ≠ []) : opt c s ≠ .oob ∧ ∀ a, opt c s = .ok a → a.2 ≠ [] ∧ a.2 <:+ s := by
  cases s with
  | nil => exact absurd rfl h
  | cons x r =>
    rw [opt]
    by_cases hc : (x == c) = true
    · rw [if_pos hc]
      by_cases hr : r = []
      · rw [if_pos hr]; exact ⟨by simp, by simp⟩
      · rw [if_neg hr]
        refine ⟨by simp, ?_⟩
        intro a ha
        have : (true, r) = a := by injection ha
        subst this
        exact ⟨hr, List.suffix_cons _ _⟩
    · rw [if_neg hc]
      refine ⟨by simp, ?_⟩
      intro a ha
      have : (false, x :: r) = a := by injection ha
      subst this
      exact ⟨by simp, List.suffix_refl _⟩

theorem getlong_from_safe (t : List Byte) : ∀ u, getlongFrom u t ≠ .oob ∧ getlongFrom u t ≠ .no := by
  induction t with
  | nil => intro u; simp [getlongFrom]
  | cons c t ih =>
    intro u
    rw [getlongFrom]
    split
    · exact ih _
    · simp

theorem getlong_safe (t : List Byte) : getlong t ≠ .oob := (getlong_from_safe t 0).1

end FtpL
