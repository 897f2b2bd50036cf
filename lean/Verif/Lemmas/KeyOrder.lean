import Verif.Lemmas.Key
import Verif.Props.Hash
/- Comparing, containing and matching keys. -/
namespace Wv.Key
open Spec.Path

theorem lower_eq : lower = tolower := by
  funext c; revert c; apply forall_byte; decide +kernel

/-- The segments without regard to case. -/
def fold (k : Key) : List (List Byte) := k.map (List.map tolower)

theorem strcasecmp_lt (a b : List Byte) : (strcasecmp a b < 0 ↔ a.map tolower < b.map tolower) ∧
    (strcasecmp a b = 0 ↔ a.map tolower = b.map tolower) ∧ ((0 < strcasecmp a b) ↔ b.map tolower < a.map tolower) := by
  induction a generalizing b with
  | nil => cases b <;> simp [strcasecmp, List.lt_irrefl]
  | cons c a ih =>
    cases b with
    | nil => simp [strcasecmp]
    | cons d b =>
      simp only [strcasecmp, List.map_cons, List.cons_lt_cons_iff, List.cons.injEq]
      by_cases h : tolower c = tolower d
      · rw [if_pos h]
        have h1 : ¬ tolower c < tolower d := by rw [h]; exact UInt8.lt_irrefl _
        have h2 : ¬ tolower d < tolower c := by rw [h]; exact UInt8.lt_irrefl _
        simp only [h1, h2, h, false_or, true_and]
        simp only [ih b, UInt8.lt_irrefl, false_or, true_and, and_self]
      · rw [if_neg h]
        have h' : tolower d ≠ tolower c := fun e => h e.symm
        simp only [h, h', false_and, or_false, iff_false]
        rw [UInt8.lt_iff_toNat_lt, UInt8.lt_iff_toNat_lt]
        have : (tolower c).toNat ≠ (tolower d).toNat := fun e => h (UInt8.toNat_inj.mp e)
        omega

theorem compareto_order (a b : Key) : (compareto a b < 0 ↔ fold a < fold b) ∧ (compareto a b = 0 ↔ fold a = fold b) ∧
    (0 < compareto a b ↔ fold b < fold a) := by
  induction a generalizing b with
  | nil => cases b <;> simp [compareto, fold, List.lt_irrefl]
  | cons s a ih =>
    cases b with
    | nil => simp [compareto, fold]
    | cons t b =>
      obtain ⟨h1, h2, h3⟩ := strcasecmp_lt s t
      have ih := ih b
      simp only [fold, compareto, List.map_cons, List.cons_lt_cons_iff, List.cons.injEq] at ih ⊢
      by_cases h : strcasecmp s t = 0
      · rw [if_neg (by simpa using h)]
        have he := h2.mp h
        rw [he]
        simp only [List.lt_irrefl, false_or, true_and]
        exact ih
      · rw [if_pos h]
        have he : ¬ s.map tolower = t.map tolower := fun e => h (h2.mpr e)
        have he' : ¬ t.map tolower = s.map tolower := fun e => he e.symm
        simp only [he, he', false_and, or_false, iff_false]
        exact ⟨h1, h, h3⟩

theorem eq_iff (a b : Key) : eq a b = true ↔ fold a = fold b := by
  unfold eq
  rw [beq_iff_eq]
  exact (compareto_order a b).2.1

theorem eq_refl (a : Key) : eq a a = true := (eq_iff a a).mpr rfl

theorem hash_congr (a b : Key) (h : eq a b = true) : hash a = hash b := by
  rw [eq_iff] at h
  unfold fold at h
  have hl : a.length = b.length := by simpa using congrArg List.length h
  have hw : ∀ s t : Seg, s.map tolower = t.map tolower → wvHash (some s) = wvHash (some t) := Props.C47_hash_ignores_case
  match a, b, hl with
  | [], [], _ => rfl
  | [s], [t], _ => simpa [hash] using hw s t (by simpa using h)
  | s :: x :: a, t :: y :: b, hl =>
    simp only [List.map_cons, List.cons.injEq] at h
    have h1 := hw s t h.1
    have e : ((x :: a).getLast?.getD []).map tolower = ((y :: b).getLast?.getD []).map tolower := by
      have : ((x :: a).map (List.map tolower)).getLast? = ((y :: b).map (List.map tolower)).getLast? := by
        simp only [List.map_cons, h.2.1, h.2.2]
      rw [List.getLast?_map, List.getLast?_map] at this
      rw [List.getLast?_eq_some_getLast (l := x :: a) (by simp), List.getLast?_eq_some_getLast (l := y :: b) (by simp)] at this ⊢
      simpa using this
    simp only [hash, h1, hw _ _ e, hl]

theorem fold_mk (ns : List Seg) (d : Bool) : fold (mk ns d) = fold ns ++ (if d then [[]] else []) := by
  unfold fold mk; cases d <;> simp

theorem fold_append (a b : Key) : fold (a ++ b) = fold a ++ fold b := by simp [fold]
theorem fold_length (a : Key) : (fold a).length = a.length := by simp [fold]
theorem fold_take (a : Key) (n : Nat) : fold (a.take n) = (fold a).take n := by simp [fold, List.map_take]
theorem fold_drop (a : Key) (n : Nat) : fold (a.drop n) = (fold a).drop n := by simp [fold, List.map_drop]

theorem nil_not_fold (a : List Seg) (h : Names a) : [] ∉ fold a := by
  intro hm
  obtain ⟨n, hn, he⟩ := List.mem_map.mp hm
  exact (h n hn).1 (by simpa using he)

theorem eq_mk (a b : List Seg) (d e : Bool) (ha : Names a) (hb : Names b) :
    eq (mk a d) (mk b e) = true ↔ fold a = fold b ∧ d = e := by
  rw [eq_iff, fold_mk, fold_mk]
  have na := nil_not_fold a ha
  have nb := nil_not_fold b hb
  cases d <;> cases e <;> simp
  · intro h; rw [h] at na; simp at na
  · intro h; rw [← h] at nb; simp at nb

theorem first_mk (a : List Seg) (d : Bool) (ha : Names a) (hd : d = true → a ≠ []) (n : Nat) (hn : n ≤ a.length) :
    first (mk a d) n = a.take n := by
  unfold first
  rw [range_mk a d ha hd]
  have : ¬ ((a.length : Int) < n) := by omega
  simp [this, mk]

theorem first_mk_long (a : List Seg) (d : Bool) (ha : Names a) (hd : d = true → a ≠ []) (n : Nat) (hn : a.length < n) :
    first (mk a d) n = mk a d := by
  unfold first
  rw [range_mk a d ha hd]
  have h1 : ((a.length : Int) < n) := by omega
  have h2 : (a.take n) = a := List.take_of_length_le (by omega)
  simp only [Int.toNat_natCast, h2, Int.toNat_zero, List.drop_zero, h1, and_true]
  congr 1
  cases d
  · rfl
  · have := List.length_pos_iff.mpr (hd rfl); simpa using this

theorem removefirst_mk (a : List Seg) (d : Bool) (ha : Names a) (hd : d = true → a ≠ []) (n : Nat) :
    removefirst (mk a d) n = mk (a.drop n) (d && decide (n < a.length)) := by
  unfold removefirst numsegments
  rw [range_mk a d ha hd]
  have hl := mk_length a d
  have e1 : a.take ((mk a d).length : Int).toNat = a := List.take_of_length_le (by omega)
  rw [e1]
  congr 1
  cases d
  · rfl
  · simp only [if_true] at hl
    simp only [Bool.true_and]
    apply decide_eq_decide.mpr
    omega

theorem numsegs_mk (a : List Seg) (d : Bool) (ha : Names a) :
    (if hastrailingslash (mk a d) then numsegments (mk a d) - 1 else numsegments (mk a d)) = (a.length : Int) := by
  rw [trailing_mk a d ha, numsegments, mk_length]
  cases d <;> simp

theorem suborsame_mk (a b : List Seg) (d e : Bool) (ha : Names a) (hb : Names b) (hd : d = true → a ≠ []) (he : e = true → b ≠ []) :
    suborsame (mk a d) (mk b e) = true ↔ fold a <+: fold b := by
  unfold suborsame
  dsimp only
  rw [numsegs_mk a d ha, first_mk a d ha hd a.length (Nat.le_refl _), List.take_length, List.prefix_iff_eq_take]
  by_cases h : a.length ≤ b.length
  · rw [first_mk b e hb he _ h, eq_iff, fold_take, fold_length]
    exact eq_comm
  · rw [first_mk_long b e hb he _ (by omega)]
    have hm : a = mk a false := by simp [mk]
    have hl : fold b ≠ fold a := by intro hh; have := congrArg List.length hh; rw [fold_length, fold_length] at this; omega
    constructor
    · intro h1; rw [hm, eq_mk b a e false hb ha] at h1; exact absurd h1.1 hl
    · intro h1
      rw [List.take_of_length_le (by rw [fold_length, fold_length]; omega)] at h1
      exact absurd h1.symm hl

theorem suborsameKey_eq (a b : Key) : suborsameKey a b =
    if suborsame a b then some (removefirst b (if hastrailingslash a then numsegments a - 1 else numsegments a)) else none := rfl

theorem suborsameKey_mk (a b : List Seg) (d e : Bool) (ha : Names a) (hb : Names b) (hd : d = true → a ≠ [])
    (he : e = true → b ≠ []) (r : Key) :
    suborsameKey (mk a d) (mk b e) = some r ↔ fold a <+: fold b ∧ r = mk (b.drop a.length) (e && decide (a.length < b.length)) := by
  rw [suborsameKey_eq, ← suborsame_mk a b d e ha hb hd he, numsegs_mk a d ha, removefirst_mk b e hb he]
  constructor
  · intro h
    split at h
    · rename_i h1; exact ⟨h1, (Option.some.inj h).symm⟩
    · simp at h
  · rintro ⟨h1, rfl⟩; rw [if_pos h1]

/- Matching. -/

theorem tolower_star : ∀ c : Byte, tolower c = 42 ↔ c = 42 := by apply forall_byte; decide +kernel
theorem tolower_dot : ∀ c : Byte, tolower c = 46 ↔ c = 46 := by apply forall_byte; decide +kernel

theorem fold_star (p : Seg) : p.map tolower = star ↔ p = star := by
  unfold star
  match p with
  | [] => simp
  | [c] => simp [tolower_star]
  | _ :: _ :: _ => simp

theorem fold_dots (p : Seg) : p.map tolower = dots ↔ p = dots := by
  unfold dots
  match p with
  | [] => simp
  | [c] => simp
  | [c, d] => simp
  | [c, d, e] => simp [tolower_dot]
  | _ :: _ :: _ :: _ :: _ => simp

theorem eq_any (p : Seg) : eq [p] ANY = true ↔ p = star := by
  rw [eq_iff]
  have e : fold ANY = [star] := by decide
  rw [e]
  simp [fold, fold_star]

theorem eq_rec (p : Seg) : eq [p] RECURSIVE_ANY = true ↔ p = dots := by
  rw [eq_iff]
  have e : fold RECURSIVE_ANY = [dots] := by decide
  rw [e]
  simp [fold, fold_dots]

theorem matches_of_fold (b : List Seg) : ∀ a : List Seg, fold a = fold b → Spec.Path.Matches a b := by
  induction b with
  | nil => intro a h; have : a = [] := by simpa [fold] using h
           subst this; exact .nil
  | cons p b ih =>
    intro a h
    cases a with
    | nil => simp [fold] at h
    | cons x a =>
      simp only [fold, List.map_cons, List.cons.injEq] at h
      have hr := ih a h.2
      by_cases h1 : p = star
      · subst h1; exact .star hr
      · by_cases h2 : p = dots
        · subst h2; exact .dots (xs := [x]) hr
        · refine .name ?_ ?_ hr
          · simp [wild, h1, h2]
          · rw [lower_eq]; exact h.1

theorem fold_of_matches (b : List Seg) (hb : ∀ p ∈ b, wild p = false) : ∀ a : List Seg, Spec.Path.Matches a b → fold a = fold b := by
  induction b with
  | nil => intro a h; cases h; rfl
  | cons p b ih =>
    intro a h
    have hp := hb p (by simp)
    cases h with
    | star _ => simp [wild] at hp
    | dots _ => simp [wild] at hp
    | name h1 h2 h3 =>
      have := ih (fun q hq => hb q (by simp [hq])) _ h3
      simp only [fold, List.map_cons, List.cons.injEq] at this ⊢
      rw [lower_eq] at h2
      exact ⟨h2, this⟩

theorem anyPart_iff (f : Key → Bool) (a : List Seg) (d : Bool) (ha : Names a) (hd : d = true → a ≠ []) (n : Nat) (hn : n ≤ a.length) :
    anyPart f (mk a d) n = true ↔ ∃ m, n ≤ m ∧ m ≤ a.length ∧ f (mk (a.drop m) (d && decide (m < a.length))) = true := by
  generalize hk : a.length - n = k
  induction k generalizing n with
  | zero =>
    have : n = a.length := by omega
    subst this
    rw [anyPart, removefirst_mk a d ha hd]
    have he : isempty (mk (a.drop a.length) (d && decide (a.length < a.length))) = true := by simp [mk, isempty]
    simp only [he, dite_true]
    constructor
    · intro h; exact ⟨a.length, Nat.le_refl _, Nat.le_refl _, by split at h <;> simp_all⟩
    · rintro ⟨m, h1, h2, h3⟩
      have : m = a.length := by omega
      subst this
      rw [if_pos h3]
  | succ k ih =>
    rw [anyPart, removefirst_mk a d ha hd]
    have he : isempty (mk (a.drop n) (d && decide (n < a.length))) = false := by
      rw [isempty_mk _ _ (by intro _; simp; omega)]; simp; omega
    simp only [he, Bool.false_eq_true, dite_false]
    have ih := ih (n + 1) (by omega) (by omega)
    constructor
    · intro h
      split at h
      · rename_i h1; exact ⟨n, Nat.le_refl _, hn, h1⟩
      · obtain ⟨m, h1, h2, h3⟩ := ih.mp h; exact ⟨m, by omega, h2, h3⟩
    · rintro ⟨m, h1, h2, h3⟩
      split
      · rfl
      · rename_i h4
        refine ih.mpr ⟨m, ?_, h2, h3⟩
        rcases Nat.lt_or_ge n m with h5 | h5
        · omega
        · have : m = n := by omega
          subst this; exact absurd h3 h4

/-- The slash at the end matters only if the pattern does not end in a wildcard. -/
def Dirs (b : List Seg) (d e : Bool) : Prop := ∀ l, b.getLast? = some l → wild l = false → d = e

theorem matches_dots (a b : List Seg) : Spec.Path.Matches a (dots :: b) ↔ ∃ n ≤ a.length, Spec.Path.Matches (a.drop n) b := by
  constructor
  · intro h
    generalize hp : dots :: b = p at h
    cases h with
    | nil => simp at hp
    | star _ => simp [star, dots] at hp
    | @dots xs ks ps h1 =>
      simp only [List.cons.injEq] at hp
      obtain ⟨-, rfl⟩ := hp
      exact ⟨xs.length, by simp, by simpa using h1⟩
    | name h1 _ _ => simp only [List.cons.injEq] at hp; rw [← hp.1] at h1; simp [wild] at h1
  · rintro ⟨n, hn, h⟩
    have := Spec.Path.Matches.dots (xs := a.take n) h
    rwa [List.take_append_drop] at this

theorem matches_star (a b : List Seg) : Spec.Path.Matches a (star :: b) ↔ ∃ x t, a = x :: t ∧ Spec.Path.Matches t b := by
  constructor
  · intro h
    generalize hp : star :: b = p at h
    cases h with
    | nil => simp at hp
    | dots _ => simp [star, dots] at hp
    | @star x ks ps h1 =>
      simp only [List.cons.injEq] at hp
      obtain ⟨-, rfl⟩ := hp
      exact ⟨_, _, rfl, h1⟩
    | name h1 _ _ => simp only [List.cons.injEq] at hp; rw [← hp.1] at h1; simp [wild] at h1
  · rintro ⟨x, t, rfl, h⟩; exact .star h

theorem matches_nonempty (b : List Seg) (l : Seg) (hl : b.getLast? = some l) (hw : wild l = false) :
    ¬ Spec.Path.Matches [] b := by
  induction b with
  | nil => simp at hl
  | cons p b ih =>
    intro h
    generalize ha : ([] : List Seg) = a at h
    cases h with
    | star _ => simp at ha
    | @dots xs ks ps h1 =>
      have : ks = [] := by
        have := congrArg List.length ha; simp at this; exact List.length_eq_zero_iff.mp (by omega)
      subst this
      cases b with
      | nil =>
        simp only [List.getLast?_singleton, Option.some.injEq] at hl
        subst hl; simp [wild] at hw
      | cons q b => exact ih (by simpa using hl) h1
    | name _ _ _ => simp at ha

theorem first_one (p : Seg) (b : List Seg) (e : Bool) (hb : Names (p :: b)) : first (mk (p :: b) e) 1 = [p] := by
  have := first_mk (p :: b) e hb (by simp) 1 (by simp)
  simpa using this

theorem removefirst_one (p : Seg) (b : List Seg) (e : Bool) (hb : Names (p :: b)) :
    removefirst (mk (p :: b) e) 1 = mk b (e && !b.isEmpty) := by
  have := removefirst_mk (p :: b) e hb (by simp) 1
  rw [Int.natCast_one] at this
  rw [this]
  cases b <;> simp

/-- Which keys match, for a pattern of wildcards followed by `l`, where `l` is empty or begins with no wildcard: `l` is
    compared as it is. -/
theorem matches_mk (l : List Seg) (hl : l = [] ∨ ∃ p t, l = p :: t ∧ wild p = false) (w : List Seg) :
    ∀ (a : List Seg) (d e : Bool), (∀ p ∈ w, wild p = true) → Names a → Names (w ++ l) → (d = true → a ≠ []) → (e = true → w ++ l ≠ []) →
      ((«matches» (mk a d) (mk (w ++ l) e) = true) ↔
        (∃ x y, a = x ++ y ∧ Spec.Path.Matches x w ∧ fold y = fold l ∧ (l ≠ [] → d = e)) ∨ eq (mk a d) (mk (w ++ l) e) = true) := by
  induction w with
  | nil =>
    intro a d e _ ha hb hd he
    simp only [List.nil_append] at hb he ⊢
    rw [«matches»]
    have hno : ∀ p t, l = p :: t → eq (first (mk l e) 1) ANY = false ∧ eq (first (mk l e) 1) RECURSIVE_ANY = false := by
      intro p t hpt
      subst hpt
      rw [first_one p t e hb]
      rcases hl with h | ⟨p', t', h, hw⟩
      · simp at h
      · simp only [List.cons.injEq] at h
        rw [h.1]
        simp only [wild, Bool.or_eq_false_iff, beq_eq_false_iff_ne] at hw
        constructor
        · rw [← Bool.not_eq_true, eq_any]; exact hw.1
        · rw [← Bool.not_eq_true, eq_rec]; exact hw.2
    have hno' : eq (first (mk l e) 1) ANY = false ∧ eq (first (mk l e) 1) RECURSIVE_ANY = false := by
      cases hc : l with
      | nil =>
        subst hc
        have : e = false := by cases e; rfl; exact absurd rfl (he rfl)
        subst this; decide
      | cons p t => rw [← hc]; exact hno p t hc
    simp only [hno'.1, hno'.2, Bool.false_eq_true, dite_false]
    constructor
    · intro h; split at h
      · rename_i h1; exact Or.inr h1
      · simp at h
    · rintro (⟨x, y, rfl, h1, h2, h3⟩ | h)
      · cases h1
        rw [List.nil_append] at ha hd ⊢
        have hde : d = e := by
          by_cases hc : l = []
          · subst hc
            have hy : y = [] := by simpa [fold] using h2
            subst hy
            have e1 : d = false := by cases d; rfl; exact absurd rfl (hd rfl)
            have e2 : e = false := by cases e; rfl; exact absurd rfl (he rfl)
            rw [e1, e2]
          · exact h3 hc
        rw [if_pos ((eq_mk y l d e ha hb).mpr ⟨h2, hde⟩)]
      · rw [if_pos h]
  | cons p w ih =>
    intro a d e hw ha hb hd he
    have hb' : Names (w ++ l) := fun n hn => hb n (by simp at hn ⊢; exact Or.inr hn)
    rw [«matches»]
    by_cases h0 : eq (mk a d) (mk (p :: w ++ l) e) = true
    · exact iff_of_true (by rw [if_pos h0]) (Or.inr h0)
    · rw [if_neg h0]
      simp only [h0, or_false, Bool.false_eq_true]
      rw [List.cons_append] at hb h0 ⊢
      rw [first_one p _ e hb, removefirst_one p _ e hb]
      have hwp := hw p (by simp)
      have hww : ∀ q ∈ w, wild q = true := fun q hq => hw q (by simp [hq])
      have he' : (e && !(w ++ l).isEmpty) = true → w ++ l ≠ [] := by
        intro h hh; rw [hh] at h; simp at h
      have hemp : w ++ l = [] → l = [] := by intro h; simp at h; exact h.2
      by_cases h1 : p = star
      · subst h1
        rw [dif_pos ((eq_any star).mpr rfl)]
        rw [isempty_mk a d hd]
        cases a with
        | nil =>
          simp only [List.isEmpty_nil, if_true, Bool.false_eq_true, false_iff]
          rintro ⟨x, y, h2, h3, -⟩
          obtain ⟨x', t, rfl, -⟩ := (matches_star x w).mp h3
          simp at h2
        | cons x0 a =>
          simp only [List.isEmpty_cons, Bool.false_eq_true, if_false]
          rw [removefirst_one x0 a d ha]
          rw [ih a (d && !a.isEmpty) (e && !(w ++ l).isEmpty) hww (fun n hn => ha n (by simp [hn])) hb'
            (by intro h hh; rw [hh] at h; simp at h) he']
          constructor
          · rintro (⟨x, y, h2, h3, h4, h5⟩ | h)
            · subst h2
              refine ⟨x0 :: x, y, rfl, .star h3, h4, ?_⟩
              intro hne
              have := h5 hne
              have e1 : (x ++ y).isEmpty = false := by
                cases y with
                | nil => exact absurd (by simpa [fold] using h4.symm) hne
                | cons => simp
              have e2 : (w ++ l).isEmpty = false := by simp [hne]
              simpa [e1, e2] using this
            · rw [eq_mk _ _ _ _ (fun n hn => ha n (by simp [hn])) hb'] at h
              obtain ⟨h2, h3⟩ := h
              rw [fold_append] at h2
              refine ⟨x0 :: a.take w.length, a.drop w.length, by simp, .star ?_, ?_, ?_⟩
              · apply matches_of_fold
                rw [fold_take, h2, ← fold_length, List.take_left]
              · rw [fold_drop, h2, ← fold_length, List.drop_left]
              · intro hne
                have e2 : (w ++ l).isEmpty = false := by simp [hne]
                have e1 : a.isEmpty = false := by
                  cases a with
                  | nil =>
                    have := congrArg List.length h2
                    rw [List.length_append, fold_length, fold_length, fold_length, List.length_nil] at this
                    exact absurd (List.length_eq_zero_iff.mp (by omega)) hne
                  | cons => rfl
                simpa [e1, e2] using h3
          · rintro ⟨x, y, h2, h3, h4, h5⟩
            obtain ⟨x', t, rfl, h6⟩ := (matches_star x w).mp h3
            simp only [List.cons_append, List.cons.injEq] at h2
            obtain ⟨-, rfl⟩ := h2
            refine Or.inl ⟨t, y, rfl, h6, h4, ?_⟩
            intro hne
            have e1 : (t ++ y).isEmpty = false := by
              cases y with
              | nil => exact absurd (by simpa [fold] using h4.symm) hne
              | cons => simp
            have e2 : (w ++ l).isEmpty = false := by simp [hne]
            simp [e1, e2, h5 hne]
      · have h2 : p = dots := by simpa [wild, h1] using hwp
        subst h2
        rw [dif_neg (by rw [eq_any]; exact h1), dif_pos ((eq_rec dots).mpr rfl)]
        rw [isempty_mk _ _ he']
        by_cases hemp2 : w ++ l = []
        · rw [hemp2]
          simp only [List.isEmpty_nil, if_true, true_iff]
          have hl0 := hemp hemp2
          have hw0 : w = [] := by simp at hemp2; exact hemp2.1
          subst hl0; subst hw0
          refine ⟨a, [], by simp, ?_, rfl, by simp⟩
          have := Spec.Path.Matches.dots (xs := a) Spec.Path.Matches.nil
          simpa using this
        · have e2 : (w ++ l).isEmpty = false := by simpa using hemp2
          rw [if_neg (by simp only [e2]; simp)]
          rw [anyPart_iff _ a d ha hd 0 (Nat.zero_le _)]
          have hi : ∀ m ≤ a.length, (d && decide (m < a.length)) = true → a.drop m ≠ [] := by
            intro m hm h hh
            simp at h hh; omega
          constructor
          · rintro ⟨m, -, hm, h⟩
            rw [ih (a.drop m) _ _ hww (ha.drop m) hb' (hi m hm) he'] at h
            have key : ∃ x y, a.drop m = x ++ y ∧ Spec.Path.Matches x w ∧ fold y = fold l ∧ (l ≠ [] → (d && decide (m < a.length)) = (e && !(w ++ l).isEmpty)) := by
              rcases h with h | h
              · exact h
              · rw [eq_mk _ _ _ _ (ha.drop m) hb'] at h
                obtain ⟨h2, h3⟩ := h
                rw [fold_append] at h2
                refine ⟨(a.drop m).take w.length, (a.drop m).drop w.length, (List.take_append_drop _ _).symm, ?_, ?_, fun _ => h3⟩
                · apply matches_of_fold
                  rw [fold_take, h2, ← fold_length, List.take_left]
                · rw [fold_drop, h2, ← fold_length, List.drop_left]
            obtain ⟨x, y, h2, h3, h4, h5⟩ := key
            refine ⟨a.take m ++ x, y, by rw [List.append_assoc, ← h2, List.take_append_drop], .dots h3, h4, ?_⟩
            intro hne
            have := h5 hne
            have e1 : m < a.length := by
              have : y ≠ [] := by rintro rfl; exact hne (by simpa [fold] using h4.symm)
              have h6 := congrArg List.length h2
              have h7 := List.length_pos_iff.mpr this
              simp at h6; omega
            simpa [e1, e2] using this
          · rintro ⟨x, y, rfl, h3, h4, h5⟩
            obtain ⟨n, hn, h6⟩ := (matches_dots x w).mp h3
            refine ⟨n, Nat.zero_le _, by simp; omega, ?_⟩
            rw [ih _ _ _ hww (ha.drop n) hb' (hi n (by simp; omega)) he']
            refine Or.inl ⟨x.drop n, y, by rw [List.drop_append_of_le_length hn], h6, h4, ?_⟩
            intro hne
            have e1 : n < (x ++ y).length := by
              have : y ≠ [] := by rintro rfl; exact hne (by simpa [fold] using h4.symm)
              have h7 := List.length_pos_iff.mpr this
              simp; omega
            rw [decide_eq_true e1, e2, h5 hne]; rfl

theorem matches_append (x y w l : List Seg) (h : Spec.Path.Matches x w) (h2 : Spec.Path.Matches y l) :
    Spec.Path.Matches (x ++ y) (w ++ l) := by
  induction h with
  | nil => exact h2
  | star _ ih => exact .star ih
  | @dots xs ks ps _ ih => rw [List.append_assoc]; exact .dots ih
  | name a b _ ih => exact .name a b ih

theorem matches_split (w l : List Seg) : ∀ a, Spec.Path.Matches a (w ++ l) → ∃ x y, a = x ++ y ∧ Spec.Path.Matches x w ∧ Spec.Path.Matches y l := by
  induction w with
  | nil => intro a h; exact ⟨[], a, rfl, .nil, h⟩
  | cons p w ih =>
    intro a h
    rw [List.cons_append] at h
    generalize hp : p :: (w ++ l) = q at h
    cases h with
    | nil => simp at hp
    | star h1 =>
      simp only [List.cons.injEq] at hp
      obtain ⟨rfl, rfl⟩ := hp
      obtain ⟨x, y, rfl, h2, h3⟩ := ih _ h1
      exact ⟨_ :: x, y, rfl, .star h2, h3⟩
    | @dots xs _ _ h1 =>
      simp only [List.cons.injEq] at hp
      obtain ⟨rfl, rfl⟩ := hp
      obtain ⟨x, y, rfl, h2, h3⟩ := ih _ h1
      exact ⟨xs ++ x, y, by simp, .dots h2, h3⟩
    | name h4 h5 h1 =>
      simp only [List.cons.injEq] at hp
      obtain ⟨rfl, rfl⟩ := hp
      obtain ⟨x, y, rfl, h2, h3⟩ := ih _ h1
      exact ⟨_ :: x, y, rfl, .name h4 h5 h2, h3⟩

/-- Every pattern is wildcards followed by something that begins with none. -/
theorem wild_split (b : List Seg) : ∃ w l, b = w ++ l ∧ (∀ p ∈ w, wild p = true) ∧ (l = [] ∨ ∃ p t, l = p :: t ∧ wild p = false) := by
  induction b with
  | nil => exact ⟨[], [], rfl, by simp, Or.inl rfl⟩
  | cons p b ih =>
    by_cases h : wild p = true
    · obtain ⟨w, l, rfl, h1, h2⟩ := ih
      exact ⟨p :: w, l, rfl, by simp; exact ⟨h, h1⟩, h2⟩
    · exact ⟨[], p :: b, rfl, by simp, Or.inr ⟨p, b, rfl, by simpa using h⟩⟩

end Wv.Key
