import Verif.Model.IntText
import Verif.Spec.IntText
import Verif.Lemmas.Basic
/- Lemmas for C80. -/
namespace Props.IntT
open Wv Wv.IntText Spec.IntText

theorem digit_eq (b : Nat) (hb : b = 8 ∨ b = 10 ∨ b = 16) (c : Byte) :
    digit b c = if digitVal c < b then some (digitVal c) else none := by
  have key : ∀ c : Byte, (digit 8 c = if digitVal c < 8 then some (digitVal c) else none) ∧
      (digit 10 c = if digitVal c < 10 then some (digitVal c) else none) ∧
      (digit 16 c = if digitVal c < 16 then some (digitVal c) else none) :=
    forall_byte (by decide +kernel)
  rcases hb with h | h | h <;> subst h
  · exact (key c).1
  · exact (key c).2.1
  · exact (key c).2.2

theorem digit_some {b : Nat} (hb : b = 8 ∨ b = 10 ∨ b = 16) {c : Byte} {v : Nat} :
    digit b c = some v ↔ isDig b c = true ∧ digitVal c = v := by
  rw [digit_eq b hb]
  unfold isDig
  by_cases h : digitVal c < b <;> simp [h]

theorem digit_none {b : Nat} (hb : b = 8 ∨ b = 10 ∨ b = 16) {c : Byte} : digit b c = none ↔ isDig b c = false := by
  rw [digit_eq b hb]
  unfold isDig
  by_cases h : digitVal c < b <;> simp [h]

def val (b : Nat) (ds : List Byte) : Nat := ds.foldl (fun n c => n * b + digitVal c) 0

theorem digits_val {b : Nat} (hb : b = 8 ∨ b = 10 ∨ b = 16) {t : List Byte} {n : Nat} (h : Digits b t n) :
    (∀ c ∈ t, isDig b c = true) ∧ val b t = n := by
  induction h with
  | nil => exact ⟨by simp, rfl⟩
  | snoc t n c v _ hd ih =>
    obtain ⟨h1, h2⟩ := (digit_some hb).1 hd
    refine ⟨?_, ?_⟩
    · intro d hd
      rcases List.mem_append.1 hd with hd | hd
      · exact ih.1 d hd
      · rw [List.mem_singleton.1 hd]; exact h1
    · unfold val at ih ⊢
      rw [List.foldl_append, ih.2, List.foldl_cons, List.foldl_nil, h2]

theorem val_digits {b : Nat} (hb : b = 8 ∨ b = 10 ∨ b = 16) : ∀ (k : Nat) (t : List Byte), t.length = k →
    (∀ c ∈ t, isDig b c = true) → Digits b t (val b t) := by
  intro k
  induction k with
  | zero =>
    intro t ht _
    rw [List.length_eq_zero_iff.1 ht]
    exact Digits.nil
  | succ k ih =>
    intro t ht h
    rcases List.eq_nil_or_concat t with e | ⟨u, c, e⟩
    · rw [e] at ht; simp at ht
    · rw [List.concat_eq_append] at e
      subst e
      have hu := ih u (by simpa using ht) (fun d hd => h d (by simp [hd]))
      have hc : digit b c = some (digitVal c) := (digit_some hb).2 ⟨h c (by simp), rfl⟩
      have := Digits.snoc u _ c _ hu hc
      have e2 : val b (u ++ [c]) = val b u * b + digitVal c := by
        unfold val; rw [List.foldl_append, List.foldl_cons, List.foldl_nil]
      rw [e2]
      exact this

theorem take_ends {b : Nat} (hb : b = 8 ∨ b = 10 ∨ b = 16) (ds rest : List Byte) (h : ∀ c ∈ ds, isDig b c = true)
    (he : Ends b rest) : (ds ++ rest).takeWhile (isDig b) = ds := by
  induction ds with
  | nil =>
    cases rest with
    | nil => rfl
    | cons c r => rw [List.nil_append, List.takeWhile_cons, (digit_none hb).1 (he c r rfl)]; rfl
  | cons c ds ih =>
    rw [List.cons_append, List.takeWhile_cons, h c (by simp), if_pos rfl, ih (fun d hd => h d (by simp [hd]))]

theorem ends_drop {b : Nat} (hb : b = 8 ∨ b = 10 ∨ b = 16) (s : List Byte) : Ends b (s.dropWhile (isDig b)) := by
  intro c r h
  rw [digit_none hb]
  induction s with
  | nil => simp at h
  | cons d s ih =>
    rw [List.dropWhile_cons] at h
    split at h
    · exact ih h
    · rename_i hd
      obtain ⟨rfl, rfl⟩ := List.cons.inj h
      simpa using hd

theorem all_take {b : Nat} (s : List Byte) : ∀ c ∈ s.takeWhile (isDig b), isDig b c = true := by
  induction s with
  | nil => intro c hc; simp at hc
  | cons d s ih =>
    intro c hc
    rw [List.takeWhile_cons] at hc
    split at hc
    · rename_i hd
      rcases List.mem_cons.1 hc with rfl | hc
      · exact hd
      · exact ih c hc
    · simp at hc

theorem dig_zero : isDig 8 (ch '0') = true ∧ digitVal (ch '0') = 0 := by decide +kernel

theorem num_of (s : List Byte) (b : Nat) (t ds rest : List Byte) (hb : b = 8 ∨ b = 10 ∨ b = 16) (hbase : base s = (b, t))
    (ht : t = ds ++ rest) (hd : ∀ c ∈ ds, isDig b c = true) (he : Ends b rest) (hne : ds ≠ []) :
    number s = some (val b ds) := by
  unfold number
  simp only [hbase]
  rw [ht, take_ends hb ds rest hd he, if_neg hne]
  rfl

theorem number_iff (s : List Byte) (n : Nat) : number s = some n ↔ Begins s n := by
  constructor
  · intro h
    cases s with
    | nil => simp [number, base] at h
    | cons z r =>
      by_cases hz : z = ch '0'
      · subst hz
        -- hexadecimal or octal
        by_cases hx : ∃ x d r', r = x :: d :: r' ∧ (x = ch 'x' ∨ x = ch 'X') ∧ isDig 16 d = true
        · obtain ⟨x, d, r', rfl, hx, hd⟩ := hx
          have hbase : base (ch '0' :: x :: d :: r') = (16, d :: r') := by
            unfold base
            dsimp only
            rw [if_pos (by simp)]
            rw [if_pos (by rcases hx with h | h <;> simp [h, hd])]
          have hsplit : (d :: r') = (d :: r').takeWhile (isDig 16) ++ (d :: r').dropWhile (isDig 16) :=
            List.takeWhile_append_dropWhile.symm
          have hne : (d :: r').takeWhile (isDig 16) ≠ [] := by rw [List.takeWhile_cons, hd]; simp
          have := num_of _ 16 _ _ _ (by omega) hbase hsplit (all_take _) (ends_drop (by omega) _) hne
          rw [this] at h
          have h := Option.some.inj h
          subst h
          have := Begins.hex x ((d :: r').takeWhile (isDig 16)) ((d :: r').dropWhile (isDig 16)) _ hx hne
            (val_digits (by omega) _ _ rfl (all_take _)) (ends_drop (by omega) _)
          rw [← hsplit] at this
          exact this
        · have hbase : base (ch '0' :: r) = (8, ch '0' :: r) := by
            unfold base
            dsimp only
            rw [if_pos (by simp)]
            split
            · rename_i x d r'
              rw [if_neg]
              intro hc
              simp at hc
              exact hx ⟨x, d, r', rfl, hc.1, hc.2⟩
            · rfl
          have hsplit : (ch '0' :: r) = (ch '0' :: r.takeWhile (isDig 8)) ++ r.dropWhile (isDig 8) := by
            rw [List.cons_append, List.takeWhile_append_dropWhile]
          have hall : ∀ c ∈ ch '0' :: r.takeWhile (isDig 8), isDig 8 c = true := by
            intro c hc
            rcases List.mem_cons.1 hc with rfl | hc
            · exact dig_zero.1
            · exact all_take _ c hc
          have := num_of _ 8 _ _ _ (by omega) hbase hsplit hall (ends_drop (by omega) _) (by simp)
          rw [this] at h
          have h := Option.some.inj h
          subst h
          have hv : val 8 (ch '0' :: r.takeWhile (isDig 8)) = val 8 (r.takeWhile (isDig 8)) := by
            unfold val; rw [List.foldl_cons, dig_zero.2]
          rw [hv]
          have := Begins.oct (r.takeWhile (isDig 8)) (r.dropWhile (isDig 8)) _ (val_digits (by omega) _ _ rfl (all_take _))
            (ends_drop (by omega) _) (by
              intro h0 x d r' hr hxx
              rw [digit_none (by omega)]
              cases hdd : isDig 16 d with
              | false => rfl
              | true =>
                exfalso
                apply hx
                refine ⟨x, d, r', ?_, hxx, hdd⟩
                rw [← hr, ← List.nil_append (r.dropWhile _), ← h0, List.takeWhile_append_dropWhile])
          rw [List.takeWhile_append_dropWhile] at this
          exact this
      · have hbase : base (z :: r) = (10, z :: r) := by
          unfold base
          dsimp only
          rw [if_neg (by simpa using hz)]
        cases hd : isDig 10 z with
        | false =>
          unfold number at h
          simp only [hbase] at h
          rw [List.takeWhile_cons, hd] at h
          simp at h
        | true =>
          have hsplit : (z :: r) = (z :: r.takeWhile (isDig 10)) ++ r.dropWhile (isDig 10) := by
            rw [List.cons_append, List.takeWhile_append_dropWhile]
          have hall : ∀ c ∈ z :: r.takeWhile (isDig 10), isDig 10 c = true := by
            intro c hc
            rcases List.mem_cons.1 hc with rfl | hc
            · exact hd
            · exact all_take _ c hc
          have := num_of _ 10 _ _ _ (by omega) hbase hsplit hall (ends_drop (by omega) _) (by simp)
          rw [this] at h
          have h := Option.some.inj h
          subst h
          have := Begins.dec z (r.takeWhile (isDig 10)) (r.dropWhile (isDig 10)) _ hz
            (val_digits (by omega) _ _ rfl hall) (ends_drop (by omega) _)
          rw [List.takeWhile_append_dropWhile] at this
          exact this
  · intro h
    cases h with
    | hex x ds rest n hx hne hds he =>
      obtain ⟨h1, h2⟩ := digits_val (by omega) hds
      cases ds with
      | nil => exact absurd rfl hne
      | cons d ds =>
        rw [num_of _ 16 _ (d :: ds) rest (by omega) ?_ rfl h1 he hne, h2]
        rw [List.cons_append]
        unfold base
        dsimp only
        rw [if_pos (by simp)]
        rw [if_pos (by rcases hx with h | h <;> simp [h, h1 d (by simp)])]
    | oct ds rest n hds he h0 =>
      obtain ⟨h1, h2⟩ := digits_val (by omega) hds
      have hall : ∀ c ∈ ch '0' :: ds, isDig 8 c = true := by
        intro c hc
        rcases List.mem_cons.1 hc with rfl | hc
        · exact dig_zero.1
        · exact h1 c hc
      rw [num_of _ 8 _ (ch '0' :: ds) rest (by omega) ?_ rfl hall he (by simp)]
      · unfold val at h2 ⊢
        rw [List.foldl_cons, dig_zero.2]
        exact congrArg some h2
      · rw [List.cons_append]
        unfold base
        dsimp only
        rw [if_pos (by simp)]
        split
        · rename_i x d r' heq
          rw [if_neg]
          intro hc
          simp at hc
          obtain ⟨hx, hd⟩ := hc
          cases ds with
          | nil =>
            have := h0 rfl x d r' (by simpa using heq) hx
            rw [digit_none (by omega)] at this
            rw [this] at hd
            exact absurd hd (by simp)
          | cons y ds =>
            have hy : y = x := by simp at heq; exact heq.1
            have := h1 y (by simp)
            rw [hy] at this
            rcases hx with hx | hx <;> subst hx <;> exact absurd this (by decide +kernel)
        · rfl
    | dec c ds rest n hc hds he =>
      obtain ⟨h1, h2⟩ := digits_val (by omega) hds
      rw [num_of _ 10 _ (c :: ds) rest (by omega) ?_ rfl h1 he (by simp), h2]
      unfold base
      dsimp only
      rw [if_neg (by simpa using hc)]
      rfl

/-- A number begins with a digit. -/
theorem begins_first {t : List Byte} {n : Nat} (h : Begins t n) : ∃ c r, t = c :: r ∧ isDig 10 c = true := by
  cases h with
  | hex x ds rest n _ _ _ _ => exact ⟨_, _, rfl, by decide +kernel⟩
  | oct ds rest n _ _ _ => exact ⟨_, _, rfl, by decide +kernel⟩
  | dec c ds rest n _ hds _ => exact ⟨c, _, rfl, (digits_val (by omega) hds).1 c (by simp)⟩

theorem dig_plain (c : Byte) : isDig 10 c = true → isspace c = false ∧ c ≠ ch '-' ∧ c ≠ ch '+' := by
  revert c
  exact forall_byte (by decide +kernel)

theorem drop_blanks (ws t : List Byte) (h : ∀ c ∈ ws, isspace c = true) : (ws ++ t).dropWhile isspace = t.dropWhile isspace := by
  induction ws with
  | nil => rfl
  | cons c ws ih =>
    rw [List.cons_append, List.dropWhile_cons, h c (by simp), if_pos rfl, ih (fun d hd => h d (by simp [hd]))]

theorem take_blanks (s : List Byte) : ∀ c ∈ s.takeWhile isspace, isspace c = true := by
  induction s with
  | nil => intro c hc; simp at hc
  | cons d s ih =>
    intro c hc
    rw [List.takeWhile_cons] at hc
    split at hc
    · rename_i hd
      rcases List.mem_cons.1 hc with rfl | hc
      · exact hd
      · exact ih c hc
    · simp at hc

theorem strtol_iff (s : List Byte) (v : Int) : strtol s = some v ↔ ∃ w, Int_ s w ∧ v = clamp w := by
  constructor
  · intro h
    have hs : s = s.takeWhile isspace ++ s.dropWhile isspace := List.takeWhile_append_dropWhile.symm
    unfold strtol at h
    simp only at h
    cases ht : s.dropWhile isspace with
    | nil => rw [ht] at h; simp at h
    | cons c r =>
      rw [ht] at h hs
      simp only at h
      by_cases hm : c = ch '-'
      · subst hm
        rw [if_pos (by simp)] at h
        cases hn : number r with
        | none => rw [hn] at h; simp at h
        | some n =>
          rw [hn] at h
          refine ⟨-(n : Int), ?_, by simpa using h.symm⟩
          rw [hs]
          exact Int_.minus _ r n (take_blanks s) ((number_iff r n).1 hn)
      · rw [if_neg (by simpa using hm)] at h
        by_cases hp : c = ch '+'
        · subst hp
          rw [if_pos (by simp)] at h
          cases hn : number r with
          | none => rw [hn] at h; simp at h
          | some n =>
            rw [hn] at h
            refine ⟨(n : Int), ?_, by simpa using h.symm⟩
            rw [hs]
            exact Int_.plus _ r n (take_blanks s) ((number_iff r n).1 hn)
        · rw [if_neg (by simpa using hp)] at h
          cases hn : number (c :: r) with
          | none => rw [hn] at h; simp at h
          | some n =>
            rw [hn] at h
            refine ⟨(n : Int), ?_, by simpa using h.symm⟩
            rw [hs]
            exact Int_.plain _ (c :: r) n (take_blanks s) ((number_iff _ n).1 hn)
  · rintro ⟨w, h, rfl⟩
    cases h with
    | plain ws t n hw hb =>
      obtain ⟨c, r, rfl, hc⟩ := begins_first hb
      obtain ⟨c1, c2, c3⟩ := dig_plain c hc
      unfold strtol
      rw [drop_blanks ws _ hw, List.dropWhile_cons, c1]
      simp only [Bool.false_eq_true, if_false]
      rw [if_neg (by simpa using c2), if_neg (by simpa using c3), (number_iff _ n).2 hb]
      rfl
    | plus ws t n hw hb =>
      unfold strtol
      have : isspace (ch '+') = false := by decide +kernel
      rw [drop_blanks ws _ hw, List.dropWhile_cons, this]
      simp only [Bool.false_eq_true, if_false]
      rw [if_neg (by decide +kernel), if_pos (by decide +kernel), (number_iff _ n).2 hb]
      rfl
    | minus ws t n hw hb =>
      unfold strtol
      have : isspace (ch '-') = false := by decide +kernel
      rw [drop_blanks ws _ hw, List.dropWhile_cons, this]
      simp only [Bool.false_eq_true, if_false]
      rw [if_pos (by decide +kernel), (number_iff _ n).2 hb]
      rfl

end Props.IntT
