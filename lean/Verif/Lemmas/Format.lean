import Verif.Model.Format
import Verif.Spec.Format
import Verif.Lemmas.Num
import Verif.Lemmas.Basic
/-
Lemmas about the formatter.
-/
namespace Lemmas.Format
open Wv Wv.Num Wv.Format
open Spec.Format (Field Piece Arg Fill)

/-- A byte that ends a number: not a digit, a sign or white space. -/
def Stop (c : Byte) : Prop := isdigit c = false ∧ isspace c = false ∧ c ≠ ch '-' ∧ c ≠ ch '+'

theorem digit_facts (c : Byte) : isdigit c = true → isspace c = false ∧ (c == ch '-') = false ∧ (c == ch '+') = false ∧
    skip1 c = true ∧ skip2 c = true ∧ skip3 c = true := by
  revert c; exact forall_byte (by decide +kernel)

theorem digits_stop (n : Nat) (c : Byte) (r : List Byte) (h : isdigit c = false) : digits n (c :: r) = n := by
  rw [digits, if_neg (by simp [h])]

theorem range (n : Nat) (h : n < 2 ^ 31) : inRange 32 (n : Int) ∧ inRange 32 (-(n : Int)) := by
  unfold inRange; omega

theorem num_stop (c : Byte) (r : List Byte) (h : Stop c) : num (c :: r) = some 0 := by
  obtain ⟨h1, h2, h3, h4⟩ := h
  unfold num
  rw [List.dropWhile_cons, h2]
  simp only [Bool.false_eq_true, if_false, beq_eq_false_iff_ne.mpr h3, beq_eq_false_iff_ne.mpr h4,
    digits_stop 0 c r h1]
  decide

theorem num_dec (n : Nat) (c : Byte) (r : List Byte) (hc : isdigit c = false) (h : n < 2 ^ 31) :
    num (dec n ++ c :: r) = some (n : Int) := by
  have hd := digits_dec n (c :: r)
  rw [digits_stop n c r hc] at hd
  have hg := dec_isdigit n
  cases hl : dec n with
  | nil => exact absurd hl (dec_ne_nil n)
  | cons d ds =>
    rw [hl] at hd
    obtain ⟨f1, f2, f3, -⟩ := digit_facts d (hg d (by rw [hl]; simp)).1
    unfold num
    rw [List.cons_append] at hd
    rw [List.cons_append, List.dropWhile_cons, f1]
    simp only [Bool.false_eq_true, if_false, f2, f3, hd, (range n h).1, if_true]

theorem num_neg (s : List Byte) : num (ch '-' :: s) = if inRange 32 (-(digits 0 s : Int)) then
    some (-(digits 0 s : Int)) else none := by
  unfold num
  rw [List.dropWhile_cons, show isspace (ch '-') = false from by decide]
  simp

theorem num_zero (s : List Byte) : num (ch '0' :: s) = if inRange 32 (digits 0 s : Int) then
    some (digits 0 s : Int) else none := by
  have : digits 0 (ch '0' :: s) = digits 0 s := by
    rw [digits, if_pos (by decide)]; rfl
  unfold num
  rw [List.dropWhile_cons, show isspace (ch '0') = false from by decide]
  simp only [Bool.false_eq_true, if_false, show (ch '0' == ch '-') = false from by decide,
    show (ch '0' == ch '+') = false from by decide, this]

/-- The digits of a width, if there is one, then a byte that is not a digit. -/
theorem digits_opt (w : Nat) (c : Byte) (r : List Byte) (hc : isdigit c = false) :
    digits 0 (Spec.Format.optional [] w ++ c :: r) = w := by
  unfold Spec.Format.optional
  by_cases h : w = 0
  · rw [if_pos h, List.nil_append, digits_stop 0 c r hc, h]
  · rw [if_neg h, List.nil_append]
    have := digits_dec w (c :: r)
    rw [digits_stop w c r hc] at this
    exact this

/-- The mark of the fill. -/
def mark : Fill → List Byte
  | .right => []
  | .zeros => [ch '0']
  | .left => [ch '-']

/-- The width as the formatter reads it. -/
def justify (f : Field) : Int := if f.fill = .left then -(f.width : Int) else f.width

theorem num_width (f : Field) (c : Byte) (r : List Byte) (hc : Stop c) (h : f.width < 2 ^ 31) :
    num (mark f.fill ++ (Spec.Format.optional [] f.width ++ c :: r)) = some (justify f) := by
  have hd := digits_opt f.width c r hc.1
  have hr := range f.width h
  unfold justify
  cases hf : f.fill with
  | right =>
    rw [if_neg (by simp), mark, List.nil_append]
    unfold Spec.Format.optional
    by_cases h0 : f.width = 0
    · rw [if_pos h0, List.nil_append, num_stop c r hc, h0]; rfl
    · rw [if_neg h0, List.nil_append]
      exact num_dec f.width c r hc.1 h
  | zeros =>
    rw [if_neg (by simp), mark, List.singleton_append, num_zero, hd, if_pos hr.1]
  | left =>
    rw [if_pos rfl, mark, List.singleton_append, num_neg, hd, if_pos hr.2]

theorem skip_opt (p : Byte → Bool) (hp : ∀ c, isdigit c = true → p c = true) (w : Nat) (r : List Byte) :
    (Spec.Format.optional [] w ++ r).dropWhile p = r.dropWhile p := by
  unfold Spec.Format.optional
  split
  · rfl
  · rw [List.nil_append, List.dropWhile_append_of_pos]
    intro c hc
    exact hp c (dec_isdigit w c hc).1

theorem skip_dec (p : Byte → Bool) (hp : ∀ c, isdigit c = true → p c = true) (w : Nat) (r : List Byte) :
    (Spec.Format.digits w ++ r).dropWhile p = r.dropWhile p := by
  rw [List.dropWhile_append_of_pos]
  intro c hc
  exact hp c (dec_isdigit w c hc).1

/-- What the formatter reads from a field. -/
def conv (f : Field) : Conv := ⟨f.fill == .zeros, justify f, f.prec, f.num⟩

/-- The number and the final letter. -/
theorem tail_num (n : Nat) (hn : n < 2 ^ 31) (d : Byte) (hd : d = ch 's' ∨ d = ch 'c') (r : List Byte) :
    after (ch '$') (Spec.Format.optional [ch '$'] n ++ d :: r) = some (n : Int) ∧
    (Spec.Format.optional [ch '$'] n ++ d :: r).dropWhile skip2 = Spec.Format.optional [ch '$'] n ++ d :: r ∧
    (Spec.Format.optional [ch '$'] n ++ d :: r).dropWhile skip1 = Spec.Format.optional [ch '$'] n ++ d :: r ∧
    after (ch '.') (Spec.Format.optional [ch '$'] n ++ d :: r) = some 0 ∧
    (Spec.Format.optional [ch '$'] n ++ d :: r).dropWhile skip3 = d :: r := by
  have hs : isdigit d = false ∧ (d == ch '$') = false ∧ (d == ch '.') = false ∧ skip1 d = false ∧ skip2 d = false ∧
      skip3 d = false := by
    rcases hd with rfl | rfl <;> decide
  unfold Spec.Format.optional
  by_cases h0 : n = 0
  · simp [h0, after, hs.2.1, hs.2.2.1, List.dropWhile_cons, hs.2.2.2.1, hs.2.2.2.2.1, hs.2.2.2.2.2]
  · have e : [ch '$'] ++ Spec.Format.digits n ++ d :: r = ch '$' :: (dec n ++ d :: r) := by
      simp [Spec.Format.digits]
    rw [if_neg h0, e]
    refine ⟨?_, ?_, ?_, ?_, ?_⟩
    · rw [after, if_pos (by simp)]; exact num_dec n d r hs.1 hn
    · rw [List.dropWhile_cons, if_neg (by decide)]
    · rw [List.dropWhile_cons, if_neg (by decide)]
    · rw [after, if_neg (by decide)]
    · rw [List.dropWhile_cons, if_pos (by decide)]
      have := skip_dec skip3 (fun c h => (digit_facts c h).2.2.2.2.2) n (d :: r)
      rw [Spec.Format.digits] at this
      rw [this, List.dropWhile_cons, hs.2.2.2.2.2]
      simp

theorem stop_s : Stop (ch 's') ∧ Stop (ch 'c') ∧ Stop (ch '$') ∧ Stop (ch '.') := by
  unfold Stop; decide

/-- The first byte of a number and its letter. -/
theorem head_num (n : Nat) (d : Byte) (hd : d = ch 's' ∨ d = ch 'c') (r : List Byte) :
    ∃ c t, Spec.Format.optional [ch '$'] n ++ d :: r = c :: t ∧ Stop c ∧ c ≠ ch '0' := by
  unfold Spec.Format.optional
  by_cases h0 : n = 0
  · refine ⟨d, r, by simp [h0], ?_, ?_⟩
    · rcases hd with rfl | rfl
      · exact stop_s.1
      · exact stop_s.2.1
    · rcases hd with rfl | rfl <;> decide
  · exact ⟨ch '$', Spec.Format.digits n ++ d :: r, by simp [h0], stop_s.2.2.1, by decide⟩

theorem pparse_field (f : Field) (hw : f.width < 2 ^ 31) (hp : f.prec < 2 ^ 31) (hn : f.num < 2 ^ 31) (r : List Byte) :
    pparse (mark f.fill ++ (Spec.Format.optional [] f.width ++ (Spec.Format.optional [ch '.'] f.prec ++
      (Spec.Format.optional [ch '$'] f.num ++ ch 's' :: r)))) = some (conv f, ch 's' :: r) := by
  obtain ⟨t1, t2, t3, t4, t5⟩ := tail_num f.num hn (ch 's') (Or.inl rfl) r
  obtain ⟨c0, r0, e0, s0, z0⟩ := head_num f.num (ch 's') (Or.inl rfl) r
  -- what follows the width
  have hq : ∃ c t, Spec.Format.optional [ch '.'] f.prec ++ (Spec.Format.optional [ch '$'] f.num ++ ch 's' :: r) = c :: t ∧
      Stop c ∧ c ≠ ch '0' := by
    by_cases h0 : f.prec = 0
    · refine ⟨c0, r0, ?_, s0, z0⟩
      rw [← e0]; simp [Spec.Format.optional, h0]
    · refine ⟨ch '.', Spec.Format.digits f.prec ++ (Spec.Format.optional [ch '$'] f.num ++ ch 's' :: r), ?_,
        stop_s.2.2.2, by decide⟩
      simp [Spec.Format.optional, h0]
  have hq1 : (Spec.Format.optional [ch '.'] f.prec ++ (Spec.Format.optional [ch '$'] f.num ++ ch 's' :: r)).dropWhile skip1 =
      Spec.Format.optional [ch '.'] f.prec ++ (Spec.Format.optional [ch '$'] f.num ++ ch 's' :: r) := by
    by_cases h0 : f.prec = 0
    · simp only [Spec.Format.optional, h0, if_true, List.nil_append] at t3 ⊢
      exact t3
    · simp only [Spec.Format.optional, h0, if_false]
      rw [List.append_assoc, List.singleton_append, List.dropWhile_cons, if_neg (by decide)]
  have hq2 : after (ch '.') (Spec.Format.optional [ch '.'] f.prec ++ (Spec.Format.optional [ch '$'] f.num ++ ch 's' :: r)) =
      some (f.prec : Int) := by
    by_cases h0 : f.prec = 0
    · simp only [Spec.Format.optional, h0, if_true, List.nil_append] at t4 ⊢
      exact t4
    · have : Spec.Format.optional [ch '.'] f.prec = ch '.' :: dec f.prec := by
        simp [Spec.Format.optional, h0, Spec.Format.digits]
      rw [this, List.cons_append, after, if_pos (by simp), e0]
      exact num_dec _ _ _ s0.1 hp
  have hq3 : (Spec.Format.optional [ch '.'] f.prec ++ (Spec.Format.optional [ch '$'] f.num ++ ch 's' :: r)).dropWhile skip2 =
      Spec.Format.optional [ch '$'] f.num ++ ch 's' :: r := by
    by_cases h0 : f.prec = 0
    · rw [show Spec.Format.optional [ch '.'] f.prec = [] by simp [Spec.Format.optional, h0], List.nil_append, t2]
    · rw [show Spec.Format.optional [ch '.'] f.prec = ch '.' :: Spec.Format.digits f.prec by
        simp [Spec.Format.optional, h0], List.cons_append, List.dropWhile_cons, if_pos (by decide),
        skip_dec skip2 (fun c h => (digit_facts c h).2.2.2.2.1), t2]
  obtain ⟨c1, r1, e1, s1, z1⟩ := hq
  have hm : (mark f.fill ++ (Spec.Format.optional [] f.width ++ c1 :: r1)).dropWhile skip1 = (c1 :: r1).dropWhile skip1 := by
    rw [List.dropWhile_append_of_pos, skip_opt skip1 (fun c h => (digit_facts c h).2.2.2.1)]
    intro c hc
    cases hf : f.fill <;> rw [hf] at hc <;> simp [mark] at hc <;> subst hc <;> decide
  have hz : ((mark f.fill ++ (Spec.Format.optional [] f.width ++ c1 :: r1)).head? == some (ch '0')) = (f.fill == .zeros) := by
    cases hf : f.fill with
    | zeros => simp [mark]
    | left => simp only [mark, List.singleton_append, List.head?_cons]; decide
    | right =>
      rw [mark, List.nil_append]
      unfold Spec.Format.optional
      by_cases h0 : f.width = 0
      · simp only [h0, if_true, List.nil_append, List.head?_cons]
        rw [show (Fill.right == Fill.zeros) = false from rfl]
        simp [z1]
      · rw [if_neg h0, List.nil_append]
        have hne := dec_first f.width (by omega)
        cases hd : dec f.width with
        | nil => exact absurd hd (dec_ne_nil _)
        | cons d ds =>
          rw [hd] at hne
          rw [show Spec.Format.digits f.width = d :: ds from hd, List.cons_append, List.head?_cons]
          simp only [List.head?_cons, ne_eq, Option.some.injEq] at hne
          rw [show (Fill.right == Fill.zeros) = false from rfl]
          simp [hne]
  rw [e1] at hq1 hq2 hq3
  unfold pparse
  rw [e1, num_width f c1 r1 s1 hw]
  simp only [Option.bind_some, hm, hz, hq1, hq2, hq3, t1, t5]
  rfl
where
  dec_first (n : Nat) (h : 0 < n) : (dec n).head? ≠ some (ch '0') := by
    induction n using Nat.strongRecOn with
    | ind n ih =>
      by_cases h10 : 10 ≤ n
      · rw [dec_step n h10, List.head?_append]
        have := ih (n / 10) (by omega) (by omega)
        cases hd : dec (n / 10) with
        | nil => exact absurd hd (dec_ne_nil _)
        | cons d ds =>
          rw [hd] at this
          simpa using this
      · have : ∀ n < 10, 0 < n → (dec n).head? ≠ some (ch '0') := by decide +kernel
        exact this n (by omega) h

theorem pparse_char (n : Nat) (hn : n < 2 ^ 31) (r : List Byte) :
    pparse (Spec.Format.optional [ch '$'] n ++ ch 'c' :: r) = some (⟨false, 0, 0, n⟩, ch 'c' :: r) := by
  obtain ⟨t1, t2, t3, t4, t5⟩ := tail_num n hn (ch 'c') (Or.inr rfl) r
  obtain ⟨c0, r0, e0, s0, z0⟩ := head_num n (ch 'c') (Or.inr rfl) r
  have hz : ((c0 :: r0).head? == some (ch '0')) = false := by simp [z0]
  rw [e0] at t1 t2 t3 t4 t5
  unfold pparse
  rw [e0, num_stop c0 r0 s0]
  simp only [Option.bind_some, t1, t2, t3, t4, t5, hz]

theorem pparse_percent (r : List Byte) : pparse (ch '%' :: r) = some (⟨false, 0, 0, 0⟩, ch '%' :: r) := by
  unfold pparse
  rw [num_stop _ _ (by unfold Stop; decide)]
  simp only [Option.bind_some, List.dropWhile_cons, show skip1 (ch '%') = false by decide,
    show skip2 (ch '%') = false by decide, show skip3 (ch '%') = false by decide, Bool.false_eq_true, if_false, after,
    show (ch '%' == ch '.') = false by decide, show (ch '%' == ch '$') = false by decide, List.head?_cons,
    show (some (ch '%') == some (ch '0')) = false by decide]

/-- What the loops read from the pieces. -/
def toItems : List Piece → List Item
  | [] => []
  | .text t :: r => t.map Item.lit ++ toItems r
  | .percent :: r => Item.lit (ch '%') :: toItems r
  | .field f :: r => Item.str (conv f) :: toItems r
  | .char n :: r => Item.chr ⟨false, 0, 0, n⟩ :: toItems r

theorem items_text (t : List Byte) (h : ch '%' ∉ t) (n : Nat) (r : List Byte) :
    items (t.length + n) (t ++ r) = (items n r).map (t.map Item.lit ++ ·) := by
  induction t with
  | nil => simp
  | cons c t ih =>
    have hc : (c != ch '%') = true := by
      simp only [List.mem_cons, not_or] at h
      simp [Ne.symm h.1]
    rw [List.length_cons, Nat.add_right_comm, List.cons_append, items, if_pos hc, ih (fun hm => h (by simp [hm]))]
    cases items n r <;> simp

theorem items_some (s : List Byte) (x : Conv) (d : Byte) (r : List Byte) (n : Nat)
    (h : pparse s = some (x, d :: r)) (hd : d = ch 's') : items (n + 1) (ch '%' :: s) = (items n r).map (Item.str x :: ·) := by
  subst hd
  rw [items, if_neg (by decide), h, Option.bind_some]
  simp only [show (ch 's' == ch '%') = false by decide, Bool.false_eq_true, if_false, beq_self_eq_true, if_true]

theorem items_chr (s : List Byte) (x : Conv) (r : List Byte) (n : Nat)
    (h : pparse s = some (x, ch 'c' :: r)) : items (n + 1) (ch '%' :: s) = (items n r).map (Item.chr x :: ·) := by
  rw [items, if_neg (by decide), h, Option.bind_some]
  simp only [show (ch 'c' == ch '%') = false by decide, show (ch 'c' == ch 's') = false by decide, Bool.false_eq_true,
    if_false, beq_self_eq_true, if_true]

theorem items_percent (s : List Byte) (n : Nat) :
    items (n + 1) (ch '%' :: ch '%' :: s) = (items n s).map (Item.lit (ch '%') :: ·) := by
  rw [items, if_neg (by decide), pparse_percent, Option.bind_some]
  simp only [beq_self_eq_true, if_true]

theorem write_field (f : Field) (r : List Byte) : (Piece.field f).write ++ r = ch '%' :: (mark f.fill ++
    (Spec.Format.optional [] f.width ++ (Spec.Format.optional [ch '.'] f.prec ++
      (Spec.Format.optional [ch '$'] f.num ++ ch 's' :: r)))) := by
  simp only [Piece.write, List.append_assoc, List.singleton_append, List.cons_append, List.nil_append]
  cases f.fill <;> rfl

theorem items_write (args : List Arg) (ps : List Piece) (k n : Nat) (hg : Spec.Format.Good args k ps)
    (hn : (Spec.Format.write ps).length ≤ n) : items n (Spec.Format.write ps) = some (toItems ps) := by
  induction ps generalizing k n with
  | nil => simp [Spec.Format.write, items, toItems]
  | cons p ps ih =>
    have e : Spec.Format.write (p :: ps) = p.write ++ Spec.Format.write ps := by simp [Spec.Format.write]
    rw [e] at hn ⊢
    cases p with
    | text t =>
      rw [Piece.write] at hn ⊢
      rw [List.length_append] at hn
      obtain ⟨m, rfl⟩ : ∃ m, n = t.length + m := ⟨n - t.length, by omega⟩
      rw [items_text t hg.1, ih k m hg.2 (by omega)]; rfl
    | percent =>
      rw [Piece.write] at hn ⊢
      simp only [List.cons_append, List.nil_append, List.length_cons] at hn ⊢
      obtain ⟨m, rfl⟩ : ∃ m, n = m + 1 := ⟨n - 1, by omega⟩
      rw [items_percent, ih k m hg (by omega)]; rfl
    | field f =>
      obtain ⟨h20, hw, hp, hg⟩ := hg
      rw [write_field] at hn ⊢
      obtain ⟨m, rfl⟩ : ∃ m, n = m + 1 := ⟨n - 1, by simp at hn; omega⟩
      have hnum : f.num < 2 ^ 31 := by unfold Spec.Format.which at h20; split at h20 <;> omega
      rw [items_some _ _ _ _ m (pparse_field f hw hp hnum _) rfl, ih _ m hg (by simp at hn; omega)]; rfl
    | char c =>
      obtain ⟨h20, -, hg⟩ := hg
      have e2 : (Piece.char c).write ++ Spec.Format.write ps =
          ch '%' :: (Spec.Format.optional [ch '$'] c ++ ch 'c' :: Spec.Format.write ps) := by simp [Piece.write]
      rw [e2] at hn ⊢
      obtain ⟨m, rfl⟩ : ∃ m, n = m + 1 := ⟨n - 1, by simp at hn; omega⟩
      have hnum : c < 2 ^ 31 := by unfold Spec.Format.which at h20; split at h20 <;> omega
      rw [items_chr _ _ _ m (pparse_char c hnum _), ih _ m hg (by simp at hn; omega)]; rfl

/-- The argument array. -/
def argv (args : List Arg) : List (Option (List Byte)) :=
  args.map Arg.value ++ List.replicate (20 - args.length) none

theorem argv_get (args : List Arg) (i : Nat) (h : i < 20) : ∃ a, (argv args)[i]? = some a ∧
    a.getD blank = Spec.Format.shown args i ∧ ∀ c, args[i]? = some (.code c) → a = some (Spec.Format.digits c.toNat) := by
  unfold argv Spec.Format.shown
  by_cases hi : i < args.length
  · rw [List.getElem?_append_left (by simpa using hi), List.getElem?_map, List.getElem?_eq_getElem hi]
    refine ⟨_, rfl, rfl, ?_⟩
    intro c hc
    simp only [Option.some.injEq] at hc
    rw [hc]; rfl
  · rw [List.getElem?_append_right (by simpa using Nat.le_of_not_lt hi), List.length_map, List.getElem?_replicate,
      if_pos (by omega), List.getElem?_eq_none (by omega)]
    exact ⟨none, rfl, rfl, by simp⟩

theorem argAt_eq (argv : List (Option (List Byte))) (k n : Nat) (v : Conv) (hv : v.argnum = n) :
    argAt argv k v = argv[Spec.Format.which k n]? ∧ next k v = Spec.Format.after k n := by
  unfold argAt next Spec.Format.which Spec.Format.after
  rw [hv]
  by_cases h : n = 0
  · simp [h]
  · have h' : 0 < (n : Int) := by omega
    simp only [h, h', if_true, if_false]
    refine ⟨?_, trivial⟩
    congr 1; omega

theorem justify_abs (f : Field) : (justify f).natAbs = f.width := by unfold justify; split <;> omega

theorem ladd_eq (f : Field) (s : List Byte) : ladd (conv f) s = (f.reserved s : Int) := by
  simp only [ladd, Field.reserved, conv, justify_abs]
  by_cases h : f.prec = 0
  · simp only [h]
    simp; omega
  · rw [if_neg h]
    by_cases h2 : (f.prec : Int) < max (f.width : Int) s.length
    · rw [if_pos ⟨by omega, h2⟩]; omega
    · rw [if_neg (fun hh => h2 hh.2)]; omega

theorem cut_length (p : Nat) (s : List Byte) :
    ((if (p : Int) ≠ 0 ∧ (p : Int) < s.length then (p : Int) else s.length) : Int) = ((Spec.Format.cut p s).length : Int) := by
  unfold Spec.Format.cut
  by_cases h : p = 0
  · simp [h]
  · rw [if_neg h, List.length_take]
    by_cases h2 : p < s.length
    · rw [if_pos (by omega)]; omega
    · rw [if_neg (by omega)]; omega

theorem cut_take (p : Nat) (s : List Byte) : s.take (Spec.Format.cut p s).length = Spec.Format.cut p s := by
  unfold Spec.Format.cut
  by_cases h : p = 0
  · simp [h]
  · rw [if_neg h, List.length_take]
    by_cases h2 : p ≤ s.length
    · rw [Nat.min_eq_left h2]
    · rw [Nat.min_eq_right (by omega), List.take_of_length_le (Nat.le_refl _), List.take_of_length_le (by omega)]

theorem put_eq (f : Field) (s : List Byte) : put (conv f) s = some (f.show s) := by
  have hc : (if (conv f).maxlen ≠ 0 ∧ (conv f).maxlen < s.length then (conv f).maxlen else s.length : Int) =
      ((Spec.Format.cut f.prec s).length : Int) := cut_length f.prec s
  have hz : (conv f).zeropad = (f.fill == .zeros) := rfl
  have hj : (conv f).justify = justify f := rfl
  unfold put
  simp only [hc, hz, hj]
  rw [if_neg (by omega), Int.toNat_natCast, cut_take]
  unfold Field.show justify
  dsimp only
  generalize Spec.Format.cut f.prec s = a
  cases hf : f.fill with
  | right =>
    simp only [reduceCtorEq, if_false, show ((Fill.right == Fill.zeros) = false) from rfl, Bool.false_eq_true]
    rw [if_neg (show ¬ (((f.width : Int) < 0) ∧ _) by omega), List.append_nil]
    by_cases h : (a.length : Int) < f.width
    · rw [if_pos h]; congr 3; omega
    · rw [if_neg h, show f.width - a.length = 0 by omega]; rfl
  | zeros =>
    simp only [reduceCtorEq, if_false, show ((Fill.zeros == Fill.zeros) = true) from rfl, if_true]
    rw [if_neg (show ¬ (((f.width : Int) < 0) ∧ _) by omega), List.append_nil]
    by_cases h : (a.length : Int) < f.width
    · rw [if_pos h]; congr 3; omega
    · rw [if_neg h, show f.width - a.length = 0 by omega]; rfl
  | left =>
    simp only [if_true, show ((Fill.left == Fill.zeros) = false) from rfl, Bool.false_eq_true, if_false]
    rw [if_neg (show ¬ ((a.length : Int) < -(f.width : Int)) by omega), List.nil_append]
    by_cases h : a.length < f.width
    · rw [if_pos (by omega)]; congr 3; omega
    · rw [if_neg (by omega), show f.width - a.length = 0 by omega]; rfl

theorem size_lits (av : List (Option (List Byte))) (t : List Byte) (k : Nat) (total : Int) (is : List Item)
    (h0 : 0 ≤ total) (h : total + t.length < 2 ^ 31) :
    size av k total (t.map Item.lit ++ is) = size av k (total + t.length) is := by
  induction t generalizing total with
  | nil => simp
  | cons c t ih =>
    rw [List.length_cons] at h
    rw [List.map_cons, List.cons_append, size, store, if_pos (by unfold inRange; omega), Option.bind_some,
      ih (total + 1) (by omega) (by omega), List.length_cons]
    congr 1; omega

theorem size_eq (args : List Arg) (ps : List Piece) (k : Nat) (total : Int) (hg : Spec.Format.Good args k ps)
    (hl : ∀ i, (Spec.Format.shown args i).length < 2 ^ 31) (h0 : 0 ≤ total)
    (h : total + Spec.Format.reserved args k ps < 2 ^ 31) :
    size (argv args) k total (toItems ps) = some (total + Spec.Format.reserved args k ps) := by
  induction ps generalizing k total with
  | nil => simp [toItems, size, Spec.Format.reserved]
  | cons p ps ih =>
    cases p with
    | text t =>
      simp only [Spec.Format.reserved] at h ⊢
      rw [toItems, size_lits _ _ _ _ _ h0 (by omega), ih k _ hg.2 (by omega) (by omega)]
      congr 1; omega
    | percent =>
      simp only [Spec.Format.reserved] at h ⊢
      rw [toItems, size, store, if_pos (by unfold inRange; omega), Option.bind_some, ih k _ hg (by omega) (by omega)]
      congr 1; omega
    | field f =>
      obtain ⟨h20, hw, hp, hg⟩ := hg
      simp only [Spec.Format.reserved] at h ⊢
      obtain ⟨e1, e2⟩ := argAt_eq (argv args) k f.num (conv f) rfl
      obtain ⟨a, ha, hs, -⟩ := argv_get args _ h20
      have hj : ((conv f).justify.natAbs : Int) = f.width := by
        dsimp only [conv]; rw [justify_abs]
      have hll := hl (Spec.Format.which k f.num)
      rw [toItems, size, e1, ha, Option.bind_some, hs, hj, store, if_pos (range _ hw).1, Option.bind_some, store,
        if_pos (range _ hll).1, Option.bind_some, ladd_eq, store, if_pos (by unfold inRange; omega), Option.bind_some, e2,
        ih _ _ hg (by omega) (by omega)]
      congr 1; omega
    | char n =>
      obtain ⟨h20, -, hg⟩ := hg
      simp only [Spec.Format.reserved] at h ⊢
      obtain ⟨-, e2⟩ := argAt_eq (argv args) k n ⟨false, 0, 0, n⟩ rfl
      rw [toItems, size, store, if_pos (by unfold inRange; omega), Option.bind_some, e2, ih _ _ hg (by omega) (by omega)]
      congr 1; omega

theorem render_lits (av : List (Option (List Byte))) (t : List Byte) (k : Nat) (is : List Item) :
    render av k (t.map Item.lit ++ is) = (render av k is).map (t ++ ·) := by
  induction t with
  | nil => simp
  | cons c t ih =>
    rw [List.map_cons, List.cons_append, render, ih]
    cases render av k is <;> simp

theorem num_code (c : Byte) : ∃ d r, Spec.Format.digits c.toNat = d :: r ∧
    (num (d :: r)).map charOf = some c := by
  have : ∀ c : Byte, Spec.Format.digits c.toNat ≠ [] ∧ (num (Spec.Format.digits c.toNat)).map charOf = some c := by
    intro c; revert c; exact forall_byte (by decide +kernel)
  obtain ⟨h1, h2⟩ := this c
  cases hd : Spec.Format.digits c.toNat with
  | nil => exact absurd hd h1
  | cons d r => exact ⟨d, r, rfl, by rw [hd] at h2; exact h2⟩

theorem render_eq (args : List Arg) (ps : List Piece) (k : Nat) (hg : Spec.Format.Good args k ps) :
    render (argv args) k (toItems ps) = some (Spec.Format.out args k ps) := by
  induction ps generalizing k with
  | nil => simp [toItems, render, Spec.Format.out]
  | cons p ps ih =>
    cases p with
    | text t => rw [toItems, render_lits, ih k hg.2]; rfl
    | percent => rw [toItems, render, ih k hg]; rfl
    | field f =>
      obtain ⟨h20, hw, hp, hg⟩ := hg
      obtain ⟨e1, e2⟩ := argAt_eq (argv args) k f.num (conv f) rfl
      obtain ⟨a, ha, hs, -⟩ := argv_get args _ h20
      rw [toItems, render, e1, ha, Option.bind_some, hs, put_eq, Option.bind_some, e2, ih _ hg]; rfl
    | char n =>
      obtain ⟨h20, ⟨c, hc⟩, hg⟩ := hg
      obtain ⟨e1, e2⟩ := argAt_eq (argv args) k n ⟨false, 0, 0, n⟩ rfl
      obtain ⟨a, ha, -, hs⟩ := argv_get args _ h20
      obtain ⟨d, r, hd, hn⟩ := num_code c
      rw [toItems, render, e1, ha, Option.bind_some, hs c hc, hd, charArg]
      cases hnum : num (d :: r) with
      | none => rw [hnum] at hn; simp at hn
      | some i =>
        rw [hnum] at hn
        simp only [Option.map_some, Option.some.injEq] at hn
        rw [Option.bind_some, e2, ih _ hg, Option.map_some, hn, Spec.Format.out, hc]; rfl
      · simp

theorem takeWhile_all (l : List Byte) (h : (0 : Byte) ∉ l) : l.takeWhile (· != 0) = l := by
  induction l with
  | nil => rfl
  | cons c l ih =>
    simp only [List.mem_cons, not_or] at h
    rw [List.takeWhile_cons, if_pos (by simpa using Ne.symm h.1), ih h.2]

end Lemmas.Format
