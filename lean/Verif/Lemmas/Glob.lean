import Verif.Lemmas.Basic
import Verif.Model.Glob
import Verif.Spec.Glob
/-
The translation of patterns, and the reading of its result.
-/
namespace Lemmas.Glob
open Wv Wv.Glob Spec.Glob
open Spec.Ere (RE Mat Frame St)

theorem c_bs : ch '\\' = 92 := by decide
theorem c_lb : ch '[' = 91 := by decide
theorem c_rb : ch ']' = 93 := by decide
theorem c_st : ch '*' = 42 := by decide
theorem c_qm : ch '?' = 63 := by decide
theorem c_lc : ch '{' = 123 := by decide
theorem c_rc : ch '}' = 125 := by decide
theorem c_co : ch ',' = 44 := by decide
theorem c_ca : ch '^' = 94 := by decide
theorem c_sl : ch '/' = 47 := by decide
theorem c_lp : ch '(' = 40 := by decide
theorem c_rp : ch ')' = 41 := by decide
theorem c_ba : ch '|' = 124 := by decide
theorem c_ex : ch '!' = 33 := by decide
theorem c_do : ch '$' = 36 := by decide

mutual
/-- What a pattern is translated to. -/
def gout : G → List Byte
  | .done => []
  | .lit c g => (if quoted c then [92, c] else [c]) ++ gout g
  | .esc c g => (if kept c then [92, c] else [c]) ++ gout g
  | .any g => [40, 91, 94, 47, 93, 41] ++ gout g
  | .star g => [40, 91, 94, 47, 93, 42, 41] ++ gout g
  | .set t g => 40 :: 91 :: t ++ [93, 41] ++ gout g
  | .notSet t g => 40 :: 91 :: 94 :: t ++ [93, 41] ++ gout g
  | .caretSet t g => (if t = [] then [92, 94] else 40 :: 92 :: 94 :: 124 :: 91 :: t ++ [93, 41]) ++ gout g
  | .alt a g => 40 :: aout a ++ [41] ++ gout g
def aout : A → List Byte
  | .one g => gout g
  | .more g a => gout g ++ 124 :: aout a
end

theorem put_some (o p q : List Byte) : put o (some (p, q)) = some (o ++ p, q) := rfl

theorem put_put (a b : List Byte) (r : Option (List Byte × List Byte)) : put a (put b r) = put (a ++ b) r := by
  cases r <;> simp [put]

theorem bracket_run (t : List Byte) (h1 : 93 ∉ t) (h2 : 47 ∉ t) (n : Nat) (brace : Bool) (r : List Byte) :
    conv (t.length + (n + 1)) brace .bracket (t ++ 93 :: r) = put (t ++ [93, 41]) (conv n brace .normal r) := by
  induction t with
  | nil =>
    show conv (0 + (n + 1)) brace .bracket (93 :: r) = _
    rw [Nat.zero_add, conv, c_rb, c_rp, if_pos rfl]; rfl
  | cons c t ih =>
    have e : (c :: t).length + (n + 1) = (t.length + (n + 1)) + 1 := by simp; omega
    rw [e, List.cons_append, conv, c_rb, c_sl]
    rw [if_neg (by intro h; subst h; simp at h1), if_neg (by intro h; subst h; simp at h2)]
    rw [ih (by simp_all) (by simp_all), put_put]; rfl

/-- Where the translation of a part stops. -/
def Stop (brace : Bool) (rest : List Byte) : Prop := rest = [] ∨ (brace = true ∧ ∃ r, rest = 44 :: r ∨ rest = 125 :: r)

theorem stop_run (n : Nat) (brace : Bool) (rest : List Byte) (h : Stop brace rest) : conv (n + 1) brace .normal rest = some ([], rest) := by
  rcases h with rfl | ⟨rfl, r, rfl | rfl⟩
  · rfl
  · rw [conv, if_pos (by decide)]
  · rw [conv, if_pos (by decide)]

mutual
theorem conv_ok : ∀ (g : G) (brace : Bool) (rest : List Byte) (n : Nat), g.Ok brace → Stop brace rest → 2 * g.text.length + 1 ≤ n →
    conv n brace .normal (g.text ++ rest) = some (gout g, rest)
  | .done, brace, rest, n, _, hs, hn => by
    obtain ⟨m, rfl⟩ : ∃ m, n = m + 1 := ⟨n - 1, by omega⟩
    exact stop_run m brace rest hs
  | .lit c g, brace, rest, n, hg, hs, hn => by
    simp only [G.Ok] at hg
    obtain ⟨h1, h2, h3, h4, h5, h6, hg⟩ := hg
    simp only [G.text, List.length_cons] at hn
    obtain ⟨m, rfl⟩ : ∃ m, n = m + 1 := ⟨n - 1, by omega⟩
    have hq : quits brace c = false := by
      unfold quits
      cases brace with
      | false => rfl
      | true => rw [c_co, c_rc]; have := h6 rfl; simp [this.1, this.2]
    simp only [G.text, List.cons_append]
    rw [conv, c_bs, c_lb, c_st, c_qm, c_lc, if_neg (by simp [hq]), if_neg h1, if_neg h2, if_neg h3, if_neg h4, if_neg h5,
      conv_ok g brace rest m hg hs (by omega)]
    simp only [gout]
    by_cases hc : quoted c = true
    · simp only [hc, if_true, put_some]
    · simp only [hc, put_some]; rfl
  | .esc c g, brace, rest, n, hg, hs, hn => by
    simp only [G.Ok] at hg
    simp only [G.text, List.length_cons] at hn
    obtain ⟨m, rfl⟩ : ∃ m, n = m + 2 := ⟨n - 2, by omega⟩
    simp only [G.text, List.cons_append]
    rw [conv, c_bs, if_neg (by cases brace <;> decide), if_pos rfl, conv, conv_ok g brace rest m hg hs (by omega)]
    simp only [gout]
    by_cases hc : kept c = true
    · simp only [hc, if_true, put_some, c_bs]
    · simp only [hc, put_some]; rfl
  | .any g, brace, rest, n, hg, hs, hn => by
    simp only [G.Ok] at hg
    simp only [G.text, List.length_cons] at hn
    obtain ⟨m, rfl⟩ : ∃ m, n = m + 1 := ⟨n - 1, by omega⟩
    simp only [G.text, List.cons_append]
    rw [conv, if_neg (by cases brace <;> decide), if_neg (by decide), if_neg (by decide), if_neg (by decide), if_pos (by decide),
      conv_ok g brace rest m hg hs (by omega)]
    rfl
  | .star g, brace, rest, n, hg, hs, hn => by
    simp only [G.Ok] at hg
    simp only [G.text, List.length_cons] at hn
    obtain ⟨m, rfl⟩ : ∃ m, n = m + 1 := ⟨n - 1, by omega⟩
    simp only [G.text, List.cons_append]
    rw [conv, if_neg (by cases brace <;> decide), if_neg (by decide), if_neg (by decide), if_pos (by decide),
      conv_ok g brace rest m hg hs (by omega)]
    rfl
  | .set t g, brace, rest, n, hg, hs, hn => by
    simp only [G.Ok] at hg
    obtain ⟨⟨c, r, rfl, hc1, hc2, hr⟩, hsl, hg⟩ := hg
    simp only [G.text, List.length_cons, List.length_append, List.cons_append] at hn
    obtain ⟨m, rfl⟩ : ∃ m, n = r.length + (m + 1) + 1 + 1 := ⟨n - r.length - 3, by omega⟩
    simp only [G.text, List.cons_append, List.append_assoc]
    rw [conv, if_neg (by cases brace <;> decide), if_neg (by decide), if_pos (by decide)]
    rw [if_neg (by rw [c_ca]; simp [hc2])]
    rw [conv, c_ex, c_ca, c_sl, if_neg hc1, if_neg hc2, if_neg (by intro h; subst h; simp at hsl),
      bracket_run r hr (by simp_all), conv_ok g brace rest m hg hs (by omega)]
    simp only [put_some, gout, c_lp, c_lb]
    simp
  | .notSet t g, brace, rest, n, hg, hs, hn => by
    simp only [G.Ok] at hg
    obtain ⟨hr, hsl, hg⟩ := hg
    simp only [G.text, List.length_cons, List.length_append, List.cons_append] at hn
    obtain ⟨m, rfl⟩ : ∃ m, n = t.length + (m + 1) + 1 + 1 := ⟨n - t.length - 3, by omega⟩
    simp only [G.text, List.cons_append, List.append_assoc]
    rw [conv, if_neg (by cases brace <;> decide), if_neg (by decide), if_pos (by decide)]
    rw [if_neg (by rw [c_ca]; simp)]
    rw [conv, c_ex, if_pos rfl, bracket_run t hr hsl, conv_ok g brace rest m hg hs (by omega)]
    simp only [put_some, gout, c_lp, c_lb, c_ca]
    simp
  | .caretSet t g, brace, rest, n, hg, hs, hn => by
    simp only [G.Ok] at hg
    obtain ⟨hr, hsl, hg⟩ := hg
    simp only [G.text, List.length_cons, List.length_append, List.cons_append] at hn
    simp only [G.text, List.cons_append, List.append_assoc]
    by_cases ht : t = []
    · subst ht
      obtain ⟨m, rfl⟩ : ∃ m, n = m + 1 := ⟨n - 1, by omega⟩
      simp only [List.nil_append]
      rw [conv, if_neg (by cases brace <;> decide), if_neg (by decide), if_pos (by decide)]
      rw [if_pos (by rw [c_ca, c_rb]; simp)]
      simp only [List.tail_cons]
      rw [conv_ok g brace rest m hg hs (by simp only [List.length_nil] at hn; omega)]
      simp only [gout, if_true, put_some, c_bs, c_ca]
    · obtain ⟨m, rfl⟩ : ∃ m, n = t.length + (m + 1) + 1 + 1 := ⟨n - t.length - 3, by omega⟩
      rw [conv, if_neg (by cases brace <;> decide), if_neg (by decide), if_pos (by decide)]
      rw [if_neg (by
        rw [c_rb]
        rintro ⟨-, h⟩
        cases t with
        | nil => exact ht rfl
        | cons d t =>
          simp only [List.tail_cons, List.cons_append, List.head?_cons, Option.some.injEq] at h
          subst h; simp at hr)]
      rw [conv, c_ex, c_ca, if_neg (by decide), if_pos rfl, bracket_run t hr hsl, conv_ok g brace rest m hg hs (by omega)]
      simp only [put_some, gout, c_lp, c_lb, c_bs, c_ba, if_neg ht]
      simp
  | .alt a g, brace, rest, n, hg, hs, hn => by
    simp only [G.Ok] at hg
    simp only [G.text, List.length_cons, List.length_append, List.cons_append] at hn
    obtain ⟨m, rfl⟩ : ∃ m, n = m + 1 := ⟨n - 1, by omega⟩
    simp only [G.text, List.cons_append, List.append_assoc]
    rw [conv, if_neg (by cases brace <;> decide), if_neg (by decide), if_neg (by decide), if_neg (by decide), if_neg (by decide),
      if_pos (by decide), alts_ok a brace (g.text ++ rest) m hg.1 (by omega), Option.bind_some]
    dsimp only
    rw [conv_ok g brace rest m hg.2 hs (by omega)]
    simp only [put_some, gout, c_lp, c_rp]
theorem alts_ok : ∀ (a : A) (brace : Bool) (rest : List Byte) (n : Nat), a.Ok → 2 * a.text.length + 2 ≤ n →
    conv n brace .alts (a.text ++ 125 :: rest) = some (aout a, rest)
  | .one g, brace, rest, n, ha, hn => by
    simp only [A.Ok] at ha
    simp only [A.text] at hn
    obtain ⟨m, rfl⟩ : ∃ m, n = m + 1 := ⟨n - 1, by omega⟩
    have h := conv_ok g true (125 :: rest) m ha (Or.inr ⟨rfl, rest, Or.inr rfl⟩) (by omega)
    simp only [A.text]
    cases hc : g.text ++ 125 :: rest with
    | nil => simp at hc
    | cons c r =>
      rw [hc] at h
      rw [conv, h, Option.bind_some]
      simp only [c_rc, if_true, aout]
  | .more g a, brace, rest, n, ha, hn => by
    simp only [A.Ok] at ha
    simp only [A.text, List.length_append, List.length_cons] at hn
    obtain ⟨m, rfl⟩ : ∃ m, n = m + 1 := ⟨n - 1, by omega⟩
    have h := conv_ok g true (44 :: (a.text ++ 125 :: rest)) m ha.1 (Or.inr ⟨rfl, _, Or.inl rfl⟩) (by omega)
    simp only [A.text, List.append_assoc, List.cons_append]
    cases hc : g.text ++ 44 :: (a.text ++ 125 :: rest) with
    | nil => simp at hc
    | cons c r =>
      rw [hc] at h
      rw [conv, h, Option.bind_some]
      dsimp only
      rw [c_rc, c_co, if_neg (by decide), if_pos rfl, alts_ok a brace rest m ha.2 (by omega)]
      simp only [put_some, aout, c_ba]
      simp
end

/-- What a successful translation has read, from each state. -/
def Read (brace : Bool) : Wv.Glob.St → List Byte → List Byte → Prop
  | .normal, s, rest => ∃ g : G, g.Ok brace ∧ s = g.text ++ rest ∧ Stop brace rest
  | .backslash, s, rest => ∃ c, ∃ g : G, g.Ok brace ∧ s = c :: (g.text ++ rest) ∧ Stop brace rest
  | .bracketFirst, s, rest => (¬ ∃ r, s = 94 :: 93 :: r) → ∃ g : G, g.Ok brace ∧ 91 :: s = g.text ++ rest ∧ Stop brace rest
  | .bracket, s, rest => ∃ t, ∃ g : G, 93 ∉ t ∧ 47 ∉ t ∧ g.Ok brace ∧ s = t ++ 93 :: (g.text ++ rest) ∧ Stop brace rest
  | .alts, s, rest => ∃ a : A, a.Ok ∧ s = a.text ++ 125 :: rest

theorem put_eq_some {o : List Byte} {r : Option (List Byte × List Byte)} {p q : List Byte} (h : put o r = some (p, q)) :
    ∃ p', r = some (p', q) := by
  obtain ⟨x, hx, e⟩ := Option.map_eq_some_iff.mp h
  cases e
  exact ⟨x.1, hx⟩

theorem conv_reads (n : Nat) : ∀ (brace : Bool) (st : Wv.Glob.St) (s o rest : List Byte), conv n brace st s = some (o, rest) →
    Read brace st s rest := by
  induction n with
  | zero => intro brace st s o rest h; simp [conv] at h
  | succ n ih =>
    intro brace st s o rest h
    cases s with
    | nil =>
      cases st with
      | normal =>
        simp only [conv, Option.some.injEq, Prod.mk.injEq] at h
        obtain ⟨-, rfl⟩ := h
        exact ⟨.done, by simp [G.Ok], by simp [G.text], Or.inl rfl⟩
      | _ => simp [conv] at h
    | cons c r =>
      cases st with
      | normal =>
        rw [conv, c_bs, c_lb, c_st, c_qm, c_lc] at h
        by_cases hq : quits brace c = true
        · rw [if_pos hq] at h
          simp only [Option.some.injEq, Prod.mk.injEq] at h
          obtain ⟨-, rfl⟩ := h
          refine ⟨.done, by simp [G.Ok], by simp [G.text], Or.inr ?_⟩
          unfold quits at hq
          rw [c_co, c_rc] at hq
          simp only [Bool.and_eq_true, Bool.or_eq_true, beq_iff_eq] at hq
          refine ⟨hq.1, r, ?_⟩
          rcases hq.2 with e | e
          · exact Or.inl (by rw [e])
          · exact Or.inr (by rw [e])
        · rw [if_neg hq] at h
          by_cases h1 : c = 92
          · rw [if_pos h1] at h
            obtain ⟨d, g, hg, e, hs⟩ := ih _ _ _ _ _ h
            exact ⟨.esc d g, by simpa [G.Ok] using hg, by simp [G.text, h1, e], hs⟩
          rw [if_neg h1] at h
          by_cases h2 : c = 91
          · rw [if_pos h2] at h
            rw [c_ca, c_rb] at h
            by_cases hd : r.head? = some 94 ∧ r.tail.head? = some 93
            · rw [if_pos hd] at h
              obtain ⟨p, hp⟩ := put_eq_some h
              obtain ⟨g, hg, e, hs⟩ := ih _ _ _ _ _ hp
              refine ⟨.caretSet [] g, by simpa [G.Ok] using hg, ?_, hs⟩
              simp only [G.text, List.append_nil, List.cons_append, List.nil_append]
              rw [h2]
              obtain ⟨ha, hb⟩ := hd
              cases r with
              | nil => simp at ha
              | cons a r =>
                cases r with
                | nil => simp at hb
                | cons b r =>
                  simp only [List.head?_cons, Option.some.injEq, List.tail_cons] at ha hb e
                  rw [ha, hb, e]
            · rw [if_neg hd] at h
              obtain ⟨p, hp⟩ := put_eq_some h
              obtain ⟨g, hg, e, hs⟩ := ih _ _ _ _ _ hp (by
                rintro ⟨r', rfl⟩
                exact hd ⟨rfl, rfl⟩)
              exact ⟨g, hg, by rw [h2, e], hs⟩
          rw [if_neg h2] at h
          by_cases h3 : c = 42
          · rw [if_pos h3] at h
            obtain ⟨p, hp⟩ := put_eq_some h
            obtain ⟨g, hg, e, hs⟩ := ih _ _ _ _ _ hp
            exact ⟨.star g, by simpa [G.Ok] using hg, by simp [G.text, h3, e], hs⟩
          rw [if_neg h3] at h
          by_cases h4 : c = 63
          · rw [if_pos h4] at h
            obtain ⟨p, hp⟩ := put_eq_some h
            obtain ⟨g, hg, e, hs⟩ := ih _ _ _ _ _ hp
            exact ⟨.any g, by simpa [G.Ok] using hg, by simp [G.text, h4, e], hs⟩
          rw [if_neg h4] at h
          by_cases h5 : c = 123
          · rw [if_pos h5] at h
            obtain ⟨q, hq1, hq2⟩ := Option.bind_eq_some_iff.mp h
            obtain ⟨p, hp⟩ := put_eq_some hq2
            obtain ⟨a, ha, e1⟩ := ih _ _ _ q.1 q.2 hq1
            obtain ⟨g, hg, e, hs⟩ := ih _ _ _ _ _ hp
            exact ⟨.alt a g, by simp only [G.Ok]; exact ⟨ha, hg⟩, by simp [G.text, h5, e1, e], hs⟩
          rw [if_neg h5] at h
          have hp : ∃ p, conv n brace .normal r = some (p, rest) := by
            by_cases hc : quoted c = true
            · rw [if_pos hc] at h; exact put_eq_some h
            · rw [if_neg hc] at h; exact put_eq_some h
          obtain ⟨p, hp⟩ := hp
          obtain ⟨g, hg, e, hs⟩ := ih _ _ _ _ _ hp
          refine ⟨.lit c g, ?_, by simp [G.text, e], hs⟩
          simp only [G.Ok]
          refine ⟨h1, h2, h3, h4, h5, ?_, hg⟩
          rintro rfl
          unfold quits at hq
          rw [c_co, c_rc] at hq
          simp only [Bool.true_and, Bool.or_eq_true, beq_iff_eq, not_or] at hq
          exact hq
      | backslash =>
        rw [conv] at h
        have hp : ∃ p, conv n brace .normal r = some (p, rest) := by
          by_cases hc : kept c = true
          · rw [if_pos hc] at h; exact put_eq_some h
          · rw [if_neg hc] at h; exact put_eq_some h
        obtain ⟨p, hp⟩ := hp
        obtain ⟨g, hg, e, hs⟩ := ih _ _ _ _ _ hp
        exact ⟨c, g, hg, by rw [e], hs⟩
      | bracketFirst =>
        intro hne
        rw [conv, c_ex, c_ca, c_sl] at h
        by_cases h1 : c = 33
        · rw [if_pos h1] at h
          obtain ⟨p, hp⟩ := put_eq_some h
          obtain ⟨t, g, ht1, ht2, hg, e, hs⟩ := ih _ _ _ _ _ hp
          exact ⟨.notSet t g, by simp only [G.Ok]; exact ⟨ht1, ht2, hg⟩, by simp [G.text, h1, e], hs⟩
        rw [if_neg h1] at h
        by_cases h2 : c = 94
        · rw [if_pos h2] at h
          obtain ⟨p, hp⟩ := put_eq_some h
          obtain ⟨t, g, ht1, ht2, hg, e, hs⟩ := ih _ _ _ _ _ hp
          exact ⟨.caretSet t g, by simp only [G.Ok]; exact ⟨ht1, ht2, hg⟩, by simp [G.text, h2, e], hs⟩
        rw [if_neg h2] at h
        by_cases h3 : c = 47
        · rw [if_pos h3] at h; cases h
        rw [if_neg h3] at h
        obtain ⟨p, hp⟩ := put_eq_some h
        obtain ⟨t, g, ht1, ht2, hg, e, hs⟩ := ih _ _ _ _ _ hp
        refine ⟨.set (c :: t) g, ?_, by simp [G.text, e], hs⟩
        simp only [G.Ok]
        exact ⟨⟨c, t, rfl, h1, h2, ht1⟩, by simp [ht2, Ne.symm h3], hg⟩
      | bracket =>
        rw [conv, c_rb, c_sl] at h
        by_cases h1 : c = 93
        · rw [if_pos h1] at h
          obtain ⟨p, hp⟩ := put_eq_some h
          obtain ⟨g, hg, e, hs⟩ := ih _ _ _ _ _ hp
          exact ⟨[], g, by simp, by simp, hg, by simp [h1, e], hs⟩
        rw [if_neg h1] at h
        by_cases h3 : c = 47
        · rw [if_pos h3] at h; cases h
        rw [if_neg h3] at h
        obtain ⟨p, hp⟩ := put_eq_some h
        obtain ⟨t, g, ht1, ht2, hg, e, hs⟩ := ih _ _ _ _ _ hp
        exact ⟨c :: t, g, by simp [ht1, Ne.symm h1], by simp [ht2, Ne.symm h3], hg, by simp [e], hs⟩
      | alts =>
        rw [conv, c_rc, c_co] at h
        obtain ⟨q, hq1, hq2⟩ := Option.bind_eq_some_iff.mp h
        obtain ⟨g, hg, e, hs⟩ := ih _ _ _ q.1 q.2 hq1
        cases hr : q.2 with
        | nil => rw [hr] at hq2; cases hq2
        | cons d r2 =>
          rw [hr] at hq2 e
          dsimp only at hq2
          by_cases h1 : d = 125
          · rw [if_pos h1] at hq2
            simp only [Option.some.injEq, Prod.mk.injEq] at hq2
            obtain ⟨-, rfl⟩ := hq2
            exact ⟨.one g, by simpa [A.Ok] using hg, by simp [A.text, e, h1]⟩
          rw [if_neg h1] at hq2
          by_cases h2 : d = 44
          · rw [if_pos h2] at hq2
            obtain ⟨p, hp⟩ := put_eq_some hq2
            obtain ⟨a, ha, e2⟩ := ih _ _ _ _ _ hp
            exact ⟨.more g a, by simp only [A.Ok]; exact ⟨hg, ha⟩, by simp [A.text, e, h2, e2]⟩
          · rw [if_neg h2] at hq2; cases hq2

end Lemmas.Glob

namespace Lemmas.Glob
open Wv Wv.Glob Spec.Glob
open Spec.Ere (RE Mat Frame)

theorem run_append (s : Spec.Ere.St) (a b : List UInt8) : s.run (a ++ b) = (s.run a).bind fun s => s.run b := by
  induction a generalizing s with
  | nil => rfl
  | cons c a ih =>
    rw [List.cons_append, Spec.Ere.St.run, Spec.Ere.St.run]
    cases s.step c with
    | none => rfl
    | some s' => exact ih s'

theorem run_cons (s : Spec.Ere.St) (c : UInt8) (a : List UInt8) : s.run (c :: a) = (s.step c).bind fun s => s.run a := rfl

/-- The characters of a set. -/
def member (neg : Bool) (t : List UInt8) : UInt8 → Bool := fun x => ((Spec.Ere.items true t).getD []).any (·.has x) != neg

theorem body_run (t : List UInt8) (ht : 93 ∉ t) (neg : Bool) (u : List UInt8) (o : List Frame) (f : Frame) :
    Spec.Ere.St.run ⟨.body neg u, o, f⟩ t = some ⟨.body neg (u ++ t), o, f⟩ := by
  induction t generalizing u with
  | nil => simp [Spec.Ere.St.run]
  | cons c t ih =>
    rw [run_cons]
    simp only [Spec.Ere.St.step]
    rw [if_neg (by intro h; subst h; simp at ht), Option.bind_some, ih (by simp_all)]
    simp

theorem close_run (neg : Bool) (t : List UInt8) (hi : Spec.Ere.items true t ≠ none) (o : List Frame) (f : Frame) :
    Spec.Ere.St.run ⟨.body neg t, o, f⟩ [93] = some ⟨.text, o, f.push (.set (member neg t))⟩ := by
  rw [run_cons]
  simp only [Spec.Ere.St.step, if_true]
  cases h : Spec.Ere.items true t with
  | none => exact absurd h hi
  | some is =>
    simp only [Option.map_some, Option.bind_some, Spec.Ere.St.run]
    unfold member
    rw [h]
    rfl

/-- A set is read. -/
theorem set_run (c : UInt8) (t : List UInt8) (ht : 93 ∉ t) (hc : c ≠ 94) (hi : Spec.Ere.items true (c :: t) ≠ none) (o : List Frame)
    (f : Frame) : Spec.Ere.St.run ⟨.text, o, f⟩ (91 :: c :: t ++ [93]) = some ⟨.text, o, f.push (.set (member false (c :: t)))⟩ := by
  rw [List.cons_append, run_cons]
  simp only [Spec.Ere.St.step]
  rw [if_neg (by decide), if_pos trivial, Option.bind_some, List.cons_append, run_cons]
  simp only [Spec.Ere.St.step]
  rw [if_neg hc, Option.bind_some, run_append, body_run t ht, Option.bind_some]
  exact close_run false (c :: t) hi o f

/-- A negated set is read. -/
theorem notSet_run (c : UInt8) (t : List UInt8) (ht : 93 ∉ t) (hi : Spec.Ere.items true (c :: t) ≠ none) (o : List Frame)
    (f : Frame) : Spec.Ere.St.run ⟨.text, o, f⟩ (91 :: 94 :: c :: t ++ [93]) = some ⟨.text, o, f.push (.set (member true (c :: t)))⟩ := by
  rw [List.cons_append, run_cons]
  simp only [Spec.Ere.St.step]
  rw [if_neg (by decide), if_pos trivial, Option.bind_some, List.cons_append, run_cons]
  simp only [Spec.Ere.St.step]
  rw [if_pos trivial, Option.bind_some, List.cons_append, run_cons]
  simp only [Spec.Ere.St.step]
  rw [Option.bind_some, run_append, body_run t ht, Option.bind_some]
  exact close_run true (c :: t) hi o f

/-- The expression that is one character. -/
def one (c : UInt8) : RE := .set (· == c)

/-- A group. -/
def group (ps : List RE) : RE := Frame.close ⟨[], ps⟩

mutual
/-- The pieces that a pattern becomes. -/
def pieces : G → List RE
  | .done => []
  | .lit c g => one c :: pieces g
  | .esc c g => one c :: pieces g
  | .any g => group [.set (member true [47])] :: pieces g
  | .star g => group [.star (.set (member true [47]))] :: pieces g
  | .set t g => group [.set (member false t)] :: pieces g
  | .notSet t g => group [.set (member true t)] :: pieces g
  | .caretSet t g => (if t = [] then one 94 else Frame.close ⟨[Frame.branch ⟨[], [one 94]⟩], [.set (member false t)]⟩) :: pieces g
  | .alt a g => (finish a []).close :: pieces g
/-- The group that alternatives become. -/
def finish : A → List RE → Frame
  | .one g, al => ⟨al, (pieces g).reverse⟩
  | .more g a, al => finish a (Frame.branch ⟨[], (pieces g).reverse⟩ :: al)
end

theorem branch_alts (al cur : List RE) : Frame.branch ⟨al, cur⟩ = Frame.branch ⟨[], cur⟩ := rfl

theorem special_kept (c : UInt8) : Spec.Ere.special c = kept c :=
  forall_byte (p := fun c => Spec.Ere.special c = kept c) (by decide +kernel) c

theorem one_run (c : UInt8) (h : Spec.Ere.special c = false) (o : List Frame) (f : Frame) :
    Spec.Ere.St.run ⟨.text, o, f⟩ [c] = some ⟨.text, o, f.push (one c)⟩ := by
  have hn : ∀ d, Spec.Ere.special d = true → c ≠ d := by intro d hd e; subst e; rw [h] at hd; cases hd
  rw [run_cons]
  simp only [Spec.Ere.St.step]
  rw [if_neg (hn _ (by decide)), if_neg (hn _ (by decide)), if_neg (hn _ (by decide)), if_neg (hn _ (by decide)),
    if_neg (hn _ (by decide)), if_neg (hn _ (by decide)), if_neg (hn _ (by decide)), if_neg (hn _ (by decide)), if_neg (by simp [h])]
  rfl

theorem esc_run (c : UInt8) (h : Spec.Ere.special c = true) (o : List Frame) (f : Frame) :
    Spec.Ere.St.run ⟨.text, o, f⟩ [92, c] = some ⟨.text, o, f.push (one c)⟩ := by
  rw [run_cons]
  simp only [Spec.Ere.St.step, if_true, Option.bind_some]
  rw [run_cons]
  simp only [Spec.Ere.St.step, h, if_true, Option.bind_some]
  rfl

theorem open_run (o : List Frame) (f : Frame) : Spec.Ere.St.run ⟨.text, o, f⟩ [40] = some ⟨.text, f :: o, ⟨[], []⟩⟩ := rfl
theorem shut_run (o : List Frame) (f g : Frame) : Spec.Ere.St.run ⟨.text, f :: o, g⟩ [41] = some ⟨.text, o, f.push g.close⟩ := rfl
theorem bar_run (o : List Frame) (f : Frame) : Spec.Ere.St.run ⟨.text, o, f⟩ [124] = some ⟨.text, o, ⟨f.branch :: f.alts, []⟩⟩ := rfl
theorem star_run (o : List Frame) (al ps : List RE) (p : RE) :
    Spec.Ere.St.run ⟨.text, o, ⟨al, p :: ps⟩⟩ [42] = some ⟨.text, o, ⟨al, .star p :: ps⟩⟩ := rfl

theorem notSlash_run (o : List Frame) (f : Frame) :
    Spec.Ere.St.run ⟨.text, o, f⟩ [91, 94, 47, 93] = some ⟨.text, o, f.push (.set (member true [47]))⟩ :=
  notSet_run 47 [] (by simp) (by simp [Spec.Ere.items]) o f

mutual
theorem gout_run : ∀ (g : G) (brace : Bool) (o : List Frame) (al cur : List RE), g.Ok brace → g.Sound →
    Spec.Ere.St.run ⟨.text, o, ⟨al, cur⟩⟩ (gout g) = some ⟨.text, o, ⟨al, (pieces g).reverse ++ cur⟩⟩
  | .done, _, o, al, cur, _, _ => by simp [gout, pieces, Spec.Ere.St.run]
  | .lit c g, brace, o, al, cur, hk, hs => by
    simp only [G.Ok] at hk
    obtain ⟨h1, h2, h3, h4, h5, -, hk⟩ := hk
    simp only [G.Sound] at hs
    simp only [gout, pieces]
    have hp : Spec.Ere.St.run ⟨.text, o, ⟨al, cur⟩⟩ (if quoted c then [92, c] else [c]) = some ⟨.text, o, ⟨al, one c :: cur⟩⟩ := by
      by_cases hq : quoted c = true
      · simp only [hq, if_true]
        exact esc_run c (by rw [special_kept]; simp [kept, hq]) o _
      · simp only [hq]
        refine one_run c ?_ o _
        rw [special_kept]
        unfold kept
        rw [c_lb, c_lc, c_st, c_qm, c_bs]
        simp [hq, h1, h2, h3, h4, h5]
    rw [run_append, hp, Option.bind_some, gout_run g brace o al _ hk hs]
    simp
  | .esc c g, brace, o, al, cur, hk, hs => by
    simp only [G.Ok] at hk
    simp only [G.Sound] at hs
    simp only [gout, pieces]
    have hp : Spec.Ere.St.run ⟨.text, o, ⟨al, cur⟩⟩ (if kept c then [92, c] else [c]) = some ⟨.text, o, ⟨al, one c :: cur⟩⟩ := by
      by_cases hq : kept c = true
      · simp only [hq, if_true]
        exact esc_run c (by rw [special_kept]; exact hq) o _
      · simp only [hq]
        exact one_run c (by rw [special_kept]; simpa using hq) o _
    rw [run_append, hp, Option.bind_some, gout_run g brace o al _ hk hs]
    simp
  | .any g, brace, o, al, cur, hk, hs => by
    simp only [G.Ok] at hk
    simp only [G.Sound] at hs
    simp only [gout, pieces]
    have e : [40, 91, 94, 47, 93, 41] ++ gout g = [40] ++ ([91, 94, 47, 93] ++ ([41] ++ gout g)) := rfl
    rw [e, run_append, open_run, Option.bind_some, run_append, notSlash_run, Option.bind_some, run_append, shut_run,
      Option.bind_some]
    have := gout_run g brace o al (group [.set (member true [47])] :: cur) hk hs
    refine Eq.trans this ?_
    simp
  | .star g, brace, o, al, cur, hk, hs => by
    simp only [G.Ok] at hk
    simp only [G.Sound] at hs
    simp only [gout, pieces]
    have e : [40, 91, 94, 47, 93, 42, 41] ++ gout g = [40] ++ ([91, 94, 47, 93] ++ ([42] ++ ([41] ++ gout g))) := rfl
    rw [e, run_append, open_run, Option.bind_some, run_append, notSlash_run, Option.bind_some, run_append]
    simp only [Frame.push]
    rw [star_run, Option.bind_some, run_append, shut_run, Option.bind_some]
    have := gout_run g brace o al (group [.star (.set (member true [47]))] :: cur) hk hs
    refine Eq.trans this ?_
    simp
  | .set t g, brace, o, al, cur, hk, hs => by
    simp only [G.Ok] at hk
    obtain ⟨⟨c, r, rfl, hc1, hc2, hr⟩, -, hk⟩ := hk
    simp only [G.Sound] at hs
    simp only [gout, pieces]
    have e : 40 :: 91 :: (c :: r) ++ [93, 41] ++ gout g = [40] ++ ((91 :: c :: r ++ [93]) ++ ([41] ++ gout g)) := by simp
    rw [e, run_append, open_run, Option.bind_some, run_append, set_run c r hr hc2 hs.1, Option.bind_some, run_append, shut_run,
      Option.bind_some]
    have := gout_run g brace o al (group [.set (member false (c :: r))] :: cur) hk hs.2
    refine Eq.trans this ?_
    simp
  | .notSet t g, brace, o, al, cur, hk, hs => by
    simp only [G.Ok] at hk
    obtain ⟨hr, -, hk⟩ := hk
    simp only [G.Sound] at hs
    obtain ⟨hne, hi, hs⟩ := hs
    simp only [gout, pieces]
    cases t with
    | nil => exact absurd rfl hne
    | cons c r =>
      have e : 40 :: 91 :: 94 :: (c :: r) ++ [93, 41] ++ gout g = [40] ++ ((91 :: 94 :: c :: r ++ [93]) ++ ([41] ++ gout g)) := by simp
      rw [e, run_append, open_run, Option.bind_some, run_append, notSet_run c r (by simp_all) hi, Option.bind_some, run_append,
        shut_run, Option.bind_some]
      have := gout_run g brace o al (group [.set (member true (c :: r))] :: cur) hk hs
      refine Eq.trans this ?_
      simp
  | .caretSet t g, brace, o, al, cur, hk, hs => by
    simp only [G.Ok] at hk
    obtain ⟨hr, -, hk⟩ := hk
    simp only [G.Sound] at hs
    obtain ⟨hne, hi, hs⟩ := hs
    simp only [gout, pieces]
    cases t with
    | nil =>
      simp only [if_true]
      rw [run_append, esc_run 94 (by decide), Option.bind_some]
      have := gout_run g brace o al (one 94 :: cur) hk hs
      refine Eq.trans this ?_
      simp
    | cons c r =>
      have hc : c ≠ 94 := by simpa using hne
      have e : (if (c :: r) = [] then [92, 94] else 40 :: 92 :: 94 :: 124 :: 91 :: (c :: r) ++ [93, 41]) ++ gout g =
          [40] ++ ([92, 94] ++ ([124] ++ ((91 :: c :: r ++ [93]) ++ ([41] ++ gout g)))) := by simp
      rw [e, run_append, open_run, Option.bind_some, run_append, esc_run 94 (by decide), Option.bind_some, run_append, bar_run,
        Option.bind_some, run_append, set_run c r (by simp_all) hc hi, Option.bind_some, run_append, shut_run, Option.bind_some]
      have := gout_run g brace o al (Frame.close ⟨[Frame.branch ⟨[], [one 94]⟩], [.set (member false (c :: r))]⟩ :: cur) hk hs
      refine Eq.trans this ?_
      simp
  | .alt a g, brace, o, al, cur, hk, hs => by
    simp only [G.Ok] at hk
    simp only [G.Sound] at hs
    simp only [gout, pieces]
    have e : 40 :: aout a ++ [41] ++ gout g = [40] ++ (aout a ++ ([41] ++ gout g)) := by simp
    rw [e, run_append, open_run, Option.bind_some, run_append, aout_run a _ [] hk.1 hs.1, Option.bind_some, run_append, shut_run,
      Option.bind_some]
    have := gout_run g brace o al ((finish a []).close :: cur) hk.2 hs.2
    refine Eq.trans this ?_
    simp
theorem aout_run : ∀ (a : A) (o : List Frame) (al : List RE), a.Ok → a.Sound →
    Spec.Ere.St.run ⟨.text, o, ⟨al, []⟩⟩ (aout a) = some ⟨.text, o, finish a al⟩
  | .one g, o, al, hk, hs => by
    simp only [A.Ok] at hk
    simp only [A.Sound] at hs
    simp only [aout, finish]
    rw [gout_run g true o al [] hk hs, List.append_nil]
  | .more g a, o, al, hk, hs => by
    simp only [A.Ok] at hk
    simp only [A.Sound] at hs
    simp only [aout, finish]
    have e : gout g ++ 124 :: aout a = gout g ++ ([124] ++ aout a) := rfl
    rw [e, run_append, gout_run g true o al [] hk.1 hs.1, Option.bind_some, run_append, bar_run, Option.bind_some, List.append_nil]
    exact aout_run a o _ hk.2 hs.2
end

/-- Pieces one after the other. -/
def seqAll (ps : List RE) : RE := ps.foldr RE.seq .eps

theorem branch_eq (al ps : List RE) : Frame.branch ⟨al, ps.reverse⟩ = seqAll ps := by
  unfold Frame.branch seqAll
  rw [List.foldl_reverse]

theorem mat_seq {r q : RE} {a s b : List UInt8} :
    Mat (.seq r q) a s b ↔ ∃ u v, s = u ++ v ∧ Mat r a u (v ++ b) ∧ Mat q (a ++ u) v b := by
  constructor
  · intro h
    cases h with
    | seq h1 h2 => exact ⟨_, _, rfl, h1, h2⟩
  · rintro ⟨u, v, rfl, h1, h2⟩
    exact .seq h1 h2

theorem mat_eps {a s b : List UInt8} : Mat .eps a s b ↔ s = [] := by
  constructor
  · intro h; cases h; rfl
  · rintro rfl; exact .eps

theorem mat_set {p : UInt8 → Bool} {a s b : List UInt8} : Mat (.set p) a s b ↔ ∃ c, s = [c] ∧ p c = true := by
  constructor
  · intro h
    cases h with
    | set h => exact ⟨_, rfl, h⟩
  · rintro ⟨c, rfl, h⟩; exact .set h

theorem mat_alt {r q : RE} {a s b : List UInt8} : Mat (.alt r q) a s b ↔ Mat r a s b ∨ Mat q a s b := by
  constructor
  · intro h
    cases h with
    | altL h => exact Or.inl h
    | altR h => exact Or.inr h
  · rintro (h | h)
    · exact .altL h
    · exact .altR h

theorem mat_star {p : UInt8 → Bool} {a s b : List UInt8} : Mat (.star (.set p)) a s b ↔ ∀ c ∈ s, p c = true := by
  constructor
  · intro h
    generalize hr : RE.star (.set p) = r at h
    induction h with
    | starNil => simp
    | starCons h1 _ _ ih2 =>
      cases hr
      obtain ⟨c, rfl, hc⟩ := mat_set.mp h1
      have := ih2 rfl
      intro d hd
      simp only [List.cons_append, List.nil_append, List.mem_cons] at hd
      rcases hd with rfl | hd
      · exact hc
      · exact this d hd
    | _ => cases hr
  · intro h
    induction s generalizing a with
    | nil => exact .starNil
    | cons c s ih =>
      have : c :: s = [c] ++ s := rfl
      rw [this]
      exact .starCons (.set (h c (by simp))) (ih fun d hd => h d (by simp [hd]))

theorem mat_seqAll_cons {p : RE} {ps : List RE} {a s b : List UInt8} :
    Mat (seqAll (p :: ps)) a s b ↔ ∃ u v, s = u ++ v ∧ Mat p a u (v ++ b) ∧ Mat (seqAll ps) (a ++ u) v b := mat_seq

theorem mat_group_one {p : RE} {a s b : List UInt8} : Mat (group [p]) a s b ↔ Mat p a s b := by
  show Mat (.seq p .eps) a s b ↔ _
  rw [mat_seq]
  constructor
  · rintro ⟨u, v, rfl, h1, h2⟩
    rw [mat_eps.mp h2] at h1 ⊢
    simpa using h1
  · intro h
    exact ⟨s, [], by simp, by simpa using h, .eps⟩

theorem mat_close {al : List RE} {cur : List RE} {a s b : List UInt8} :
    Mat (Frame.close ⟨al, cur⟩) a s b ↔ (∃ p ∈ al, Mat p a s b) ∨ Mat (Frame.branch ⟨[], cur⟩) a s b := by
  unfold Frame.close
  rw [branch_alts]
  generalize Frame.branch ⟨[], cur⟩ = r
  dsimp only
  induction al generalizing r with
  | nil => simp
  | cons p al ih =>
    rw [List.foldl_cons, ih, mat_alt]
    simp only [List.mem_cons]
    constructor
    · rintro (⟨q, hq, h⟩ | h | h)
      · exact Or.inl ⟨q, Or.inr hq, h⟩
      · exact Or.inl ⟨p, Or.inl rfl, h⟩
      · exact Or.inr h
    · rintro (⟨q, rfl | hq, h⟩ | h)
      · exact Or.inr (Or.inl h)
      · exact Or.inl ⟨q, hq, h⟩
      · exact Or.inr (Or.inr h)

theorem member_false {t : List UInt8} (h : Spec.Ere.items true t ≠ none) (c : UInt8) : member false t c = true ↔ inSet t c := by
  unfold member inSet
  cases hi : Spec.Ere.items true t with
  | none => exact absurd hi h
  | some is => simp

theorem member_true {t : List UInt8} (h : Spec.Ere.items true t ≠ none) (c : UInt8) : member true t c = true ↔ ¬ inSet t c := by
  unfold member inSet
  cases hi : Spec.Ere.items true t with
  | none => exact absurd hi h
  | some is => simp

theorem notSlash (c : UInt8) : member true [47] c = true ↔ c ≠ 47 := by
  simp [member, Spec.Ere.items, Spec.Ere.Item.has]

/-- One character and the rest. -/
theorem mat_char {p : RE} {P : UInt8 → Prop} (hp : ∀ a s b, Mat p a s b ↔ ∃ c, s = [c] ∧ P c) {ps : List RE} {R : List UInt8 → Prop}
    (hr : ∀ a s b, Mat (seqAll ps) a s b ↔ R s) (a s b : List UInt8) :
    Mat (seqAll (p :: ps)) a s b ↔ ∃ c r, s = c :: r ∧ P c ∧ R r := by
  rw [mat_seqAll_cons]
  constructor
  · rintro ⟨u, v, rfl, h1, h2⟩
    obtain ⟨c, rfl, hc⟩ := (hp _ _ _).mp h1
    exact ⟨c, v, rfl, hc, (hr _ _ _).mp h2⟩
  · rintro ⟨c, r, rfl, hc, hR⟩
    exact ⟨[c], r, rfl, (hp _ _ _).mpr ⟨c, rfl, hc⟩, (hr _ _ _).mpr hR⟩

theorem mat_one (c : UInt8) (a s b : List UInt8) : Mat (one c) a s b ↔ ∃ d, s = [d] ∧ d = c := by
  unfold one
  rw [mat_set]
  simp

mutual
theorem pieces_mat : ∀ (g : G), g.Sound → ∀ a s b, Mat (seqAll (pieces g)) a s b ↔ g.Matches false s
  | .done, _, a, s, b => by
    simp only [pieces, G.Matches]; exact mat_eps
  | .lit c g, hs, a, s, b => by
    simp only [G.Sound] at hs
    simp only [pieces, G.Matches]
    rw [mat_char (mat_one c) (pieces_mat g hs)]
    constructor
    · rintro ⟨d, r, rfl, rfl, h⟩; exact ⟨r, rfl, h⟩
    · rintro ⟨r, rfl, h⟩; exact ⟨c, r, rfl, rfl, h⟩
  | .esc c g, hs, a, s, b => by
    simp only [G.Sound] at hs
    simp only [pieces, G.Matches]
    rw [mat_char (mat_one c) (pieces_mat g hs)]
    constructor
    · rintro ⟨d, r, rfl, rfl, h⟩; exact ⟨r, rfl, h⟩
    · rintro ⟨r, rfl, h⟩; exact ⟨c, r, rfl, rfl, h⟩
  | .any g, hs, a, s, b => by
    simp only [G.Sound] at hs
    simp only [pieces, G.Matches]
    rw [mat_char (fun a s b => by rw [mat_group_one, mat_set]) (pieces_mat g hs)]
    simp only [notSlash]
  | .star g, hs, a, s, b => by
    simp only [G.Sound] at hs
    simp only [pieces, G.Matches]
    rw [mat_seqAll_cons]
    constructor
    · rintro ⟨u, v, rfl, h1, h2⟩
      rw [mat_group_one, mat_star] at h1
      exact ⟨u, v, rfl, fun h => (notSlash 47).mp (h1 47 h) rfl, (pieces_mat g hs _ _ _).mp h2⟩
    · rintro ⟨u, v, rfl, h1, h2⟩
      refine ⟨u, v, rfl, ?_, (pieces_mat g hs _ _ _).mpr h2⟩
      rw [mat_group_one, mat_star]
      intro c hc
      exact (notSlash c).mpr (fun e => h1 (e ▸ hc))
  | .set t g, hs, a, s, b => by
    simp only [G.Sound] at hs
    simp only [pieces, G.Matches]
    rw [mat_char (fun a s b => by rw [mat_group_one, mat_set]) (pieces_mat g hs.2)]
    simp only [member_false hs.1]
    simp
  | .notSet t g, hs, a, s, b => by
    simp only [G.Sound] at hs
    simp only [pieces, G.Matches]
    rw [mat_char (fun a s b => by rw [mat_group_one, mat_set]) (pieces_mat g hs.2.2)]
    simp only [member_true hs.2.1]
    simp
  | .caretSet t g, hs, a, s, b => by
    simp only [G.Sound] at hs
    simp only [pieces, G.Matches]
    rw [mat_char (P := fun c => c = 94 ∨ inSet t c) (fun a s b => by
      by_cases ht : t = []
      · subst ht
        simp only [if_true]
        rw [mat_one]
        simp [inSet, Spec.Ere.items]
      · rw [if_neg ht, mat_close]
        have h1 : ∀ p : RE, Frame.branch ⟨[], [p]⟩ = group [p] := fun _ => rfl
        simp only [List.mem_singleton, exists_eq_left, h1]
        rw [mat_group_one, mat_group_one, mat_one, mat_set]
        simp only [member_false hs.2.1]
        constructor
        · rintro (⟨c, rfl, h⟩ | ⟨c, rfl, h⟩)
          · exact ⟨c, rfl, Or.inl h⟩
          · exact ⟨c, rfl, Or.inr h⟩
        · rintro ⟨c, rfl, h | h⟩
          · exact Or.inl ⟨c, rfl, h⟩
          · exact Or.inr ⟨c, rfl, h⟩) (pieces_mat g hs.2.2)]
    simp
  | .alt al g, hs, a, s, b => by
    simp only [G.Sound] at hs
    simp only [pieces, G.Matches]
    rw [mat_seqAll_cons]
    constructor
    · rintro ⟨u, v, rfl, h1, h2⟩
      have := (finish_mat al hs.1 [] _ _ _).mp h1
      simp only [List.not_mem_nil, false_and, exists_false, false_or] at this
      exact ⟨u, v, rfl, this, (pieces_mat g hs.2 _ _ _).mp h2⟩
    · rintro ⟨u, v, rfl, h1, h2⟩
      exact ⟨u, v, rfl, (finish_mat al hs.1 [] _ _ _).mpr (Or.inr h1), (pieces_mat g hs.2 _ _ _).mpr h2⟩
theorem finish_mat : ∀ (al : A), al.Sound → ∀ (ps : List RE) a s b,
    Mat (finish al ps).close a s b ↔ (∃ p ∈ ps, Mat p a s b) ∨ al.Matches false s
  | .one g, hs, ps, a, s, b => by
    simp only [A.Sound] at hs
    simp only [finish, A.Matches]
    rw [mat_close, branch_eq, pieces_mat g hs]
  | .more g al, hs, ps, a, s, b => by
    simp only [A.Sound] at hs
    simp only [finish, A.Matches]
    rw [finish_mat al hs.2, branch_eq]
    simp only [List.mem_cons]
    constructor
    · rintro (⟨p, rfl | hp, h⟩ | h)
      · exact Or.inr (Or.inl ((pieces_mat g hs.1 _ _ _).mp h))
      · exact Or.inl ⟨p, hp, h⟩
      · exact Or.inr (Or.inr h)
    · rintro (⟨p, hp, h⟩ | h | h)
      · exact Or.inl ⟨p, Or.inr hp, h⟩
      · exact Or.inl ⟨_, Or.inl rfl, (pieces_mat g hs.1 _ _ _).mpr h⟩
      · exact Or.inr h
end

mutual
/-- Sets without a slash, or no slash in the string. -/
theorem strict_iff : ∀ (g : G) (s : List UInt8), g.NoSlash ∨ 47 ∉ s → (g.Matches true s ↔ g.Matches false s)
  | .done, s, _ => by simp only [G.Matches]
  | .lit c g, s, h => by
    simp only [G.NoSlash] at h
    simp only [G.Matches]
    refine exists_congr fun r => and_congr_right fun e => strict_iff g r ?_
    subst e; exact h.imp_right fun h => by simp_all
  | .esc c g, s, h => by
    simp only [G.NoSlash] at h
    simp only [G.Matches]
    refine exists_congr fun r => and_congr_right fun e => strict_iff g r ?_
    subst e; exact h.imp_right fun h => by simp_all
  | .any g, s, h => by
    simp only [G.NoSlash] at h
    simp only [G.Matches]
    refine exists_congr fun c => exists_congr fun r => and_congr_right fun e => and_congr_right fun _ => strict_iff g r ?_
    subst e; exact h.imp_right fun h => by simp_all
  | .star g, s, h => by
    simp only [G.NoSlash] at h
    simp only [G.Matches]
    refine exists_congr fun c => exists_congr fun r => and_congr_right fun e => and_congr_right fun _ => strict_iff g r ?_
    subst e; exact h.imp_right fun h => by simp_all
  | .set t g, s, h => by
    simp only [G.NoSlash] at h
    simp only [G.Matches]
    refine exists_congr fun c => exists_congr fun r => and_congr_right fun e => and_congr_right fun hc => and_congr ?_ (strict_iff g r ?_)
    · subst e
      refine ⟨fun _ h => (nomatch h), fun _ _ e => ?_⟩
      subst e
      rcases h with h | h
      · exact h.1 hc
      · simp at h
    · subst e
      rcases h with h | h
      · exact Or.inl h.2
      · exact Or.inr (by simp_all)
  | .notSet t g, s, h => by
    simp only [G.NoSlash] at h
    simp only [G.Matches]
    refine exists_congr fun c => exists_congr fun r => and_congr_right fun e => and_congr_right fun hc => and_congr ?_ (strict_iff g r ?_)
    · subst e
      refine ⟨fun _ h => (nomatch h), fun _ _ e => ?_⟩
      subst e
      rcases h with h | h
      · exact hc h.1
      · simp at h
    · subst e
      rcases h with h | h
      · exact Or.inl h.2
      · exact Or.inr (by simp_all)
  | .caretSet t g, s, h => by
    simp only [G.NoSlash] at h
    simp only [G.Matches]
    refine exists_congr fun c => exists_congr fun r => and_congr_right fun e => and_congr_right fun hc => and_congr ?_ (strict_iff g r ?_)
    · subst e
      refine ⟨fun _ h => (nomatch h), fun _ _ e => ?_⟩
      subst e
      rcases h with h | h
      · rcases hc with hc | hc
        · exact absurd hc (by decide)
        · exact h.1 hc
      · simp at h
    · subst e
      rcases h with h | h
      · exact Or.inl h.2
      · exact Or.inr (by simp_all)
  | .alt al g, s, h => by
    simp only [G.NoSlash] at h
    simp only [G.Matches]
    refine exists_congr fun w => exists_congr fun r => and_congr_right fun e => and_congr (strict_iffA al w ?_) (strict_iff g r ?_)
    · subst e
      rcases h with h | h
      · exact Or.inl h.1
      · exact Or.inr (by simp_all)
    · subst e
      rcases h with h | h
      · exact Or.inl h.2
      · exact Or.inr (by simp_all)
theorem strict_iffA : ∀ (al : A) (s : List UInt8), al.NoSlash ∨ 47 ∉ s → (al.Matches true s ↔ al.Matches false s)
  | .one g, s, h => by
    simp only [A.NoSlash] at h
    simp only [A.Matches]
    exact strict_iff g s h
  | .more g al, s, h => by
    simp only [A.NoSlash] at h
    simp only [A.Matches]
    exact or_congr (strict_iff g s (h.imp_left (·.1))) (strict_iffA al s (h.imp_left (·.2)))
end

theorem mat_eol (ps : List RE) (a w b : List UInt8) :
    Mat (seqAll (ps ++ [.eol])) a w b ↔ b = [] ∧ Mat (seqAll ps) a w [] := by
  induction ps generalizing a w with
  | nil =>
    rw [List.nil_append, mat_seqAll_cons]
    constructor
    · rintro ⟨u, v, rfl, h1, h2⟩
      rw [mat_eps.mp h2] at h1 ⊢
      generalize hb : [] ++ b = b' at h1
      cases h1
      simp only [List.nil_append] at hb
      exact ⟨hb, .eps⟩
    · rintro ⟨rfl, h⟩
      rw [mat_eps.mp h]
      exact ⟨[], [], rfl, .eol, .eps⟩
  | cons p ps ih =>
    rw [List.cons_append, mat_seqAll_cons, mat_seqAll_cons]
    constructor
    · rintro ⟨u, v, rfl, h1, h2⟩
      obtain ⟨rfl, h3⟩ := (ih _ _).mp h2
      exact ⟨rfl, u, v, rfl, h1, h3⟩
    · rintro ⟨rfl, u, v, rfl, h1, h2⟩
      exact ⟨u, v, rfl, h1, (ih _ _).mpr ⟨rfl, h2⟩⟩

theorem mat_bol (ps : List RE) (a w b : List UInt8) :
    Mat (seqAll (.bol :: ps)) a w b ↔ a = [] ∧ Mat (seqAll ps) [] w b := by
  rw [mat_seqAll_cons]
  constructor
  · rintro ⟨u, v, rfl, h1, h2⟩
    generalize hb : v ++ b = b' at h1
    cases h1
    exact ⟨rfl, h2⟩
  · rintro ⟨rfl, h⟩
    exact ⟨[], w, rfl, .bol, h⟩

/-- The whole expression. -/
theorem whole_parse (g : G) (hk : g.Ok false) (hs : g.Sound) :
    Spec.Ere.parse (94 :: gout g ++ [36]) = some (seqAll (.bol :: pieces g ++ [.eol])) := by
  unfold Spec.Ere.parse
  have h1 : ∀ f : Frame, Spec.Ere.St.run ⟨.text, [], f⟩ [94] = some ⟨.text, [], f.push .bol⟩ := fun _ => rfl
  have h2 : ∀ f : Frame, Spec.Ere.St.run ⟨.text, [], f⟩ [36] = some ⟨.text, [], f.push .eol⟩ := fun _ => rfl
  have e : 94 :: gout g ++ [36] = [94] ++ (gout g ++ [36]) := rfl
  rw [e, run_append, h1, Option.bind_some, run_append]
  simp only [Frame.push]
  rw [gout_run g false [] [] [.bol] hk hs, Option.bind_some, h2, Option.bind_some]
  simp only [Frame.push, Frame.close, List.foldl_nil]
  rw [← branch_eq []]
  simp

theorem whole_found (g : G) (hs : g.Sound) (s : List UInt8) :
    Spec.Ere.Found (seqAll (.bol :: pieces g ++ [.eol])) s ↔ g.Matches false s := by
  unfold Spec.Ere.Found
  simp only [List.cons_append, mat_bol, mat_eol, pieces_mat g hs]
  constructor
  · rintro ⟨a, w, b, rfl, rfl, rfl, h⟩
    simpa using h
  · intro h
    exact ⟨[], s, [], by simp, rfl, rfl, h⟩

end Lemmas.Glob
