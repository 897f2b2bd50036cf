import Verif.Model.DefGen
import Verif.Spec.Default
import Verif.Props.RecIter
import Verif.Props.Num
/- C60: a configuration with defaults. -/
namespace Props
open Wv Spec.Conf Spec.Path Spec.Default
open Wv.TempGen (Value)
open Wv.Key (fold Names mk)
open Props.Gens
namespace Dft
open Wv.DefGen

/-! The strings -/

theorem cut_one (n : Seg) (h : slash ∉ n) : cut n = [n] := by
  induction n with
  | nil => rfl
  | cons c n ih =>
    simp only [List.mem_cons, not_or] at h
    have hc : ¬ c = ch '/' := fun e => h.1 (by rw [e]; rfl)
    rw [cut, if_neg hc, ih h.2]

theorem cut_cons (n : Seg) (s : List Byte) (h : slash ∉ n) : cut (n ++ slash :: s) = n :: cut s := by
  induction n with
  | nil => rfl
  | cons c n ih =>
    simp only [List.mem_cons, not_or] at h
    have hc : ¬ c = ch '/' := fun e => h.1 (by rw [e]; rfl)
    rw [List.cons_append, cut, if_neg hc, ih h.2]

theorem cut_join (l : List Seg) (hl : l ≠ []) (h : ∀ n ∈ l, slash ∉ n) : cut (Spec.Split.join [slash] l) = l := by
  induction l with
  | nil => exact absurd rfl hl
  | cons n l ih =>
    cases l with
    | nil => exact cut_one n (h n (by simp))
    | cons n' l =>
      rw [show Spec.Split.join [slash] (n :: n' :: l) = n ++ slash :: Spec.Split.join [slash] (n' :: l) by simp [Spec.Split.join]]
      rw [cut_cons n _ (h n (by simp)), ih (by simp) (fun x hx => h x (by simp [hx]))]

theorem asked_ne (k : Text) : asked k ≠ [] := by
  unfold asked
  split
  · simp
  · rename_i h; simp at h; exact h.1

theorem asked_slash (k : Text) : ∀ n ∈ asked k, slash ∉ n := by
  intro n hn
  unfold asked at hn
  split at hn
  · rcases List.mem_append.mp hn with hn | hn
    · exact (Key.names_ok k n hn).2
    · simp at hn; subst hn; simp
  · exact (Key.names_ok k n hn).2

theorem printable_parse (k : Text) : Key.printable (Key.parse k) = Spec.Split.join [slash] (asked k) := by
  rw [Key.parse_eq, Key.printable_mk _ _ (Key.dir_names k), write]
  unfold asked
  by_cases h1 : names k = []
  · have : dir k = false := by
      cases h : dir k with
      | false => rfl
      | true => exact absurd h1 (Key.dir_names k h)
    simp [h1, this, Spec.Split.join]
  · cases h : dir k with
    | false => simp [h1]
    | true => simp [h1, Key.join_snoc (names k) h1]

/-- The string in the buffer once some names were written. -/
def pre (c : List Seg) : List Byte := c.flatMap fun n => slash :: n

theorem pre_tail (c : List Seg) : (pre c).tail = Spec.Split.join [slash] c := by
  induction c with
  | nil => rfl
  | cons n c ih =>
    cases c with
    | nil => simp [pre, Spec.Split.join]
    | cons n' c =>
      rw [show Spec.Split.join [slash] (n :: n' :: c) = n ++ slash :: Spec.Split.join [slash] (n' :: c) by simp [Spec.Split.join], ← ih]
      simp [pre]

theorem pre_snoc (c : List Seg) (n : Seg) : pre (c ++ [n]) = pre c ++ slash :: n := by simp [pre]

/-- The bytes that are still to be written. -/
def need (l : List Seg) : Nat := (l.map fun n => 1 + max n.length 1).sum + 1

theorem need_join (l : List Seg) (hl : l ≠ []) (h : ∀ n ∈ l, n ≠ []) : need l = (Spec.Split.join [slash] l).length + 2 := by
  induction l with
  | nil => exact absurd rfl hl
  | cons n l ih =>
    have hn : 0 < n.length := List.length_pos_iff.mpr (h n (by simp))
    cases l with
    | nil => simp [need, Spec.Split.join]; omega
    | cons n' l =>
      have := ih (by simp) (fun x hx => h x (by simp [hx]))
      rw [show Spec.Split.join [slash] (n :: n' :: l) = n ++ slash :: Spec.Split.join [slash] (n' :: l) by simp [Spec.Split.join]]
      simp only [need, List.map_cons, List.sum_cons, List.length_append, List.length_cons] at this ⊢
      omega

theorem room_ge (n : Nat) : n + 1 ≤ room n := by
  unfold room
  have : 12 + n + 1 ≤ (12 + n + 1) ||| 3 := Nat.left_le_or
  omega

theorem need_room (k : Text) : need (asked k) ≤ room ((Spec.Split.join [slash] (asked k)).length * 2) := by
  unfold asked
  by_cases h1 : names k = []
  · rw [if_pos (Or.inl h1), h1]
    decide
  · have hne : ∀ n ∈ names k, n ≠ [] := fun n hn => (Key.names_ok k n hn).1
    have hj := need_join (names k) h1 hne
    have hr : 1 ≤ (Spec.Split.join [slash] (names k)).length := by
      cases hk : names k with
      | nil => exact absurd hk h1
      | cons a l =>
        have := List.length_pos_iff.mpr (hne a (by simp [hk]))
        cases l <;> simp [Spec.Split.join] <;> omega
    by_cases h2 : dir k = true
    · rw [if_pos (Or.inr h2), Key.join_snoc _ h1]
      have : need (names k ++ [[]]) = need (names k) + 2 := by simp [need]
      rw [this, hj]
      have := room_ge (((Spec.Split.join [slash] (names k)).length + 1) * 2)
      simp only [List.length_append, List.length_singleton]
      omega
    · rw [if_neg (by simp [h1, h2]), hj]
      by_cases hl : (Spec.Split.join [slash] (names k)).length = 1
      · rw [hl]; decide
      · have := room_ge ((Spec.Split.join [slash] (names k)).length * 2)
        omega

/-! The search -/

/-- What is tried, in this order. -/
def cands : List Seg → List (List Seg)
  | [] => [[]]
  | n :: r => (cands r).map (n :: ·) ++ (cands r).map (star :: ·)

section
variable {σ : Type} (I : IGen σ) (s : σ)

/-- A key is found. -/
def found (c : List Seg) : Bool :=
  I.exists s (Key.parse (Spec.Split.join [slash] c)) && decide (Key.parse (Spec.Split.join [slash] c) ≠ [])

theorem numseg_zero (k : Key) : Key.numsegments k = 0 ↔ k = [] := by
  simp [Key.numsegments]

theorem find_spec (cap : Nat) (l : List Seg) : ∀ c, (pre c).length + need l ≤ cap →
    ∃ r, finddefault I s cap l (pre c) = some r ∧
      (match (cands l).find? fun e => found I s (c ++ e) with
        | some e => r = Key.parse (Spec.Split.join [slash] (c ++ e)) ∧ r ≠ []
        | none => r = []) := by
  induction l with
  | nil =>
    intro c h
    refine ⟨_, rfl, ?_⟩
    rw [pre_tail]
    simp only [cands, List.find?_cons, List.find?_nil, List.append_nil]
    cases hf : found I s c with
    | true =>
      simp only [found, Bool.and_eq_true, decide_eq_true_eq] at hf
      rw [if_pos hf.1]; simp [hf.2]
    | false =>
      simp only [found, Bool.and_eq_false_iff, decide_eq_false_iff_not, Decidable.not_not] at hf
      simp only
      rcases hf with hf | hf
      · rw [if_neg (by simp [hf])]
      · rw [hf]; simp
  | cons n l ih =>
    intro c h
    have hneed : need (n :: l) = 1 + max n.length 1 + need l := by simp [need]; omega
    have h1 : 1 ≤ need l := by simp [need]
    rw [finddefault]
    rw [if_neg (by omega)]
    have e1 : pre c ++ ch '/' :: n = pre (c ++ [n]) := by rw [pre_snoc]; rfl
    have e2 : pre c ++ [ch '/', ch '*'] = pre (c ++ [star]) := by rw [pre_snoc]; rfl
    rw [e1, e2]
    have l1 : (pre (c ++ [n])).length = (pre c).length + 1 + n.length := by simp [pre_snoc]; omega
    have l2 : (pre (c ++ [star])).length = (pre c).length + 2 := by simp [pre_snoc, star]
    obtain ⟨r, hr, hm⟩ := ih (c ++ [n]) (by omega)
    rw [hr]
    simp only [cands, List.find?_append, List.find?_map]
    have c1 : ((fun e => found I s (c ++ e)) ∘ fun x => n :: x) = fun e => found I s (c ++ [n] ++ e) := by funext e; simp
    have c2 : ((fun e => found I s (c ++ e)) ∘ fun x => star :: x) = fun e => found I s (c ++ [star] ++ e) := by funext e; simp
    rw [c1, c2]
    cases hf : (cands l).find? fun e => found I s (c ++ [n] ++ e) with
    | some e =>
      rw [hf] at hm
      refine ⟨r, ?_, ?_⟩
      · rw [if_pos (by rw [ne_eq, numseg_zero]; exact hm.2)]
      · simpa using hm
    | none =>
      rw [hf] at hm
      simp only at hm
      subst hm
      rw [if_neg (by simp [Key.numsegments]), if_neg (by omega)]
      obtain ⟨r, hr, hm⟩ := ih (c ++ [star]) (by omega)
      refine ⟨r, hr, ?_⟩
      simp only [Option.map_none, Option.none_or]
      cases hf2 : (cands l).find? fun e => found I s (c ++ [star] ++ e) with
      | some e => rw [hf2] at hm; simpa using hm
      | none => rw [hf2] at hm; simpa using hm

/-- The first that is found is the best. -/
theorem cands_best (P : List Seg → Bool) (Q : Place → Prop) (l : List Seg) (h : ∀ c, c ∈ cands l → (P c = true ↔ Q (low c))) :
    match (cands l).find? P with
    | some c => c ∈ cands l ∧ P c = true ∧ Covers (low c) (low l) ∧ ∀ e, Covers e (low l) → Q e → e = low c ∨ Before (low c) e (low l)
    | none => ∀ e, Covers e (low l) → ¬ Q e := by
  induction l generalizing P Q with
  | nil =>
    have := h [] (by simp [cands])
    simp only [cands, List.find?_cons, List.find?_nil]
    cases hp : P [] with
    | true =>
      refine ⟨by simp, hp, trivial, ?_⟩
      intro e he _
      cases e with
      | nil => exact Or.inl rfl
      | cons a e => exact absurd he (by simp [low, Covers])
    | false =>
      intro e he hq
      cases e with
      | nil => rw [hp] at this; exact absurd (this.mpr hq) (by simp)
      | cons a e => exact absurd he (by simp [low, Covers])
  | cons n l ih =>
    have hs : List.map lower star = star := by decide
    simp only [cands, List.find?_append, List.find?_map]
    have i1 := ih (P ∘ fun x => n :: x) (fun q => Q (n.map lower :: q)) (by
      intro c hc
      exact h (n :: c) (by simp [cands, hc]))
    have i2 := ih (P ∘ fun x => star :: x) (fun q => Q (star :: q)) (by
      intro c hc
      have := h (star :: c) (by simp [cands, hc])
      rw [show low (star :: c) = star :: low c by simp [low, hs]] at this
      exact this)
    have hl : low (n :: l) = n.map lower :: low l := rfl
    cases hf : (cands l).find? (P ∘ fun x => n :: x) with
    | some c =>
      rw [hf] at i1
      obtain ⟨a1, a2, a3, a4⟩ := i1
      simp only [Option.map_some, Option.some_or]
      refine ⟨by simp [a1], a2, ?_, ?_⟩
      · rw [hl]; exact ⟨Or.inr rfl, a3⟩
      · intro e he hq
        cases e with
        | nil => exact absurd he (by simp [low, Covers])
        | cons a e =>
          rw [hl] at he ⊢
          show a :: e = n.map lower :: low c ∨ Before (n.map lower :: low c) (a :: e) _
          by_cases hna : a = n.map lower
          · subst hna
            rcases a4 e he.2 hq with rfl | hb
            · exact Or.inl rfl
            · exact Or.inr (Or.inl ⟨rfl, hb⟩)
          · exact Or.inr (Or.inr ⟨fun h => hna h.symm, rfl⟩)
    | none =>
      rw [hf] at i1
      simp only [Option.map_none, Option.none_or]
      cases hf2 : (cands l).find? (P ∘ fun x => star :: x) with
      | some c =>
        rw [hf2] at i2
        obtain ⟨a1, a2, a3, a4⟩ := i2
        simp only [Option.map_some]
        refine ⟨by simp [a1], a2, ?_, ?_⟩
        · rw [hl]; exact ⟨Or.inl hs, a3⟩
        · intro e he hq
          cases e with
          | nil => exact absurd he (by simp [low, Covers])
          | cons a e =>
            rw [hl] at he ⊢
            show a :: e = star.map lower :: low c ∨ Before (star.map lower :: low c) (a :: e) _
            rw [hs]
            rcases he.1 with rfl | rfl
            · rcases a4 e he.2 hq with rfl | hb
              · exact Or.inl rfl
              · exact Or.inr (Or.inl ⟨rfl, hb⟩)
            · exact absurd hq (i1 e he.2)
      | none =>
        rw [hf2] at i2
        simp only [Option.map_none]
        intro e he hq
        cases e with
        | nil => exact absurd he (by simp [low, Covers])
        | cons a e =>
          rw [hl] at he
          rcases he.1 with rfl | rfl
          · exact i2 e he.2 hq
          · exact i1 e he.2 hq

end

theorem mem_cands_append (a b : List Seg) (c : List Seg) (h : c ∈ cands (a ++ b)) : ∃ c1 ∈ cands a, ∃ c2 ∈ cands b, c = c1 ++ c2 := by
  induction a generalizing c with
  | nil => exact ⟨[], by simp [cands], c, h, rfl⟩
  | cons n a ih =>
    simp only [List.cons_append, cands, List.mem_append, List.mem_map] at h
    rcases h with ⟨c', hc, rfl⟩ | ⟨c', hc, rfl⟩
    · obtain ⟨c1, h1, c2, h2, rfl⟩ := ih c' hc
      exact ⟨n :: c1, by simp [cands, h1], c2, h2, rfl⟩
    · obtain ⟨c1, h1, c2, h2, rfl⟩ := ih c' hc
      exact ⟨star :: c1, by simp [cands, h1], c2, h2, rfl⟩

theorem star_names : Names [star] := by
  intro n hn; simp at hn; subst hn; decide

theorem names_cands (l : List Seg) (h : Names l) : ∀ c ∈ cands l, Names c ∧ c.length = l.length := by
  induction l with
  | nil => intro c hc; simp [cands] at hc; subst hc; exact ⟨h, rfl⟩
  | cons n l ih =>
    intro c hc
    have hl : Names l := fun x hx => h x (by simp [hx])
    simp only [cands, List.mem_append, List.mem_map] at hc
    rcases hc with ⟨c', hc, rfl⟩ | ⟨c', hc, rfl⟩
    · obtain ⟨h1, h2⟩ := ih hl c' hc
      refine ⟨?_, by simp [h2]⟩
      intro x hx
      rcases List.mem_cons.mp hx with rfl | hx
      · exact h x (by simp)
      · exact h1 x hx
    · obtain ⟨h1, h2⟩ := ih hl c' hc
      refine ⟨?_, by simp [h2]⟩
      intro x hx
      rcases List.mem_cons.mp hx with rfl | hx
      · exact star_names _ (by simp)
      · exact h1 x hx

/-- What is tried are names, or ends with an empty one. -/
theorem cands_asked (k : Text) (c : List Seg) (h : c ∈ cands (asked k)) : c ≠ [] ∧ c.length = (asked k).length ∧
    (Names c ∨ ∃ c', Names c' ∧ c = c' ++ [[]]) := by
  unfold asked at h ⊢
  split at h
  · rename_i hc
    rw [if_pos hc]
    obtain ⟨c1, h1, c2, h2, rfl⟩ := mem_cands_append _ _ c h
    obtain ⟨n1, n2⟩ := names_cands _ (Key.names_ok k) c1 h1
    simp only [cands, List.map_cons, List.map_nil, List.mem_append, List.mem_singleton] at h2
    rcases h2 with rfl | rfl
    · exact ⟨by simp, by simp [n2], Or.inr ⟨c1, n1, rfl⟩⟩
    · exact ⟨by simp, by simp [n2], Or.inl (n1.append star_names)⟩
  · rename_i hc
    rw [if_neg hc]
    obtain ⟨n1, n2⟩ := names_cands _ (Key.names_ok k) c h
    refine ⟨?_, n2, Or.inl n1⟩
    intro e; subst e
    simp only [not_or] at hc
    exact hc.1 (List.length_eq_zero_iff.mp n2.symm)

theorem parse_join (c : List Seg) (h : Names c) : Key.parse (Spec.Split.join [slash] c) = c ∧ place (Spec.Split.join [slash] c) = low c ∧
    dir (Spec.Split.join [slash] c) = false := by
  have e : Spec.Split.join [slash] c = write c false := by simp [write]
  rw [e, Key.parse_write c false h (by simp), Key.dir_write c false h (by simp), place, Key.names_write c false h]
  exact ⟨by simp [mk], rfl, rfl⟩

theorem low_names (c : List Seg) (h : Names c) : [] ∉ low c := by
  intro hm
  simp only [low, List.mem_map, List.map_eq_nil_iff] at hm
  obtain ⟨x, hx, rfl⟩ := hm
  exact (h _ hx).1 rfl

section
variable {σ : Type} (I : IGen σ) (s : σ) (m : Spec.Conf.State) (hr : Reads I s m)
include hr

theorem found_there (k : Text) (c : List Seg) (h : c ∈ cands (asked k)) : found I s c = true ↔ There m (low c) := by
  obtain ⟨h1, -, h2⟩ := cands_asked k c h
  rcases h2 with h2 | ⟨c', h2, rfl⟩
  · obtain ⟨p1, p2, p3⟩ := parse_join c h2
    have := hr.exists_ (Spec.Split.join [slash] c)
    rw [p1] at this
    simp only [found, Bool.and_eq_true, decide_eq_true_eq, p1, this, Spec.Conf.get, p2, p3, There]
    simp [low_names c h2, h1]
  · have hno : ¬ There m (low (c' ++ [[]])) := by
      intro ht; exact ht.1 (by simp [low])
    simp only [hno, iff_false, found, Bool.and_eq_true, decide_eq_true_eq, not_and, Decidable.not_not]
    intro he
    by_cases hc : c' = []
    · subst hc; rfl
    · exfalso
      have := (hr.exists_ _).mp he
      rw [Key.join_snoc c' hc] at this
      have e : Spec.Split.join [slash] c' ++ [slash] = write c' true := by simp [write]
      rw [e] at this
      simp [Spec.Conf.get, Key.dir_write c' true h2 (fun _ => hc)] at this

/-- What a key is mapped to. -/
theorem keymap_spec (k : Text) : ∃ r, keymap I s (Key.parse k) = some r ∧
    ((Names r ∧ r.length = (asked k).length ∧ Best m (low (asked k)) (low r)) ∨
      ((∀ e, Covers e (low (asked k)) → ¬ There m e) ∧ r = Key.parse k)) := by
  obtain ⟨r, h1, h2⟩ := find_spec I s (room ((Spec.Split.join [slash] (asked k)).length * 2)) (asked k) [] (by
    have := need_room k
    simpa [pre] using this)
  have hb := cands_best (fun e => found I s ([] ++ e)) (There m) (asked k) (fun c hc => found_there I s m hr k c hc)
  unfold keymap
  rw [printable_parse, cut_join _ (asked_ne k) (asked_slash k)]
  simp only [pre, List.flatMap_nil] at h1
  rw [h1]
  simp only [numseg_zero]
  cases hf : (cands (asked k)).find? fun e => found I s ([] ++ e) with
  | none =>
    rw [hf] at h2 hb
    refine ⟨_, rfl, Or.inr ⟨hb, by rw [if_pos h2]⟩⟩
  | some c =>
    rw [hf] at h2 hb
    simp only at h2 hb
    obtain ⟨b1, b2, b3, b4⟩ := hb
    have ht := (found_there I s m hr k c b1).mp b2
    obtain ⟨c1, c2, c3⟩ := cands_asked k c b1
    have hn : Names c := by
      rcases c3 with c3 | ⟨c', c3, rfl⟩
      · exact c3
      · exact absurd (by simp [low]) ht.1
    have e : r = c := by rw [h2.1]; exact (parse_join c hn).1
    subst e
    refine ⟨r, by rw [if_neg c1], Or.inl ⟨hn, c2, b3, ht, b4⟩⟩

end

/-! The wildcards -/

theorem wild_low (x : Seg) : wild (x.map lower) = Key.segIswild x := by
  have h : ∀ c : UInt8, (lower c = 42 ↔ c = 42) ∧ (lower c = 46 ↔ c = 46) := by
    intro c
    exact forall_byte (p := fun c => (lower c = 42 ↔ c = 42) ∧ (lower c = 46 ↔ c = 46)) (by decide +kernel) c
  have e1 : ∀ x : Seg, (x.map lower = star) ↔ x = star := by
    intro x
    match x with
    | [] => simp [star]
    | [a] => simp [star, (h a).1]
    | _ :: _ :: _ => simp [star]
  have e2 : ∀ x : Seg, (x.map lower = dots) ↔ x = dots := by
    intro x
    match x with
    | [] => simp [dots]
    | [a] => simp [dots]
    | [a, b] => simp [dots]
    | [a, b, c] => simp [dots, (h a).2, (h b).2, (h c).2]
    | _ :: _ :: _ :: _ :: _ => simp [dots]
  rw [Bool.eq_iff_iff]
  simp only [wild, Key.segIswild, Bool.or_eq_true, beq_iff_eq, e1, e2]
  exact Iff.rfl

theorem last_snoc (d : Key) (x : Seg) (h : Names (d ++ [x])) : Key.last (d ++ [x]) 1 = [x] := by
  have := Key.range_mk (d ++ [x]) false h (by simp) ((d ++ [x]).length - 1) (d ++ [x]).length
  have e : mk (d ++ [x]) false = d ++ [x] := by simp [mk]
  rw [e] at this
  unfold Key.last Key.numsegments
  rw [this]
  simp only [List.length_append, List.length_singleton, Bool.false_and, mk, Bool.false_eq_true, if_false, List.append_nil]
  rw [show ((d.length + 1 : Nat) : Int).toNat = d.length + 1 by omega, show (((d.length + 1 : Nat) : Int) - 1).toNat = d.length by omega,
    List.take_of_length_le (by simp)]
  simp

theorem removelast_snoc (d : Key) (x : Seg) (h : Names (d ++ [x])) : Key.removelast (d ++ [x]) 1 = d :=
  Rec.removelast_one (fun n hn => h n (by simp [hn])) ⟨x, rfl, h x (by simp)⟩

theorem seek_nil (n : Nat) (loc : Int) : seek n [] loc = none := by
  cases n with
  | zero => rfl
  | succ n =>
    have h1 : Key.iswild (Key.last [] 1) = false := by decide
    have h2 : Key.isempty (Key.removelast [] 1) = true := by decide
    simp [seek, h1, h2]

theorem seek_snoc (d : Key) (x : Seg) (n : Nat) (loc : Int) (h : Names (d ++ [x])) :
    seek (n + 1) (d ++ [x]) loc = if wild (x.map lower) then some (d ++ [x], loc) else seek n d (loc - 1) := by
  rw [seek, last_snoc d x h, removelast_snoc d x h, wild_low]
  have : Key.iswild [x] = Key.segIswild x := by simp [Key.iswild]
  rw [this]
  cases hw : Key.segIswild x with
  | true => simp
  | false =>
    simp only [Bool.false_eq_true, if_false]
    cases d with
    | nil => simp [Key.isempty, seek_nil]
    | cons a d => simp [Key.isempty]

theorem seeks_zero (k : Key) (loc : Int) : seeks 0 k loc = some (k, loc) := rfl

theorem seeks_succ (n : Nat) (k : Key) (loc : Int) : seeks (n + 1) k loc =
    (seek ((Key.removelast k 1).length + 1) (Key.removelast k 1) (loc - 1)).bind fun x => seeks n x.1 x.2 := rfl

/-- The loops. -/
def full (n : Nat) (d : Key) (loc : Int) : Option Int :=
  (seek (d.length + 1) d loc).bind fun x => (seeks n x.1 x.2).map Prod.snd

theorem wilds_snoc (K : List Text) (d : Place) (y : Text) (x : Text) (h : K.length = d.length) :
    wilds (K ++ [y]) (d ++ [x]) = wilds K d ++ (if wild x then [y] else []) := by
  unfold wilds
  rw [List.zip_append h]
  simp only [List.filter_append, List.map_append, List.zip_cons_cons, List.zip_nil_right]
  cases hw : wild x <;> simp [hw]

theorem full_spec (len : Nat) : ∀ (d : Key) (K : List Text) (loc : Int) (n : Nat), d.length = len → K.length = d.length → Names d →
    match full n d loc with
    | none => (wilds K (low d)).reverse[n]? = none
    | some p => ∃ i : Nat, p = loc - d.length + i + 1 ∧ i < d.length ∧ ∃ y, K[i]? = some y ∧ (wilds K (low d)).reverse[n]? = some y := by
  induction len with
  | zero =>
    intro d K loc n hd hK hn
    have := List.length_eq_zero_iff.mp hd
    subst this
    simp [full, seek_nil, wilds, low]
  | succ len ih =>
    intro d K loc n hd hK hn
    rcases List.eq_nil_or_concat d with rfl | ⟨d', x, rfl⟩
    · simp at hd
    rcases List.eq_nil_or_concat K with rfl | ⟨K', y, rfl⟩
    · simp at hK
    simp only [List.concat_eq_append] at *
    have hd' : d'.length = len := by simpa using hd
    have hK' : K'.length = d'.length := by simpa using hK
    have hn' : Names d' := fun a ha => hn a (by simp [ha])
    have hw : wilds (K' ++ [y]) (low (d' ++ [x])) = wilds K' (low d') ++ (if wild (x.map lower) then [y] else []) := by
      rw [show low (d' ++ [x]) = low d' ++ [x.map lower] by simp [low]]
      exact wilds_snoc _ _ _ _ (by simp [low, hK'])
    have hlen : (d' ++ [x]).length = d'.length + 1 := by simp
    -- the recursion
    have hfull : ∀ q : Option Int, full n (d' ++ [x]) loc = (if wild (x.map lower) then (seeks n (d' ++ [x]) loc).map Prod.snd else full n d' (loc - 1)) := by
      intro _
      unfold full
      rw [hlen, seek_snoc d' x _ loc hn]
      cases wild (x.map lower) <;> simp
    rw [hfull none]
    have lift : ∀ n' : Nat, (wilds (K' ++ [y]) (low (d' ++ [x]))).reverse[n]? = (wilds K' (low d')).reverse[n']? →
        match full n' d' (loc - 1) with
        | none => (wilds (K' ++ [y]) (low (d' ++ [x]))).reverse[n]? = none
        | some p => ∃ i : Nat, p = loc - (d' ++ [x]).length + i + 1 ∧ i < (d' ++ [x]).length ∧
            ∃ z, (K' ++ [y])[i]? = some z ∧ (wilds (K' ++ [y]) (low (d' ++ [x]))).reverse[n]? = some z := by
      intro n' he
      have := ih d' K' (loc - 1) n' hd' hK' hn'
      rw [he]
      cases hf : full n' d' (loc - 1) with
      | none => rw [hf] at this; exact this
      | some p =>
        rw [hf] at this
        obtain ⟨i, hp, hi, z, hz, hz'⟩ := this
        refine ⟨i, by rw [hlen]; push_cast; omega, by omega, z, ?_, hz'⟩
        rw [List.getElem?_append_left (by omega)]; exact hz
    cases hx : wild (x.map lower) with
    | false =>
      simp only [Bool.false_eq_true, if_false]
      refine lift n ?_
      rw [hw, hx]; simp
    | true =>
      simp only [if_true]
      have hs : (seeks n (d' ++ [x]) loc).map Prod.snd = if n = 0 then some loc else full (n - 1) d' (loc - 1) := by
        clear lift hfull
        cases n with
        | zero => rw [seeks_zero]; rfl
        | succ n =>
          unfold full
          rw [seeks_succ, removelast_snoc d' x hn]
          cases seek (d'.length + 1) d' (loc - 1) <;> simp
      rw [hs]
      by_cases h0 : n = 0
      · rw [if_pos h0]
        dsimp only
        refine ⟨d'.length, by rw [hlen]; push_cast; omega, by omega, y, ?_, ?_⟩
        · rw [← hK']; simp
        · rw [hw, hx, h0]; simp
      · rw [if_neg h0]
        refine lift (n - 1) ?_
        rw [hw, hx]
        obtain ⟨n', rfl⟩ : ∃ n', n = n' + 1 := ⟨n - 1, by omega⟩
        simp

/-- One name of a key. -/
theorem seg_print (k : Text) (p : Int) (hp : -1 ≤ p) (hp' : p < (asked k).length) :
    Key.printable (Key.segment (Key.parse k) p) = if p = -1 then [] else (asked k)[p.toNat]?.getD [] := by
  unfold Key.segment
  rw [Key.parse_eq, Key.range_mk _ _ (Key.names_ok k) (Key.dir_names k)]
  by_cases h1 : p = -1
  · subst h1
    have : ¬ (((names k).length : Int) < 0) := by omega
    simp [mk, Key.printable, this]
  rw [if_neg h1]
  have h0 : 0 ≤ p := by omega
  obtain ⟨i, rfl⟩ := Int.eq_ofNat_of_zero_le h0
  have h3 : ((i : Int) + 1).toNat = i + 1 := by omega
  rw [h3, Int.toNat_natCast]
  by_cases h4 : i < (names k).length
  · have e1 : (List.drop i (List.take (i + 1) (names k))) = [(names k)[i]] := by
      rw [List.drop_take]
      simp only [Nat.add_sub_cancel_left]
      rw [List.drop_eq_getElem_cons h4]; rfl
    have e2 : (dir k && decide ((i : Int) < (names k).length ∧ ((names k).length : Int) < (i : Int) + 1)) = false := by
      simp; intro _ _; omega
    rw [e1, e2]
    have e3 : (asked k)[i]? = some (names k)[i] := by
      unfold asked
      split
      · rw [List.getElem?_append_left h4, List.getElem?_eq_getElem h4]
      · rw [List.getElem?_eq_getElem h4]
    rw [e3]; simp [mk, Key.printable]
  · have e1 : (List.drop i (List.take (i + 1) (names k))) = [] := by
      rw [List.drop_eq_nil_iff]; simp; omega
    have e2 : (dir k && decide ((i : Int) < (names k).length ∧ ((names k).length : Int) < (i : Int) + 1)) = false := by
      simp; intro _ _; omega
    rw [e1, e2]
    have e3 : (asked k)[i]? = some [] := by
      unfold asked at hp' ⊢
      split
      · rename_i hc
        rw [if_pos hc] at hp'
        have : i = (names k).length := by simp at hp'; omega
        subst this; simp
      · rename_i hc
        rw [if_neg hc] at hp'
        omega
    rw [e3]; simp [mk, Key.printable]

/-- The number of segments of a key. -/
theorem numsegments_parse (k : Text) : Key.numsegments (Key.parse k) = if names k = [] then 0 else ((asked k).length : Int) := by
  unfold Key.numsegments
  rw [Key.parse_eq, Key.mk_length]
  unfold asked
  by_cases h : names k = []
  · have : dir k = false := by
      cases h' : dir k with
      | false => rfl
      | true => exact absurd h (Key.dir_names k h')
    simp [h, this]
  · cases h' : dir k <;> simp [h]

/-- What is made of a value. -/
theorem replace_spec (k : Text) (r : Key) (hr : Names r) (hl : r.length = (asked k).length) (v : Text) :
    replacewildcard (Key.parse k) r (some v) =
      if v.length < 2 ∨ v.head? ≠ some (ch '*') then some (some v)
      else match Num.num v.tail with
        | none => none
        | some n =>
          if n = 0 then some (some v) else if n < 0 then some (asked k).getLast?
          else some (wilds (asked k) (low r)).reverse[n.toNat - 1]? := by
  unfold replacewildcard
  by_cases h1 : v.length < 2 ∨ v.head? ≠ some (ch '*')
  · simp only [h1, if_true]
  simp only [h1, if_false]
  cases hn : Num.num v.tail with
  | none => rfl
  | some n =>
    simp only
    by_cases h2 : n = 0
    · rw [if_pos h2, if_pos h2]
    rw [if_neg h2, if_neg h2]
    have hlen : 0 < (asked k).length := List.length_pos_iff.mpr (asked_ne k)
    have hks := numsegments_parse k
    have hroot : names k = [] → asked k = [[]] := by intro h; simp [asked, h]
    by_cases h3 : n < 0
    · have e0 : ∀ loc, locate n r loc = some loc := by
        intro loc; unfold locate; rw [show n.toNat = 0 by omega]
      rw [if_pos h3, e0]
      simp only
      rw [hks]
      by_cases h4 : names k = []
      · rw [if_pos h4, seg_print k _ (by omega) (by omega), hroot h4]; simp
      · rw [if_neg h4, seg_print k _ (by omega) (by omega), if_neg (by omega)]
        rw [show ((asked k).length - 1 : Int).toNat = (asked k).length - 1 by omega, ← List.getLast?_eq_getElem?]
        cases h5 : (asked k).getLast? with
        | none => simp [asked_ne k] at h5
        | some y => rfl
    · rw [if_neg h3]
      obtain ⟨n', hn'⟩ : ∃ n', n.toNat = n' + 1 := ⟨n.toNat - 1, by omega⟩
      have e : ∀ loc, locate n r loc = full n' r loc := by
        intro loc; unfold locate full; rw [hn']
      rw [hn', e]
      simp only [Nat.add_sub_cancel]
      have hf := full_spec r.length r (asked k) (Key.numsegments (Key.parse k)) n' rfl hl.symm hr
      cases hfu : full n' r (Key.numsegments (Key.parse k)) with
      | none => rw [hfu] at hf; simp only at hf; rw [hf]
      | some p =>
        rw [hfu] at hf
        obtain ⟨i, hp, hi, y, hy, hw⟩ := hf
        rw [hw]
        simp only
        by_cases h4 : names k = []
        · rw [hks, if_pos h4] at hp
          have h5 := hroot h4
          rw [h5] at hl hy
          simp only [List.length_singleton] at hl
          have : i = 0 := by omega
          subst this
          simp at hy
          rw [seg_print k _ (by omega) (by omega), if_pos (by omega), ← hy]
        · rw [hks, if_neg h4] at hp
          rw [seg_print k _ (by omega) (by omega), if_neg (by omega), show (p - 1).toNat = i by omega, hy]
          rfl

theorem covers_self (l : Place) : Covers l l := by
  induction l with
  | nil => trivial
  | cons a l ih => exact ⟨Or.inr rfl, ih⟩

theorem self_first (l : Place) : ∀ e, Covers e l → e = l ∨ Before l e l := by
  induction l with
  | nil => intro e h; cases e with
    | nil => exact Or.inl rfl
    | cons a e => exact absurd h (by simp [Covers])
  | cons n l ih =>
    intro e h
    cases e with
    | nil => exact absurd h (by simp [Covers])
    | cons a e =>
      by_cases ha : a = n
      · subst ha
        rcases ih e h.2 with rfl | hb
        · exact Or.inl rfl
        · exact Or.inr (Or.inl ⟨rfl, hb⟩)
      · exact Or.inr (Or.inr ⟨fun h => ha h.symm, rfl⟩)

end Dft
open Dft

section
variable {σ : Type} (I : IGen σ) (s : σ) (m : Spec.Conf.State) (hr : Reads I s m) (k : Text)

/-- The specification leaves no choice. -/
theorem C60_best_unique (K d e : Place) (h : Best m K d) (h' : Best m K e) : d = e := by
  have anti : ∀ (K d e : Place), Before d e K → Before e d K → False := by
    intro K
    induction K with
    | nil => intro d e h; cases d <;> cases e <;> exact absurd h (by simp [Before])
    | cons n K ih =>
      intro d e h h'
      cases d with
      | nil => exact absurd h (by simp [Before])
      | cons a d =>
        cases e with
        | nil => exact absurd h (by simp [Before])
        | cons b e =>
          rcases h with ⟨rfl, h⟩ | ⟨h1, rfl⟩
          · rcases h' with ⟨-, h'⟩ | ⟨h2, -⟩
            · exact ih d e h h'
            · exact h2 rfl
          · rcases h' with ⟨h3, -⟩ | ⟨h2, h3⟩
            · exact h1 h3.symm
            · exact h1 h3.symm
  rcases h.2.2 e h'.1 h'.2.1 with h1 | h1
  · exact h1.symm
  · rcases h'.2.2 d h.1 h.2.1 with h2 | h2
    · exact h2
    · exact absurd (anti K d e h1 h2) (by simp)

include hr

/-- Where something stands for the key there is a best of them. -/
theorem C60_best_exists (e : Place) (hc : Covers e (low (asked k))) (ht : There m e) : ∃ d, Best m (low (asked k)) d := by
  obtain ⟨r, -, ⟨-, -, h⟩ | ⟨h, -⟩⟩ := keymap_spec I s m hr k
  · exact ⟨_, h⟩
  · exact absurd ht (h e hc)

namespace Dft

theorem best_get (r : Key) (hn : Names r) (d : Place) (hd : low r = d) (hb : Best m (low (asked k)) d) :
    ∃ t : Text, Key.parse t = r ∧ place t = d ∧ dir t = false ∧ I.get s r = m d := by
  obtain ⟨p1, p2, p3⟩ := parse_join r hn
  refine ⟨_, p1, by rw [p2, hd], p3, ?_⟩
  have := hr.get (Spec.Split.join [slash] r)
  rw [p1] at this
  rw [this, Spec.Conf.get, p2, p3, hd]; rfl

/-- The mapped key, where there is a best. -/
theorem keymap_best (d : Place) (hb : Best m (low (asked k)) d) : ∃ r, DefGen.keymap I s (Key.parse k) = some r ∧ Names r ∧
    r.length = (asked k).length ∧ low r = d := by
  obtain ⟨r, h1, ⟨h2, h3, h4⟩ | ⟨h, -⟩⟩ := keymap_spec I s m hr k
  · exact ⟨r, h1, h2, h3, C60_best_unique m _ _ _ h4 hb⟩
  · exact absurd hb.2.1 (h d hb.1)

end Dft

/-- C60: a value that is not a reference is read where its key is, or where its key has stars for some of the names, at the place that
    answers for the key. -/
theorem C60_get_plain (d : Place) (hb : Best m (low (asked k)) d) (v : Text) (hv : m d = some v)
    (hp : v.length < 2 ∨ v.head? ≠ some (ch '*') ∨ Num.num v.tail = some 0) : DefGen.get I s (Key.parse k) = some (some v) := by
  obtain ⟨r, h1, h2, h3, h4⟩ := keymap_best I s m hr k d hb
  obtain ⟨-, -, -, -, hg⟩ := best_get I s m hr k r h2 d h4 hb
  simp only [DefGen.get, h1]
  rw [hg, hv, replace_spec k r h2 h3]
  by_cases h5 : v.length < 2 ∨ v.head? ≠ some (ch '*')
  · rw [if_pos h5]
  · rw [if_neg h5]
    simp only [not_or] at h5
    rcases hp with hp | hp | hp
    · exact absurd hp h5.1
    · exact absurd hp h5.2
    · rw [hp]; simp

/-- C60: where the value is `*n`, the answer is the name in the key that the n-th star from the end stands for; nothing if there are less. -/
theorem C60_get_reference (d : Place) (hb : Best m (low (asked k)) d) (t : Text) (hv : m d = some (ch '*' :: t)) (n : Int)
    (hn : Num.num t = some n) (hp : 0 < n) : DefGen.get I s (Key.parse k) = some (wilds (asked k) d).reverse[n.toNat - 1]? := by
  obtain ⟨r, h1, h2, h3, h4⟩ := keymap_best I s m hr k d hb
  obtain ⟨-, -, -, -, hg⟩ := best_get I s m hr k r h2 d h4 hb
  have ht : t ≠ [] := by
    intro e; subst e
    have : Num.num [] = some 0 := by decide
    rw [this] at hn; cases hn; omega
  simp only [DefGen.get, h1]
  rw [hg, hv, replace_spec k r h2 h3, if_neg (by
    have := List.length_pos_iff.mpr ht
    simp; omega)]
  simp only [List.tail_cons, hn]
  rw [if_neg (by omega), if_neg (by omega), h4]

/-- C60: with the number in decimal digits. -/
theorem C60_get_decimal (d : Place) (hb : Best m (low (asked k)) d) (n : Nat) (hn : 0 < n) (hn' : n < 2 ^ 31)
    (hv : m d = some (ch '*' :: Spec.Num.decimal n)) :
    DefGen.get I s (Key.parse k) = some (wilds (asked k) d).reverse[n - 1]? := by
  have := C60_get_reference I s m hr k d hb _ hv n (C32_num n (by constructor <;> simp <;> omega)) (by omega)
  simpa using this

/-- C60: where no place stands for the key the answer is null, but for the root. -/
theorem C60_get_none (h : ∀ e, Covers e (low (asked k)) → ¬ There m e) (hk : place k ≠ []) : DefGen.get I s (Key.parse k) = some none := by
  obtain ⟨r, h1, ⟨-, -, h4⟩ | ⟨-, rfl⟩⟩ := keymap_spec I s m hr k
  · exact absurd h4.2.1 (h _ h4.1)
  · simp only [DefGen.get, h1]
    have : I.get s (Key.parse k) = none := by
      rw [hr.get k, Spec.Conf.get]
      cases hd : dir k with
      | true => rfl
      | false =>
        have hn : names k ≠ [] := by intro e; exact hk (by simp [place, e])
        have ha : asked k = names k := by simp [asked, hd, hn]
        have hp : place k = low (asked k) := by rw [ha]; rfl
        have := h (low (asked k)) (covers_self _)
        rw [There] at this
        have hno : [] ∉ low (asked k) := by rw [ha]; exact low_names _ (Key.names_ok k)
        cases hm : m (place k) with
        | none => simp
        | some v => exact absurd ⟨hno, by rw [← hp, hm]; simp⟩ this
    rw [this]; rfl

/-- C60: where no place stands for the root its own value is the answer, unless that is a reference. -/
theorem C60_get_root (h : ∀ e, Covers e (low (asked k)) → ¬ There m e) (hk : place k = [])
    (hp : ∀ v, m [] = some v → v.length < 2 ∨ v.head? ≠ some (ch '*') ∨ Num.num v.tail = some 0) :
    DefGen.get I s (Key.parse k) = some (m []) := by
  obtain ⟨r, h1, ⟨-, -, h4⟩ | ⟨-, rfl⟩⟩ := keymap_spec I s m hr k
  · exact absurd h4.2.1 (h _ h4.1)
  · have hn : names k = [] := by simpa [place] using hk
    have hd : dir k = false := by
      cases h' : dir k with
      | false => rfl
      | true => exact absurd hn (Key.dir_names k h')
    simp only [DefGen.get, h1]
    rw [hr.get k, Spec.Conf.get, hd, hk]
    simp only [Bool.false_eq_true, if_false]
    cases hm : m [] with
    | none => rfl
    | some v =>
      unfold DefGen.replacewildcard
      rcases hp v hm with h5 | h5 | h5
      · simp [h5]
      · simp [h5]
      · simp only [h5, if_true]; split <;> rfl

/-- C60: a key exists if and only if a place stands for it. -/
theorem C60_exists (hk : place k ≠ []) : ∃ b, DefGen.exists I s (Key.parse k) = some b ∧
    (b = true ↔ ∃ e, Covers e (low (asked k)) ∧ There m e) := by
  obtain ⟨r, h1, ⟨h2, h3, h4⟩ | ⟨h, rfl⟩⟩ := keymap_spec I s m hr k
  · obtain ⟨t, p1, p2, p3, -⟩ := best_get I s m hr k r h2 _ rfl h4
    refine ⟨I.exists s r, by simp [DefGen.exists, h1], ?_⟩
    rw [← p1, hr.exists_ t, Spec.Conf.get, p2, p3]
    exact ⟨fun _ => ⟨_, h4.1, h4.2.1⟩, fun _ => h4.2.1.2⟩
  · refine ⟨_, by simp only [DefGen.exists, h1]; rfl, ?_⟩
    have hg := C60_get_none I s m hr k h hk
    simp only [DefGen.get, h1] at hg
    rw [hr.exists_ k, ← hr.get k]
    constructor
    · intro hne
      exfalso
      cases hgk : I.get s (Key.parse k) with
      | none => exact hne hgk
      | some v =>
        -- the key itself would stand for it
        have hd : dir k = false := by
          cases hd : dir k with
          | false => rfl
          | true => rw [hr.get k, Spec.Conf.get, hd] at hgk; simp at hgk
        have hn : names k ≠ [] := by intro e; exact hk (by simp [place, e])
        have ha : asked k = names k := by simp [asked, hd, hn]
        refine h (low (asked k)) (covers_self _) ⟨by rw [ha]; exact low_names _ (Key.names_ok k), ?_⟩
        rw [hr.get k, Spec.Conf.get, hd] at hgk
        have : m (place k) = some v := by simpa using hgk
        rw [ha]
        show m (place k) ≠ none
        rw [this]; simp
    · rintro ⟨e, h5, h6⟩; exact absurd h6 (h e h5)

/-- C60: it has children if the place that answers for it has. -/
theorem C60_haschildren (d : Place) (hb : Best m (low (asked k)) d) : ∃ b, DefGen.haschildren I s (Key.parse k) = some b ∧
    (b = true ↔ ∃ n, m (d ++ [n]) ≠ none) := by
  obtain ⟨r, h1, h2, h3, h4⟩ := keymap_best I s m hr k d hb
  obtain ⟨t, p1, p2, p3, -⟩ := best_get I s m hr k r h2 _ h4 hb
  refine ⟨I.haschildren s r, by simp [DefGen.haschildren, h1], ?_⟩
  rw [← p1, hr.haschildren t, p2]

/-- C60: an iterator shows what is below the place that answers for the key. -/
theorem C60_iterator (d : Place) (hb : Best m (low (asked k)) d) : ∃ o, DefGen.iterator I s (Key.parse k) = some o ∧
    match o with
    | none => ∀ q, m (d ++ q) = none
    | some r => (r.map fun x => fold x.1).Nodup ∧ ∀ n v, m (d ++ [n]) = some v ↔ ∃ x ∈ r, fold x.1 = [n] ∧ x.2 = some v := by
  obtain ⟨r, h1, h2, h3, h4⟩ := keymap_best I s m hr k d hb
  obtain ⟨t, p1, p2, p3, -⟩ := best_get I s m hr k r h2 _ h4 hb
  refine ⟨I.iterator s r, by simp [DefGen.iterator, h1], ?_⟩
  have := hr.iterator t
  rw [p1, p2] at this
  cases hi : I.iterator s r with
  | none => rw [hi] at this; exact this
  | some l => rw [hi] at this; exact ⟨this.1, this.2.2⟩

/-- C60: the calls write no byte outside the strings they use; `get` is undefined only where the value is a star and a number that is not an
    int. -/
theorem C60_defined : (∃ b, DefGen.exists I s (Key.parse k) = some b) ∧ (∃ b, DefGen.haschildren I s (Key.parse k) = some b) ∧
    (∃ o, DefGen.iterator I s (Key.parse k) = some o) ∧
    ((∀ q v t, m q = some v → v = ch '*' :: t → Num.num t ≠ none) → ∃ o, DefGen.get I s (Key.parse k) = some o) := by
  obtain ⟨r, h1, hor⟩ := keymap_spec I s m hr k
  refine ⟨⟨_, by simp only [DefGen.exists, h1]; rfl⟩, ⟨_, by simp only [DefGen.haschildren, h1]; rfl⟩,
    ⟨_, by simp only [DefGen.iterator, h1]; rfl⟩, ?_⟩
  intro hnum
  simp only [DefGen.get, h1]
  have hget : ∃ q, ∀ v, I.get s r = some v → m q = some v := by
    rcases hor with ⟨h2, h3, h4⟩ | ⟨h, rfl⟩
    · obtain ⟨-, -, -, -, hg⟩ := best_get I s m hr k r h2 _ rfl h4
      exact ⟨_, fun v hv => by rw [← hg]; exact hv⟩
    · refine ⟨place k, fun v hv => ?_⟩
      rw [hr.get k, Spec.Conf.get] at hv
      cases hd : dir k with
      | true => rw [hd] at hv; simp at hv
      | false => rw [hd] at hv; simpa using hv
  obtain ⟨q, hq⟩ := hget
  cases hg : I.get s r with
  | none => exact ⟨_, rfl⟩
  | some v =>
    unfold DefGen.replacewildcard
    by_cases h5 : v.length < 2 ∨ v.head? ≠ some (ch '*')
    · simp only [h5, if_true]; exact ⟨_, rfl⟩
    · simp only [h5, if_false]
      simp only [not_or, Decidable.not_not] at h5
      have hv : v = ch '*' :: v.tail := by
        cases v with
        | nil => simp at h5
        | cons a v => simp at h5 ⊢; exact h5.2
      cases hn : Num.num v.tail with
      | none => exact absurd hn (hnum q v v.tail (hq v hg) hv)
      | some n =>
        simp only
        split
        · exact ⟨_, rfl⟩
        · split
          · exact ⟨_, rfl⟩
          · exact ⟨_, rfl⟩

end

/-- C60: a key's own value goes before defaults: what was set is read, unless it is a reference. -/
theorem C60_set_get {σ : Type} (I : IGen σ) (Rep : σ → Spec.Conf.State → Prop) (hI : Behaves I Rep) (s : σ) (m : Spec.Conf.State) (hs : Rep s m)
    (k : Text) (hk : place k ≠ []) (hd : dir k = false) (v : Text)
    (hp : v.length < 2 ∨ v.head? ≠ some (ch '*') ∨ Num.num v.tail = some 0) :
    DefGen.get I (DefGen.set I s (Key.parse k) (some v)) (Key.parse k) = some (some v) := by
  have hn : names k ≠ [] := by intro e; exact hk (by simp [place, e])
  have ha : asked k = names k := by simp [asked, hd, hn]
  have hm : Spec.Conf.set m k (some v) (place k) = some v := by simp [Spec.Conf.set, hd]
  refine C60_get_plain I _ _ (hI.reads _ _ (hI.set s m hs k (some v))) k (place k) ?_ v hm hp
  rw [ha]
  refine ⟨covers_self _, ⟨low_names _ (Key.names_ok k), by rw [hm]; simp⟩, ?_⟩
  intro e he _
  exact self_first _ e he

namespace Dft

/-- A generator in memory after some calls of `set`. -/
def mem (l : List (Text × Text)) : TempGen.Gen := l.foldl (fun g x => (TempGen.set id g (Key.parse x.1) (some x.2)).1) TempGen.new

/-- `users/*`. -/
def users : Text := str ['u', 's', 'e', 'r', 's', '/', '*']
/-- `Users/Bob`. -/
def bob : Text := str ['U', 's', 'e', 'r', 's', '/', 'B', 'o', 'b']

end Dft

/-- A default meets the hypotheses. -/
example : ∃ m : Spec.Conf.State, Reads (IGen.temp id) (mem [(users, str ['*', '1'])]) m ∧ Best m (low (asked bob)) (place users) ∧
    place users ≠ place bob ∧ m (place users) = some (ch '*' :: Spec.Num.decimal 1) ∧ (wilds (asked bob) (place users)).reverse[1 - 1]? = some (str ['B', 'o', 'b']) := by
  have hI := temp_behaves id fun _ => List.Perm.refl _
  have hs := hI.set TempGen.new Spec.Conf.empty Temp.new_holds users (some (str ['*', '1']))
  have hm : ∀ q, Spec.Conf.set Spec.Conf.empty users (some (str ['*', '1'])) q =
      if q = place users then some (str ['*', '1']) else if q <+: place users then some [] else none := by
    intro q
    have : dir users = false := by decide +kernel
    simp [Spec.Conf.set, this, Spec.Conf.empty]
  have hp : place users = [str ['u', 's', 'e', 'r', 's'], star] := by decide +kernel
  have ha : low (asked bob) = [str ['u', 's', 'e', 'r', 's'], str ['b', 'o', 'b']] := by decide +kernel
  refine ⟨_, hI.reads _ _ hs, ⟨?_, ⟨?_, ?_⟩, ?_⟩, ?_, ?_, ?_⟩
  · rw [hp, ha]; exact ⟨Or.inr rfl, Or.inl rfl, trivial⟩
  · rw [hp]; decide
  · rw [hm]; simp
  · intro e he ht
    refine Or.inl ?_
    rw [ha] at he
    match e, he with
    | [a, b], _ =>
      have := ht.2
      rw [hm] at this
      by_cases h1 : [a, b] = place users
      · exact h1
      · rw [if_neg h1] at this
        by_cases h2 : [a, b] <+: place users
        · exact h2.eq_of_length (by rw [hp]; rfl)
        · rw [if_neg h2] at this; exact absurd rfl this
  · rw [hp]; decide +kernel
  · rw [hm, if_pos rfl]; decide +kernel
  · rw [hp]; decide +kernel

/-- The examples of the header: a reference, the second star from the end, a key of its own. -/
example :
    let g := mem [(str ['t', '/', '*', '/', '*', '/', 'r'], str ['*', '1']), (str ['t', '/', '*', '/', '*', '/', 's'], str ['*', '2']),
      (str ['t', '/', 'e', '/', 'b', '/', 's'], str ['x'])]
    [DefGen.get (IGen.temp id) g (Key.parse (str ['t', '/', 'e', '/', 'b', '/', 'r'])),
      DefGen.get (IGen.temp id) g (Key.parse (str ['t', '/', 'e', '/', 'c', '/', 's'])),
      DefGen.get (IGen.temp id) g (Key.parse (str ['t', '/', 'e', '/', 'b', '/', 's'])),
      DefGen.get (IGen.temp id) g (Key.parse (str ['u', '/', 'e', '/', 'b', '/', 's']))] =
    [some (some (str ['b'])), some (some (str ['e'])), some (some (str ['x'])), some none] := by decide +kernel

/-- The value of the root is hidden by a default for the names below it. -/
theorem C60_root_hidden : ∃ (v w : Text) (g : TempGen.Gen), v ≠ w ∧ g = mem [([], v), (star, w)] ∧ (IGen.temp id).get g (Key.parse []) = some v ∧
    DefGen.get (IGen.temp id) g (Key.parse []) = some (some w) :=
  ⟨str ['1'], str ['2'], _, by decide, rfl, by decide +kernel, by decide +kernel⟩

/-- A path with a slash at its end is answered by a default for the names below it. -/
theorem C60_slash_answered : ∃ (k v : Text) (g : TempGen.Gen), g = mem [(k ++ str ['/', '*'], v)] ∧ v ≠ [] ∧
    DefGen.get (IGen.temp id) g (Key.parse (k ++ [slash])) = some (some v) :=
  ⟨str ['a'], str ['1'], _, rfl, by decide, by decide +kernel⟩

/-- A value that looks like a reference is lost: it is set, the key exists, and reading it gives null. -/
theorem C60_reference_lost : ∃ (k v : Text) (g : TempGen.Gen), g = DefGen.set (IGen.temp id) TempGen.new (Key.parse k) (some v) ∧
    DefGen.exists (IGen.temp id) g (Key.parse k) = some true ∧ DefGen.get (IGen.temp id) g (Key.parse k) = some none :=
  ⟨str ['a'], str ['*', '1'], _, rfl, by decide +kernel, by decide +kernel⟩

/-- A number that is not an int is given to `atoi`, which is undefined. -/
theorem C60_number_undefined : ∃ (k v : Text) (g : TempGen.Gen), g = mem [(k, v)] ∧ DefGen.get (IGen.temp id) g (Key.parse k) = none :=
  ⟨str ['a'], str ['*', '2', '1', '4', '7', '4', '8', '3', '6', '4', '8'], _, rfl, by decide +kernel⟩

end Props
