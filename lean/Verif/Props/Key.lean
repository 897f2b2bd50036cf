import Verif.Lemmas.KeyOrder
/-
C19, C20, C21: UniConf keys, in terms of paths written as texts (`Spec.Path`).
-/
namespace Props
open Wv Wv.Key Spec.Path

/-- The keys that can be made, except by appending to a key with a slash at its end (see `C19_append_fails`). -/
inductive Built : Key → Prop
  | parse (s) : Built (parse s)
  | join {a b} : Built a → Built b → Built (join a b)
  | append {a b} : Built a → hastrailingslash a = false → Built b → Built (Key.append a b)
  | prepend {a b} : Built a → Built b → Built (prepend a b)
  | range {a} (i j) : Built a → Built (range a i j)
  | popped {a} (n) : Built a → Built (pop a n).1
  | pop {a} (n) : Built a → Built (pop a n).2

theorem range_ok (k : Key) (h : Ok k) (i j : Int) : Ok (range k i j) := by
  obtain ⟨ns, d, h1, h2, rfl⟩ := h
  rw [range_mk ns d h1 h2]
  refine ⟨_, _, (h1.take _).drop _, ?_, rfl⟩
  intro h he
  simp only [Bool.and_eq_true, decide_eq_true_eq] at h
  rw [List.take_of_length_le (by omega)] at he
  have := List.length_pos_iff.mpr (h2 h.1)
  have h5 := congrArg List.length he
  simp at h5; omega

theorem join_ok (a b : Key) (ha : Ok a) (hb : Ok b) : Ok (join a b) := by
  obtain ⟨as, d, h1, h2, rfl⟩ := ha
  obtain ⟨bs, e, h3, h4, rfl⟩ := hb
  rw [join_mk as bs d e h1 h3 h4]
  refine ⟨_, _, h1.append h3, ?_, rfl⟩
  intro h he
  rw [he] at h; simp at h

theorem append_eq_join (a b : Key) (ha : Ok a) (ht : hastrailingslash a = false) : Key.append a b = join a b := by
  obtain ⟨as, d, h1, h2, rfl⟩ := ha
  rw [trailing_mk as d h1] at ht
  subst ht
  unfold Key.append join
  rw [filter_mk as false h1]
  simp [mk]

theorem prepend_eq (a b : Key) (ha : Ok a) (hb : Ok b) : prepend a b =
    if a = [] then range b 0 (if hastrailingslash b then numsegments b - 1 else numsegments b) else join b a := by
  obtain ⟨as, d, h1, h2, rfl⟩ := ha
  obtain ⟨bs, e, h3, h4, rfl⟩ := hb
  unfold prepend
  rw [filter_mk bs e h3, numsegs_mk bs e h3]
  by_cases h : mk as d = []
  · rw [if_pos h, h, List.append_nil]
    have := first_mk bs e h3 h4 bs.length (Nat.le_refl _)
    unfold first at this
    rw [this, List.take_length]
    have e1 : bs = mk bs false := by simp [mk]
    rw [e1, collapse_mk bs false h3]; rfl
  · rw [if_neg h, join_mk bs as e d h3 h1 h2]
    have : bs ++ mk as d = mk (bs ++ as) d := by simp [mk]
    rw [this, collapse_mk _ _ (h3.append h1)]
    have hne : as ≠ [] := by
      rintro rfl
      cases d
      · exact h rfl
      · exact h2 rfl rfl
    cases as with
    | nil => exact absurd rfl hne
    | cons => simp

theorem pop_eq (k : Key) (h : Ok k) (n : Int) : pop k n = (first k n, removefirst k n) := by
  have e0 : collapse k = k := by
    obtain ⟨ns, d, h1, h2, rfl⟩ := h
    rw [collapse_mk ns d h1]
    cases d
    · simp
    · have := h2 rfl; cases ns <;> simp at this ⊢
  unfold pop first removefirst Key.range numsegments
  have hl : (0 : Int) ≤ k.length := by omega
  by_cases h0 : n = 0
  · subst h0
    have h1 : ¬ ((0 : Int) > k.length) := by omega
    have h2 : ¬ ((k.length : Int) < 0) := by omega
    simp [h1, h2, e0]
    simp [collapse]
  · rw [if_neg h0]
    dsimp only
    by_cases h1 : n > k.length
    · have h2 : ¬ ((k.length : Int) < 0) := by omega
      have h3 : ¬ (n < 0) := by omega
      have h4 : (k.length : Int) < n := by omega
      simp only [h1, h2, h3, h4, if_true, if_false, Int.lt_irrefl, Int.toNat_natCast, List.take_length, List.drop_length]
      simp
    · have h5 : ¬ ((k.length : Int) < 0) := by omega
      have h6 : ¬ ((k.length : Int) > k.length) := by omega
      by_cases h3 : n < 0
      · simp [h1, h3, h5, e0]
      · have h7 : ¬ ((k.length : Int) < n) := by omega
        simp [h1, h3, h7]

theorem built_ok (k : Key) (h : Built k) : Ok k := by
  induction h with
  | parse s => exact parse_ok s
  | join _ _ ha hb => exact join_ok _ _ ha hb
  | append _ ht _ ha hb => rw [append_eq_join _ _ ha ht]; exact join_ok _ _ ha hb
  | prepend _ _ ha hb =>
    rw [prepend_eq _ _ ha hb]
    split
    · exact range_ok _ hb _ _
    · exact join_ok _ _ hb ha
  | range i j _ ha => exact range_ok _ ha i j
  | popped n _ ha => rw [pop_eq _ ha]; exact range_ok _ ha _ _
  | pop n _ ha => rw [pop_eq _ ha]; exact range_ok _ ha _ _

/-- C19: parsing the printable form of any key gives the key. -/
theorem C19_parse_printable (k : Key) (h : Built k) : parse (printable k) = k := ok_parse k (built_ok k h)

/-- C19: the printable form of a key is the path it was made from, without superfluous slashes. -/
theorem C19_printable (s : List Byte) : printable (parse s) = write (names s) (dir s) := by
  rw [parse_eq, printable_mk _ _ (dir_names s)]

/-- C19: texts give the same key exactly if they have the same names and both or none have a slash at the end. -/
theorem C19_parse_same (s t : List Byte) : parse s = parse t ↔ names s = names t ∧ dir s = dir t := by
  rw [parse_eq, parse_eq]
  constructor
  · exact mk_inj _ _ _ _ (names_ok s) (names_ok t) (dir_names s) (dir_names t)
  · rintro ⟨h1, h2⟩; rw [h1, h2]

/-- C19: joining keys is joining their texts with a slash. -/
theorem C19_join_text (s t : List Byte) : join (parse s) (parse t) = parse (s ++ slash :: t) := by
  rw [parse_eq s, parse_eq t, parse_eq, join_mk _ _ _ _ (names_ok s) (names_ok t) (dir_names t), names_append]
  congr 1
  unfold dir
  rw [names_append, List.getLast?_append, List.getLast?_cons]
  cases ht : names t with
  | cons n l =>
    cases hl : t.getLast? with
    | none => simp at hl; subst hl; simp [names_nil] at ht
    | some c => simp [Bool.and_comm]
  | nil =>
    have : t.getLast?.getD slash = slash := by
      cases hl : t.getLast? with
      | none => rfl
      | some c =>
        simp only [Option.getD_some]
        refine Decidable.byContradiction fun hc => ?_
        have hne : t ≠ [] := by rintro rfl; simp at hl
        have h1 : t = t.dropLast ++ [c] := by
          rw [List.getLast?_eq_some_getLast hne, Option.some.injEq] at hl
          rw [← hl, List.dropLast_concat_getLast]
        have hmem : ∃ n ∈ names t, True := by
          have : names ([slash] ++ t) = names t := by
            have := names_append [] t
            simpa [names_nil] using this
          -- the last piece is not empty
          suffices hs : ∀ u : List Byte, names (u ++ [c]) ≠ [] by
            rw [h1]
            obtain ⟨n, l, h⟩ := List.exists_cons_of_ne_nil (hs t.dropLast)
            exact ⟨n, by rw [h]; simp, trivial⟩
          intro u
          induction u with
          | nil => rw [List.nil_append, names_one [c] (by simpa using fun h => hc h.symm)]; simp
          | cons x u ih =>
            by_cases hx : x = slash
            · subst hx
              have := names_append [] (u ++ [c])
              simp only [List.nil_append, names_nil] at this
              rw [List.cons_append, this]; exact ih
            · intro h0
              unfold names Spec.Split.words at h0
              rw [List.cons_append, Props.pieces_cons, if_neg (by simpa using hx)] at h0
              simp at h0
        obtain ⟨n, hn, -⟩ := hmem
        rw [ht] at hn; simp at hn
    simp [this]

/-- C19: joining is associative. -/
theorem C19_join_assoc (a b c : Key) (ha : Built a) (hb : Built b) (hc : Built c) : join (join a b) c = join a (join b c) := by
  rw [← C19_parse_printable a ha, ← C19_parse_printable b hb, ← C19_parse_printable c hc]
  simp only [C19_join_text, List.append_assoc, List.cons_append]

/-- C19: the empty key is a unit on the left; on the right it adds a slash at the end. -/
theorem C19_join_empty (k : Key) (hk : Built k) : join [] k = k ∧ join k [] = parse (printable k ++ [slash]) := by
  have h := C19_parse_printable k hk
  constructor
  · have h1 := C19_join_text [] (printable k)
    rw [h] at h1
    have e : parse [] = [] := rfl
    rw [e] at h1
    rw [h1, List.nil_append]
    refine Eq.trans ?_ h
    rw [C19_parse_same]
    have e2 : names (slash :: printable k) = names (printable k) := by
      have := names_append [] (printable k); simpa [names_nil] using this
    refine ⟨e2, ?_⟩
    unfold dir
    rw [e2]
    cases hp : printable k with
    | nil => simp [names_nil]
    | cons c l => simp
  · have h1 := C19_join_text (printable k) []
    rw [h] at h1
    exact h1

/-- C19: so the empty key is no unit on the right. -/
theorem C19_join_right_unit_fails : ¬ ∀ k, Built k → join k [] = k := by
  intro h
  exact absurd (h _ (Built.parse (str ['a']))) (by rw [parse_eq]; decide +kernel)

/-- C19: a range of a key consists of the names in the range, and has a slash at the end if the key has one and the range goes
    beyond the names. -/
theorem C19_range (s : List Byte) (i j : Int) : range (parse s) i j = parse (write (slice s i j).1 (slice s i j).2) := by
  rw [parse_eq s, range_mk _ _ (names_ok s) (dir_names s)]
  have h1 : Names (slice s i j).1 := ((names_ok s).take _).drop _
  rw [parse_write _ _ h1]
  · unfold slice; simp
  · intro h he
    simp only [slice, decide_eq_true_eq] at h he
    rw [List.take_of_length_le (by omega)] at he
    have := congrArg List.length he
    have h5 := List.length_pos_iff.mpr (dir_names s h.1)
    simp at this
    omega

/-- C19: two adjacent ranges joined are the whole range. -/
theorem C19_range_join (k : Key) (hk : Built k) (i j m : Int) (hi : 0 ≤ i) (hij : i ≤ j) (hjm : j < m) (hj : j < numsegments k) :
    join (range k i j) (range k j m) = range k i m := by
  obtain ⟨ns, d, h1, h2, rfl⟩ := built_ok k hk
  rw [range_mk ns d h1 h2, range_mk ns d h1 h2, range_mk ns d h1 h2]
  have hl := mk_length ns d
  unfold numsegments at hj
  have hfin : ∀ a b : Int, (d && decide (a < (ns.length : Int) ∧ (ns.length : Int) < b)) = true → (ns.take b.toNat).drop a.toNat ≠ [] := by
    intro a b h he
    simp only [Bool.and_eq_true, decide_eq_true_eq] at h
    rw [List.take_of_length_le (by omega)] at he
    have h5 := congrArg List.length he
    have := List.length_pos_iff.mpr (h2 h.1)
    simp at h5; omega
  rw [join_mk _ _ _ _ ((h1.take _).drop _) ((h1.take _).drop _) (hfin j m)]
  have e1 : (ns.take j.toNat).drop i.toNat ++ (ns.take m.toNat).drop j.toNat = (ns.take m.toNat).drop i.toNat := by
    have : ns.take j.toNat = (ns.take m.toNat).take j.toNat := by rw [List.take_take]; congr 1; omega
    rw [this]
    generalize ns.take m.toNat = l
    have h3 : l.drop j.toNat = (l.drop i.toNat).drop (j.toNat - i.toNat) := by rw [List.drop_drop]; congr 1; omega
    rw [List.drop_take, h3, List.take_append_drop]
  rw [e1]
  congr 1
  have l1 : ((ns.take m.toNat).drop j.toNat).isEmpty = decide ((ns.length : Int) ≤ j) := by
    rw [Bool.eq_iff_iff, List.isEmpty_iff, ← List.length_eq_zero_iff]
    simp; omega
  have l2 : ((ns.take m.toNat).drop i.toNat).isEmpty = decide ((ns.length : Int) ≤ i) := by
    rw [Bool.eq_iff_iff, List.isEmpty_iff, ← List.length_eq_zero_iff]
    simp; omega
  rw [l1, l2]
  cases d
  · simp at hl ⊢; omega
  · simp only [if_true] at hl
    rw [Bool.eq_iff_iff]
    simp
    omega

/-- C19: the first n segments joined with the rest are the key, if there is a rest. -/
theorem C19_first_removefirst (k : Key) (hk : Built k) (n : Int) (hn : n < numsegments k) : join (first k n) (removefirst k n) = k := by
  have hall : range k 0 (numsegments k) = k := by
    obtain ⟨ns, d, h1, h2, rfl⟩ := built_ok k hk
    have := removefirst_mk ns d h1 h2 0
    unfold removefirst at this
    rw [show ((0 : Nat) : Int) = 0 from rfl] at this
    rw [this]
    cases d
    · rfl
    · have := List.length_pos_iff.mpr (h2 rfl); simp [this]
  rcases Int.lt_or_le n 0 with h | h
  · have e1 : first k n = [] := by
      obtain ⟨ns, d, h1, h2, rfl⟩ := built_ok k hk
      unfold first
      rw [range_mk ns d h1 h2]
      have : ¬ ((ns.length : Int) < n) := by omega
      have h0 : n.toNat = 0 := by omega
      simp [this, h0, mk]
    have e2 : removefirst k n = k := by
      refine Eq.trans ?_ hall
      obtain ⟨ns, d, h1, h2, rfl⟩ := built_ok k hk
      unfold removefirst
      rw [range_mk ns d h1 h2, range_mk ns d h1 h2]
      have h0 : n.toNat = 0 := by omega
      rw [h0]
      cases d
      · rfl
      · have := List.length_pos_iff.mpr (h2 rfl)
        congr 2
        apply decide_eq_decide.mpr
        omega
    rw [e1, e2, (C19_join_empty k hk).1]
  · have := C19_range_join k hk 0 n (numsegments k) (Int.le_refl _) h hn hn
    rw [hall] at this
    exact this

/-- C19: all but the last n segments joined with the last n are the key, if n is at least 1. -/
theorem C19_removelast_last (k : Key) (hk : Built k) (n : Int) (hn : 0 < n) : join (removelast k n) (last k n) = k :=
  C19_first_removefirst k hk (numsegments k - n) (by omega)

/-- C19: `pop` returns the first n segments and leaves the rest. -/
theorem C19_pop (k : Key) (hk : Built k) (n : Int) : pop k n = (first k n, removefirst k n) := pop_eq k (built_ok k hk) n

/-- C19: `append` to a key without a slash at its end is joining; so is `prepend` to a key that is not empty; an empty key
    becomes the key prepended, without its slash. -/
theorem C19_append_prepend (a b : Key) (ha : Built a) (hb : Built b) :
    (hastrailingslash a = false → Key.append a b = join a b) ∧ (a ≠ [] → prepend a b = join b a) ∧
      (prepend [] b = range b 0 (if hastrailingslash b then numsegments b - 1 else numsegments b)) := by
  refine ⟨append_eq_join a b (built_ok a ha), fun h => ?_, ?_⟩
  · rw [prepend_eq a b (built_ok a ha) (built_ok b hb), if_neg h]
  · rw [prepend_eq [] b (parse_ok []) (built_ok b hb), if_pos rfl]

/-- C19: appending to a key with a slash at its end leaves an empty segment inside, and the key is not the one its printable
    form stands for: "a/" with "b" appended is printed "a//b". -/
theorem C19_append_fails : ¬ ∀ a b, Built a → Built b → parse (printable (Key.append a b)) = Key.append a b := by
  intro h
  have := h _ _ (Built.parse (str ['a', '/'])) (Built.parse (str ['b']))
  rw [parse_eq, parse_eq, parse_eq] at this
  exact absurd this (by decide +kernel)

/-- C19: the number of segments of a key joined from a key without a slash at its end and one that is not empty is the sum. -/
theorem C19_numsegments_partial (a b : Key) (ha : Built a) (hb : Built b) (h1 : hastrailingslash a = false) (h2 : b ≠ []) :
    numsegments (join a b) = numsegments a + numsegments b := by
  obtain ⟨as, d, g1, g2, rfl⟩ := built_ok a ha
  obtain ⟨bs, e, g3, g4, rfl⟩ := built_ok b hb
  rw [trailing_mk as d g1] at h1
  subst h1
  rw [join_mk _ _ _ _ g1 g3 g4]
  have hne : bs ≠ [] := by
    rintro rfl
    cases e
    · exact h2 rfl
    · exact g4 rfl rfl
  unfold numsegments
  rw [mk_length, mk_length, mk_length]
  cases bs with
  | nil => exact absurd rfl hne
  | cons x bs => cases e <;> simp <;> omega

/-- C19: it is not so in general, because of the slash at the end. -/
theorem C19_numsegments_fails : ¬ ∀ a b, Built a → Built b → numsegments (join a b) = numsegments a + numsegments b := by
  intro h
  have := h _ _ (Built.parse (str ['a'])) (Built.parse [])
  rw [parse_eq, parse_eq] at this
  exact absurd this (by decide +kernel)

/- The names of "/foo//Bar/", and its parts. -/
example : names (str ['/', 'f', '/', '/', 'B', 'a', '/']) = [str ['f'], str ['B', 'a']] ∧
    dir (str ['/', 'f', '/', '/', 'B', 'a', '/']) = true ∧
    printable (parse (str ['/', 'f', '/', '/', 'B', 'a', '/'])) = str ['f', '/', 'B', 'a', '/'] := by decide +kernel
example : (1 : Int) < numsegments (parse (str ['f', '/', 'b'])) ∧ hastrailingslash (parse (str ['f', '/', 'b'])) = false := by
  decide +kernel

/- C20 -/

theorem fold_parse (s : List Byte) : fold (parse s) = order s := by
  rw [parse_eq, fold_mk]; unfold order fold; rw [lower_eq]

/-- C20: keys are ordered by their names, name by name, without regard to case; and compare as equal exactly if they are the same
    up to case. -/
theorem C20_order (s t : List Byte) :
    (compareto (parse s) (parse t) < 0 ↔ order s < order t) ∧ (compareto (parse s) (parse t) = 0 ↔ order s = order t) ∧
    (0 < compareto (parse s) (parse t) ↔ order t < order s) := by
  rw [← fold_parse, ← fold_parse]; exact compareto_order _ _

/-- C20: it is a total order up to case. -/
theorem C20_total_order (a b c : Key) : compareto a a = 0 ∧ (compareto a b < 0 ↔ 0 < compareto b a) ∧
    (compareto a b = 0 ↔ compareto b a = 0) ∧ (compareto a b ≤ 0 → compareto b c ≤ 0 → compareto a c ≤ 0) ∧
    (compareto a b < 0 → compareto b c ≤ 0 → compareto a c < 0) ∧ (compareto a b ≤ 0 → compareto b c < 0 → compareto a c < 0) := by
  obtain ⟨h1, h2, h3⟩ := compareto_order a b
  obtain ⟨g1, g2, g3⟩ := compareto_order b c
  obtain ⟨k1, k2, k3⟩ := compareto_order a c
  obtain ⟨l1, l2, l3⟩ := compareto_order b a
  have r := (compareto_order a a).2.1.mpr rfl
  have le_iff : ∀ x y : Key, compareto x y ≤ 0 ↔ fold x ≤ fold y := by
    intro x y
    have := (compareto_order x y).2.2
    rw [← Int.not_lt, this, List.not_lt]
  refine ⟨r, by rw [h1, l3], by rw [h2, l2]; exact eq_comm, ?_, ?_, ?_⟩
  · rw [le_iff, le_iff, le_iff]; exact List.le_trans
  · rw [le_iff, h1, k1]
    intro h4 h5
    refine Decidable.byContradiction fun h6 => h5 (List.lt_of_le_of_lt (List.not_lt.mp h6) h4)
  · rw [le_iff, g1, k1]; exact List.lt_of_le_of_lt

/-- C20: keys that are equal have the same hash. -/
theorem C20_hash (a b : Key) (h : compareto a b = 0) : Key.hash a = Key.hash b := hash_congr a b (by unfold Key.eq; simp [h])

/-- C20: a key contains another exactly if its names are the first names of the other. -/
theorem C20_suborsame (s t : List Byte) :
    suborsame (parse s) (parse t) = true ↔ (names s).map (List.map lower) <+: (names t).map (List.map lower) := by
  rw [parse_eq, parse_eq, suborsame_mk _ _ _ _ (names_ok s) (names_ok t) (dir_names s) (dir_names t), lower_eq]; rfl

/-- C20: if so, the other key is this key joined with the subkey, up to case; or the subkey is empty, and they are the same up
    to case and the slash at the end. -/
theorem C20_subkey_join (a b r : Key) (ha : Built a) (hb : Built b) (h : suborsameKey a b = some r) :
    Built r ∧ (compareto b (join a r) = 0 ∨ r = [] ∧ compareto (join b []) (join a r) = 0) := by
  constructor
  · rw [suborsameKey_eq] at h
    by_cases hs : suborsame a b = true
    · rw [if_pos hs] at h
      rw [← Option.some.inj h]; exact hb.range _ _
    · rw [if_neg hs] at h; simp at h
  · have hb' := hb
    obtain ⟨as, d, g1, g2, rfl⟩ := built_ok a ha
    obtain ⟨bs, e, g3, g4, rfl⟩ := built_ok b hb
    obtain ⟨h1, rfl⟩ := (suborsameKey_mk as bs d e g1 g3 g2 g4 r).mp h
    have hd : (e && decide (as.length < bs.length)) = true → bs.drop as.length ≠ [] := by
      intro h5; simp at h5 ⊢; omega
    have e1 : fold (as ++ bs.drop as.length) = fold bs := by
      rw [fold_append, fold_drop]
      have := List.prefix_iff_eq_take.mp h1
      rw [fold_length] at this
      rw [this]
      exact List.take_append_drop _ _
    have hc : ∀ x y, compareto x y = 0 ↔ Key.eq x y = true := by intro x y; unfold Key.eq; simp
    rw [join_mk _ _ _ _ g1 (g3.drop _) hd, hc, hc]
    by_cases hlen : as.length < bs.length
    · left
      rw [eq_mk _ _ _ _ g3 (g1.append (g3.drop _))]
      refine ⟨e1.symm, ?_⟩
      have n1 : (bs.drop as.length).isEmpty = false := by
        rw [List.isEmpty_eq_false_iff]; simp; omega
      have n2 : (as ++ bs.drop as.length).isEmpty = false := by rw [List.isEmpty_eq_false_iff]; simp; intro _; omega
      simp [n1, n2, hlen]
    · right
      have n1 : bs.drop as.length = [] := List.drop_eq_nil_of_le (by omega)
      refine ⟨by simp [mk, n1, hlen], ?_⟩
      have e0 : ([] : Key) = mk [] false := rfl
      rw [e0, join_mk _ _ _ _ g3 (by intro n hn; simp at hn) (by simp)]
      rw [eq_mk _ _ _ _ (g3.append (by intro n hn; simp at hn)) (g1.append (g3.drop _))]
      rw [e1, n1, List.append_nil, List.append_nil]
      have h7 := congrArg List.length e1
      rw [n1, List.append_nil, fold_length, fold_length] at h7
      refine ⟨rfl, ?_⟩
      cases as with
      | nil => cases bs with
        | nil => rfl
        | cons => simp at h7
      | cons => cases bs with
        | nil => simp at h7
        | cons => simp

/-- C20: conversely, a key contains every key that is itself joined with something, and the subkey is that, up to case; and it
    contains itself, with an empty subkey. -/
theorem C20_join_subkey (a b r : Key) (ha : Built a) (hb : Built b) (hr : Built r) (h : compareto b (join a r) = 0) :
    (∃ r', suborsameKey a b = some r' ∧ compareto r' r = 0) ∧ suborsameKey a a = some [] := by
  have hc : ∀ x y, compareto x y = 0 ↔ Key.eq x y = true := by intro x y; unfold Key.eq; simp
  obtain ⟨as, d, g1, g2, rfl⟩ := built_ok a ha
  obtain ⟨bs, e, g3, g4, rfl⟩ := built_ok b hb
  obtain ⟨rs, f, g5, g6, rfl⟩ := built_ok r hr
  rw [hc, join_mk _ _ _ _ g1 g5 g6, eq_mk _ _ _ _ g3 (g1.append g5), fold_append] at h
  refine ⟨⟨_, (suborsameKey_mk as bs d e g1 g3 g2 g4 _).mpr ⟨by rw [h.1]; exact List.prefix_append _ _, rfl⟩, ?_⟩, ?_⟩
  · rw [hc, eq_mk _ _ _ _ (g3.drop _) g5, fold_drop, h.1, ← fold_length, List.drop_left]
    refine ⟨rfl, ?_⟩
    have hl := congrArg List.length h.1
    rw [List.length_append, fold_length, fold_length, fold_length] at hl
    rw [h.2]
    cases rs with
    | nil =>
      have : f = false := by cases f; rfl; exact absurd rfl (g6 rfl)
      have h8 : ¬ (as.length < bs.length) := by simp at hl; omega
      simp [this, fold_length, h8]
    | cons x rs =>
      have h8 : as.length < bs.length := by simp at hl; omega
      have h9 : (as ++ x :: rs).isEmpty = false := by cases as <;> rfl
      simp [fold_length, h8, h9]
  · refine (suborsameKey_mk as as d d g1 g1 g2 g2 _).mpr ⟨List.prefix_refl _, ?_⟩
    simp [mk]

example : compareto (parse (str ['A', '/', 'b', '/', 'c'])) (join (parse (str ['a', '/'])) (parse (str ['B', '/', 'c']))) = 0 := by
  decide +kernel
example : suborsameKey (parse (str ['a'])) (parse (str ['A', '/', 'b'])) = some (parse (str ['b'])) ∧
    suborsameKey (parse (str ['a'])) (parse (str ['a', 'b'])) = none := by decide +kernel

/- C21 -/

/-- C21: a key that matches can be obtained from the pattern by replacing its wildcards; and if the pattern does not end in a
    wildcard, both or none have a slash at the end. -/
theorem C21_matches_sound (s p : List Byte) (h : «matches» (parse s) (parse p) = true) :
    Matches (names s) (names p) ∧ ∀ l, (names p).getLast? = some l → wild l = false → dir s = dir p := by
  obtain ⟨w, l, hb, hw, hl⟩ := wild_split (names p)
  have hn := names_ok p
  have hd := dir_names p
  rw [parse_eq, parse_eq] at h
  rw [hb] at h hn hd ⊢
  rw [matches_mk l hl w _ _ _ hw (names_ok s) hn (dir_names s) hd] at h
  rcases h with ⟨x, y, h1, h2, h3, h4⟩ | h
  · rw [h1]
    refine ⟨matches_append _ _ _ _ h2 (matches_of_fold _ _ h3), ?_⟩
    intro z hz hwz
    apply h4
    rintro rfl
    rw [List.append_nil] at hz
    have := hw z (List.mem_of_getLast? hz)
    rw [hwz] at this; simp at this
  · rw [eq_mk _ _ _ _ (names_ok s) hn] at h
    exact ⟨matches_of_fold _ _ h.1, fun _ _ _ => h.2⟩

/-- C21, for patterns with all wildcards before all other names: exactly the keys that can be obtained by replacing wildcards
    match.

    Missing for C21: patterns with a name before a wildcard; there it is false, see `C21_matches_fails`. -/
theorem C21_matches_partial (s p : List Byte) (hp : WildFirst (names p)) :
    «matches» (parse s) (parse p) = true ↔
      Matches (names s) (names p) ∧ ∀ l, (names p).getLast? = some l → wild l = false → dir s = dir p := by
  refine ⟨C21_matches_sound s p, ?_⟩
  rintro ⟨h1, h2⟩
  obtain ⟨w, l, hb, hw, hl⟩ := hp
  have hn := names_ok p
  have hd := dir_names p
  rw [parse_eq, parse_eq]
  rw [hb] at h1 h2 hn hd ⊢
  have hl' : l = [] ∨ ∃ p t, l = p :: t ∧ wild p = false := by
    cases l with
    | nil => exact Or.inl rfl
    | cons q t => exact Or.inr ⟨q, t, rfl, hl q (by simp)⟩
  rw [matches_mk l hl' w _ _ _ hw (names_ok s) hn (dir_names s) hd]
  obtain ⟨x, y, h3, h4, h5⟩ := matches_split w l _ h1
  refine Or.inl ⟨x, y, h3, h4, fold_of_matches l hl y h5, ?_⟩
  intro hne
  have : (w ++ l).getLast? = some (l.getLast hne) := by
    rw [List.getLast?_append, List.getLast?_eq_some_getLast hne]; rfl
  exact h2 _ this (hl _ (List.getLast_mem hne))

/-- C21: a wildcard after a name stands only for itself: "a/b" does not match "a/*". -/
theorem C21_matches_fails : ¬ ∀ s p : List Byte, Matches (names s) (names p) → dir s = dir p → «matches» (parse s) (parse p) = true := by
  intro h
  have := h (str ['a', '/', 'b']) (str ['a', '/', '*']) (by
    have e1 : names (str ['a', '/', 'b']) = [[97], [98]] := by decide +kernel
    have e2 : names (str ['a', '/', '*']) = [[97], star] := by decide +kernel
    rw [e1, e2]
    exact .name (by decide) rfl (.star .nil)) (by decide +kernel)
  rw [«matches»] at this
  revert this
  decide +kernel

/- "a/b/c" matches "...​/*​/c", and the pattern has its wildcards first. -/
example : Matches (names (str ['a', '/', 'b', '/', 'c'])) (names (str ['.', '.', '.', '/', '*', '/', 'C'])) ∧
    WildFirst (names (str ['.', '.', '.', '/', '*', '/', 'C'])) := by
  have e1 : names (str ['a', '/', 'b', '/', 'c']) = [[97]] ++ [[98], [99]] := by decide +kernel
  have e2 : names (str ['.', '.', '.', '/', '*', '/', 'C']) = [dots, star, [67]] := by decide +kernel
  rw [e1, e2]
  exact ⟨.dots (.star (.name (by decide) (by decide) .nil)), [dots, star], [[67]], rfl, by decide, by decide⟩

end Props
