import Verif.Model.Replicate
import Verif.Spec.Replica
import Verif.Lemmas.Notify
/- Copies that are kept the same. -/
namespace Props.Rpl
open Wv Spec.Conf Spec.Walk
open Wv.TempGen (Delta Value)
open Wv.Key (fold Names)
open Props.Gens Props.Notify
open Wv.Replicate (Copy State firstOk deltacallback setOn visit replicateOne replicate check)

/-- A generator that behaves as a configuration and tells of its changes, says of nothing that it is gone that was not there, and whose
    recursive iterator visits everything below the root, each key before those below it. -/
structure Walks {σ : Type} (I : WGen σ) (Rep : σ → Spec.Conf.State → Prop) : Prop where
  speaks : Speaks I.toNGen Rep
  gone : ∀ s m, Rep s m → ∀ (k : Text) v, ∀ x ∈ I.notes s (Key.parse k) v, x.2 = none → m (fold x.1) ≠ none
  keys : ∀ s m, Rep s m → ∀ y ∈ I.walk s, Names y.1
  walk : ∀ s m, Rep s m → Preorder m [] [] ((I.walk s).map fun y => (fold y.1, y.2))

/-- Hearing of what is there leaves alone what is not. -/
theorem replay_none (m' : Spec.Conf.State) (hc : Closed m') (d : List Delta) (q : Place) (hq : m' q = none) : (∀ x ∈ d, Names x.1) →
    (∀ x ∈ d, m' (fold x.1) = x.2) → (∀ x ∈ d, x.2 ≠ none) → ∀ c : Spec.Conf.State, replay c d q = c q := by
  induction d with
  | nil => intros; rfl
  | cons x d ih =>
    intro h1 h2 h3 c
    obtain ⟨k, v⟩ := x
    have hk := h1 (k, v) (by simp)
    have hs : m' (fold k) = v := h2 (k, v) (by simp)
    have hv := h3 (k, v) (by simp)
    show replay (Spec.Conf.set c (Spec.Path.write k false) v) d q = c q
    rw [ih (fun x hx => h1 x (by simp [hx])) (fun x hx => h2 x (by simp [hx])) (fun x hx => h3 x (by simp [hx]))]
    cases v with
    | none => exact absurd rfl hv
    | some v =>
      simp only [Spec.Conf.set, place_write k hk, dir_write k hk, Bool.false_eq_true, if_false]
      split
      · rename_i he; rw [he, hs] at hq; cases hq
      · split
        · rename_i hp
          obtain ⟨r, hr⟩ := hp
          exact absurd hq (hc q r (by rw [hr, hs]; simp))
        · rfl

/-- What is there, is so where something else is. -/
theorem kept_some : Kept (fun x y => y ≠ none → x = y) where
  refl := fun _ _ => rfl
  made := by
    intro x y h hy _
    have := h hy
    subst this
    cases x with
    | none => exact absurd rfl hy
    | some v => rfl

/-- In a walk each key comes after those it is below of. -/
theorem preorder_first (m : Spec.Conf.State) (hc : Closed m) (p q : Place) (L : List (Place × Option Text)) (h : Preorder m p q L) :
    ∀ A r v B, L = A ++ (r, v) :: B → ∀ s t, s ≠ [] → t ≠ [] → r = q ++ s ++ t → ∃ w, (q ++ s, w) ∈ A := by
  induction h with
  | mk q l hn hl hs ih =>
    clear hn hl
    induction l with
    | nil => intro A r v B h; simp at h
    | cons x l ihl =>
      intro A r v B h s t h1 h2 h3
      have ihl := ihl (fun y hy => hs y (by simp [hy])) (fun y hy => ih y (by simp [hy]))
      have hx := ih x (by simp)
      have hmem := (Rec.preorder_mem m hc _ _ _ (hs x (by simp))).1
      simp only [List.flatMap_cons, List.cons_append] at h
      cases A with
      | nil =>
        simp only [List.nil_append, List.cons.injEq, Prod.mk.injEq] at h
        have : (q ++ [x.1]).length = (q ++ s ++ t).length := by rw [h.1.1, h3]
        have l1 := List.length_pos_iff.mpr h1
        have l2 := List.length_pos_iff.mpr h2
        simp at this; omega
      | cons a A =>
        simp only [List.cons_append, List.cons.injEq] at h
        obtain ⟨ha, h⟩ := h
        rcases List.append_eq_append_iff.mp h with ⟨A', e1, e2⟩ | ⟨B', e1, e2⟩
        · -- after what is below this one
          obtain ⟨w, hw⟩ := ihl A' r v B e2 s t h1 h2 h3
          exact ⟨w, by rw [e1]; simp [hw]⟩
        · cases B' with
          | nil =>
            simp only [List.append_nil, List.nil_append] at e1 e2
            obtain ⟨w, hw⟩ := ihl [] r v B e2.symm s t h1 h2 h3
            simp at hw
          | cons b B' =>
            simp only [List.cons_append, List.cons.injEq] at e2
            obtain ⟨rfl, e2⟩ := e2
            obtain ⟨t', t1, t2, -⟩ := (hmem r v).mp (by rw [e1]; simp)
            have e : s ++ t = x.1 :: t' := by
              have : q ++ (s ++ t) = q ++ (x.1 :: t') := by rw [← List.append_assoc, ← h3, t2]; simp
              exact List.append_cancel_left this
            obtain ⟨n, s', rfl⟩ := List.exists_cons_of_ne_nil h1
            simp only [List.cons_append, List.cons.injEq] at e
            obtain ⟨rfl, e⟩ := e
            by_cases hs' : s' = []
            · subst hs'
              exact ⟨_, by rw [← ha]; exact List.mem_cons_self⟩
            · obtain ⟨w, hw⟩ := hx A r v B' e1 s' t hs' h2 (by rw [h3]; simp)
              refine ⟨w, ?_⟩
              simp only [List.append_assoc, List.cons_append, List.nil_append] at hw
              exact List.mem_cons_of_mem _ hw

theorem merge_snoc (A : List Spec.Replica.Copy) (C : Spec.Replica.Copy) (q : Place) :
    Spec.Replica.merge (A ++ [C]) q = (Spec.Replica.merge A q).or (if C.up then C.conf q else none) := by
  unfold Spec.Replica.merge
  rw [List.find?_append]
  cases hf : A.find? fun c => c.up && (c.conf q).isSome with
  | some c =>
    have := List.find?_some hf
    simp only [Bool.and_eq_true] at this
    obtain ⟨v, hv⟩ := Option.isSome_iff_exists.mp this.2
    simp [hv]
  | none =>
    simp only [Option.none_or, Option.bind_none, List.find?_cons, List.find?_nil]
    cases hu : C.up with
    | false => simp
    | true => cases hq : C.conf q <;> simp [hq]

theorem merge_nil (q : Place) : Spec.Replica.merge [] q = none := rfl

/-- Which can be reached. -/
def ups {σ : Type} (s : State σ) : List Bool := s.map Copy.up
/-- Whether that is known of one. -/
def FreshAt {σ : Type} (s : State σ) (i : Nat) : Prop := ∀ c, s[i]? = some c → c.wasOk = c.up

theorem up_get {σ : Type} {s : State σ} {i : Nat} {c : Copy σ} (h : s[i]? = some c) (b : Bool) : (ups s)[i]? = some b ↔ c.up = b := by
  simp [ups, h]

section
variable {σ : Type} (I : WGen σ) (Rep : σ → Spec.Conf.State → Prop)

/-- What the copies hold. -/
def Reps (s : State σ) (M : Nat → Spec.Conf.State) : Prop := ∀ i c, s[i]? = some c → Rep c.gen (M i)

theorem firstOk_spec (s : State σ) : (firstOk s).1.map Copy.gen = s.map Copy.gen ∧ ups (firstOk s).1 = ups s ∧
    (∀ i, FreshAt s i → FreshAt (firstOk s).1 i) ∧
    (∀ (i : Nat) (c : Copy σ), (firstOk s).1[i]? = some c → c.wasOk = true → ∃ c' : Copy σ, s[i]? = some c' ∧ (c'.wasOk = true ∨ c.up = true)) ∧
    match (firstOk s).2 with
    | none => (∀ i : Nat, (ups s)[i]? ≠ some true) ∧ ∀ i, FreshAt (firstOk s).1 i
    | some f => (ups s)[f]? = some true ∧ (∀ i : Nat, i < f → (ups s)[i]? ≠ some true) ∧ ∀ i, i ≤ f → FreshAt (firstOk s).1 i := by
  induction s with
  | nil => simp [firstOk, ups, FreshAt]
  | cons c s ih =>
    obtain ⟨h1, h2, h3, h4, h5⟩ := ih
    unfold firstOk
    by_cases hc : c.up = true
    · rw [if_pos hc]
      refine ⟨by simp [Copy.isok], by simp [ups, Copy.isok], ?_, ?_, by simp [ups, hc], by simp, ?_⟩
      · intro i h d hd
        cases i with
        | zero => simp at hd; subst hd; rfl
        | succ i => simp at hd; exact h d (by simpa using hd)
      · intro i d hd hw
        cases i with
        | zero => simp at hd; subst hd; exact ⟨c, by simp, Or.inr hc⟩
        | succ i => simp at hd; exact ⟨d, by simpa using hd, Or.inl hw⟩
      · intro i hi d hd
        obtain rfl : i = 0 := by omega
        simp at hd; subst hd; rfl
    · rw [if_neg hc]
      have hcf : c.up = false := by simpa using hc
      refine ⟨by simp [h1, Copy.isok], by simp [ups, Copy.isok] at *; exact h2, ?_, ?_, ?_⟩
      · intro i h d hd
        cases i with
        | zero => simp at hd; subst hd; rfl
        | succ i => simp at hd; exact h3 i (fun d hd => h d (by simpa using hd)) d hd
      · intro i d hd hw
        cases i with
        | zero => simp at hd; subst hd; simp [Copy.isok, hcf] at hw
        | succ i => simp at hd; simpa using h4 i d hd hw
      · cases hf : (firstOk s).2 with
        | none =>
          rw [hf] at h5
          refine ⟨?_, ?_⟩
          · intro i
            cases i with
            | zero => simp [ups, hcf]
            | succ i => simpa [ups] using h5.1 i
          · intro i d hd
            cases i with
            | zero => simp at hd; subst hd; rfl
            | succ i => simp at hd; exact h5.2 i d hd
        | some f =>
          rw [hf] at h5
          refine ⟨by simpa [ups] using h5.1, ?_, ?_⟩
          · intro i hi
            cases i with
            | zero => simp [ups, hcf]
            | succ i => simpa [ups] using h5.2.1 i (by simpa using hi)
          · intro i hi d hd
            cases i with
            | zero => simp at hd; subst hd; rfl
            | succ i => simp at hd; exact h5.2.2 i (by simpa using hi) d hd

omit I in
theorem reps_gens {s s' : State σ} (h : s'.map Copy.gen = s.map Copy.gen) (M) (hr : Reps Rep s M) : Reps Rep s' M := by
  intro i c hc
  have : (s'.map Copy.gen)[i]? = some c.gen := by simp [hc]
  rw [h] at this
  simp only [List.getElem?_map, Option.map_eq_some_iff] at this
  obtain ⟨d, hd, he⟩ := this
  rw [← he]; exact hr i d hd

variable (hI : Walks I Rep)
include hI

theorem set_rep (g : σ) (m : Spec.Conf.State) (h : Rep g m) (k : Key) (hk : Names k) (v : Option Value) :
    Rep (I.set g k v) (Spec.Conf.set m (Spec.Path.write k false) v) := by
  have := hI.speaks.behaves.set g m h (Spec.Path.write k false) v
  rwa [parse_write k hk] at this

/-- What one copy tells is set in the others. -/
theorem delta_spec (f : Nat) (s : State σ) (M) (h : Reps Rep s M) (x : Delta) (hx : Names x.1) :
    Reps Rep (deltacallback I f s x) (fun j => if (ups s)[j]? = some true ∧ j ≠ f then Spec.Conf.set (M j) (Spec.Path.write x.1 false) x.2 else M j) ∧
    ups (deltacallback I f s x) = ups s ∧ ∀ i, FreshAt (deltacallback I f s x) i := by
  refine ⟨?_, ?_, ?_⟩
  · intro j c hc
    simp only [deltacallback, List.getElem?_mapIdx, Option.map_eq_some_iff] at hc
    obtain ⟨d, hd, rfl⟩ := hc
    have hr := h j d hd
    by_cases hu : d.up = true ∧ j ≠ f
    · have e : (d.up && j != f) = true := by simp [hu.1, hu.2]
      simp only [e, if_true]
      rw [if_pos ⟨(up_get hd true).mpr hu.1, hu.2⟩]
      exact set_rep I Rep hI _ _ hr _ hx _
    · have e : (d.up && j != f) = false := by
        cases he : (d.up && j != f) with
        | false => rfl
        | true => exact absurd (by simpa using he) hu
      simp only [e, Bool.false_eq_true, if_false]
      rw [if_neg (by rintro ⟨h1, h2⟩; exact hu ⟨(up_get hd true).mp h1, h2⟩)]
      exact hr
  · apply List.ext_getElem?
    intro j
    simp only [ups, deltacallback, List.getElem?_map, List.getElem?_mapIdx, Option.map_map]
    cases s[j]? with
    | none => rfl
    | some c => simp only [Option.map_some, Function.comp]; split <;> rfl
  · intro i c hc
    simp only [deltacallback, List.getElem?_mapIdx, Option.map_eq_some_iff] at hc
    obtain ⟨d, hd, rfl⟩ := hc
    split <;> rfl

theorem deltas_spec (f : Nat) (d : List Delta) : (∀ x ∈ d, Names x.1) → ∀ (s : State σ) (M), Reps Rep s M →
    Reps Rep (d.foldl (deltacallback I f) s) (fun j => if (ups s)[j]? = some true ∧ j ≠ f then replay (M j) d else M j) ∧
    ups (d.foldl (deltacallback I f) s) = ups s ∧ ((d = [] ∧ d.foldl (deltacallback I f) s = s) ∨ ∀ i, FreshAt (d.foldl (deltacallback I f) s) i) := by
  induction d with
  | nil => intro _ s M h; exact ⟨by simpa [replay] using h, rfl, Or.inl ⟨rfl, rfl⟩⟩
  | cons x d ih =>
    intro hd s M h
    obtain ⟨h1, h2, h3⟩ := delta_spec I Rep hI f s M h x (hd x (by simp))
    obtain ⟨i1, i2, i3⟩ := ih (fun y hy => hd y (by simp [hy])) _ _ h1
    simp only [List.foldl_cons]
    refine ⟨?_, i2.trans h2, ?_⟩
    · intro j c hc
      have := i1 j c hc
      rw [h2] at this
      dsimp only at this ⊢
      split
      · rename_i hj; simp only [hj, if_true, and_self, not_false_eq_true, ne_eq] at this; exact this
      · rename_i hj; simp only [hj, if_false] at this; exact this
    · right
      rcases i3 with ⟨-, e⟩ | i3
      · rw [e]; exact h3
      · exact i3

/-- A value is set in one copy. -/
theorem setOn_spec (f : Nat) (s : State σ) (M) (h : Reps Rep s M) (hu : (ups s)[f]? = some true) (k : Text) (v : Option Text) :
    ∃ d, Tells (M f) (Spec.Conf.set (M f) k v) d ∧ (∀ x ∈ d, x.2 = none → M f (fold x.1) ≠ none) ∧ Closed (Spec.Conf.set (M f) k v) ∧
    Reps Rep (setOn I s f (Key.parse k) v)
      (fun j => if j = f then Spec.Conf.set (M f) k v else if (ups s)[j]? = some true then replay (M j) d else M j) ∧
    ups (setOn I s f (Key.parse k) v) = ups s ∧ (∀ i, FreshAt s i → FreshAt (setOn I s f (Key.parse k) v) i) ∧
    ((d = [] ∧ (setOn I s f (Key.parse k) v).map Copy.wasOk = s.map Copy.wasOk) ∨ ∀ i, FreshAt (setOn I s f (Key.parse k) v) i) := by
  obtain ⟨c, hc, hcu⟩ : ∃ c, s[f]? = some c ∧ c.up = true := by
    simp only [ups, List.getElem?_map, Option.map_eq_some_iff] at hu; exact hu
  have hr := h f c hc
  have ht := hI.speaks.tells _ _ hr k v
  have hset := hI.speaks.behaves.set _ _ hr k v
  have e : setOn I s f (Key.parse k) v = (I.notes c.gen (Key.parse k) v).foldl (deltacallback I f) (s.set f { c with gen := I.set c.gen (Key.parse k) v }) := by
    simp only [setOn, hc]
  have hl : f < s.length := (List.getElem?_eq_some_iff.mp hc).1
  -- the copy is changed
  have h0 : Reps Rep (s.set f { c with gen := I.set c.gen (Key.parse k) v }) (fun j => if j = f then Spec.Conf.set (M f) k v else M j) := by
    intro j d hd
    by_cases hj : j = f
    · subst hj
      rw [List.getElem?_set_self hl] at hd
      cases hd
      simp only [if_true]; exact hset
    · rw [List.getElem?_set_ne (Ne.symm hj)] at hd
      simp only [hj, if_false]; exact h j d hd
  have hups : ups (s.set f { c with gen := I.set c.gen (Key.parse k) v }) = ups s := by
    apply List.ext_getElem?
    intro j
    simp only [ups, List.getElem?_map]
    by_cases hj : j = f
    · subst hj; rw [List.getElem?_set_self hl, hc]; rfl
    · rw [List.getElem?_set_ne (Ne.symm hj)]
  have hwas : (s.set f { c with gen := I.set c.gen (Key.parse k) v }).map Copy.wasOk = s.map Copy.wasOk := by
    apply List.ext_getElem?
    intro j
    simp only [List.getElem?_map]
    by_cases hj : j = f
    · subst hj; rw [List.getElem?_set_self hl, hc]; rfl
    · rw [List.getElem?_set_ne (Ne.symm hj)]
  have hfr : ∀ i, FreshAt s i → FreshAt (s.set f { c with gen := I.set c.gen (Key.parse k) v }) i := by
    intro i hi d hd
    by_cases hj : i = f
    · subst hj
      rw [List.getElem?_set_self hl] at hd
      cases hd
      exact hi c hc
    · rw [List.getElem?_set_ne (Ne.symm hj)] at hd
      exact hi d hd
  obtain ⟨d1, d2, d3⟩ := deltas_spec I Rep hI f _ ht.key _ _ h0
  refine ⟨_, ht, hI.gone _ _ hr k v, hI.speaks.closed _ _ hset, ?_, by rw [e, d2, hups], ?_, ?_⟩
  · rw [e]
    intro j d hd
    have := d1 j d hd
    rw [hups] at this
    dsimp only at this ⊢
    by_cases hj : j = f
    · simp only [hj, if_true, ne_eq, not_true_eq_false, and_false, if_false] at this ⊢; exact this
    · simp only [hj, if_false, ne_eq, not_false_eq_true, and_true] at this ⊢; exact this
  · intro i hi
    rw [e]
    rcases d3 with ⟨-, d3⟩ | d3
    · rw [d3]; exact hfr i hi
    · exact d3 i
  · rw [e]
    rcases d3 with ⟨d3, d4⟩ | d3
    · left; exact ⟨d3, by rw [d4]; exact hwas⟩
    · exact Or.inr d3

/-- A key of another copy is visited. -/
theorem visit_spec (f j : Nat) (hj : j ≠ f) (s : State σ) (M) (h : Reps Rep s M) (hu : (ups s)[f]? = some true)
    (ext : ∀ i : Nat, (ups s)[i]? = some true → ∀ q, q ≠ [] → M f q ≠ none → M i q = M f q)
    (k : Key) (hk : Names k) (v : Text) (hp : ∀ p, p ≠ [] → p <+: fold k → p ≠ fold k → M f p ≠ none) :
    ∃ M', Reps Rep (visit I f j s (k, some v)) M' ∧ ups (visit I f j s (k, some v)) = ups s ∧
      (∀ i, FreshAt s i → FreshAt (visit I f j s (k, some v)) i) ∧
      (∀ q, q ≠ [] → M' f q = (M f q).or (if q = fold k then some v else none)) ∧
      (∀ i : Nat, (ups s)[i]? = some true → ∀ q, q ≠ [] → M' f q ≠ none → M' i q = M' f q) ∧
      (∀ i : Nat, (ups s)[i]? = some true → ∀ q, q ≠ [] → M' f q = none → M' i q = M i q) ∧
      ∀ i : Nat, (ups s)[i]? ≠ some true → M' i = M i := by
  obtain ⟨c, hc, hcu⟩ : ∃ c, s[f]? = some c ∧ c.up = true := by
    simp only [ups, List.getElem?_map, Option.map_eq_some_iff] at hu; exact hu
  have hr := h f c hc
  have hex := (hI.speaks.behaves.reads _ _ hr).exists_ (Spec.Path.write k false)
  rw [parse_write k hk] at hex
  simp only [Spec.Conf.get, dir_write k hk, place_write k hk, Bool.false_eq_true, if_false] at hex
  by_cases he : I.exists c.gen k = true
  · -- it is there
    have e : visit I f j s (k, some v) = s := by simp [visit, hj, hc, he]
    rw [e]
    refine ⟨M, h, rfl, fun _ h => h, ?_, ext, fun _ _ _ _ _ => rfl, fun _ _ => rfl⟩
    intro q hq
    by_cases hqk : q = fold k
    · have := hex.mp he
      rw [← hqk] at this
      cases hm : M f q with
      | none => exact absurd hm this
      | some w => rfl
    · simp [hqk]
  · have hnone : M f (fold k) = none := by
      apply Decidable.byContradiction
      intro hn
      exact he (hex.mpr hn)
    have e : visit I f j s (k, some v) = setOn I s f (Key.parse (Spec.Path.write k false)) (some v) := by
      rw [parse_write k hk]
      simp [visit, hj, hc, he]
    rw [e]
    obtain ⟨d, d1, d2, d3, d4, d5, d6, -⟩ := setOn_spec I Rep hI f s M h hu (Spec.Path.write k false) (some v)
    -- what the first copy holds then
    have hF : ∀ q, q ≠ [] → Spec.Conf.set (M f) (Spec.Path.write k false) (some v) q = if q = fold k then some v else M f q := by
      intro q hq
      simp only [Spec.Conf.set, place_write k hk, dir_write k hk, Bool.false_eq_true, if_false]
      by_cases hqk : q = fold k
      · simp [hqk]
      · simp only [hqk, if_false]
        split
        · rename_i hpre
          cases hm : M f q with
          | none => exact absurd hm (hp q hq hpre hqk)
          | some w => rfl
        · rfl
    have hgrow : ∀ q, M f q ≠ none → Spec.Conf.set (M f) (Spec.Path.write k false) (some v) q ≠ none := by
      intro q hq
      simp only [Spec.Conf.set, dir_write k hk, Bool.false_eq_true, if_false]
      split
      · simp
      · split
        · simp
        · exact hq
    have hsome : ∀ x ∈ d, x.2 ≠ none := by
      intro x hx hn
      exact hgrow _ (d2 x hx hn) ((d1.says x hx).trans hn)
    refine ⟨_, d4, d5, d6, ?_, ?_, ?_, ?_⟩
    · intro q hq
      simp only [if_true, hF q hq]
      by_cases hqk : q = fold k
      · subst hqk; simp [hnone]
      · simp [hqk]
    · intro i hi q hq hne
      simp only [if_true] at hne ⊢
      by_cases hif : i = f
      · simp [hif]
      · simp only [hif, if_false, hi, if_true]
        refine replay_kept _ kept_some _ d3 d d1.key d1.says (M i) q ?_ hne
        by_cases hch : M f q = Spec.Conf.set (M f) (Spec.Path.write k false) (some v) q
        · right
          intro _
          rw [← hch] at hne ⊢
          exact ext i hi q hq hne
        · exact Or.inl (d1.all q hch)
    · intro i hi q hq hn
      simp only [if_true] at hn
      by_cases hif : i = f
      · subst hif
        simp only [if_true]
        rw [hn]
        cases hm : M i q with
        | none => rfl
        | some w => exact absurd hn (hgrow q (by simp [hm]))
      · simp only [hif, if_false, hi, if_true]
        exact replay_none _ d3 d q hn d1.key d1.says hsome (M i)
    · intro i hi
      have hif : i ≠ f := by rintro rfl; exact hi hu
      simp only [hif, if_false, hi]

/-- Some keys of another copy are visited. -/
theorem visits_spec (f j : Nat) (hj : j ≠ f) (m : Spec.Conf.State) (hm : Closed m) (B : List (Key × Option Value)) :
    ∀ (A : List (Key × Option Value)) (s : State σ) (M : Nat → Spec.Conf.State) (F0 : Spec.Conf.State),
    (∀ y ∈ B, Names y.1 ∧ y.2 = m (fold y.1) ∧ y.2 ≠ none) →
    (∀ A' y B', A ++ B = A' ++ y :: B' → ∀ p, p ≠ [] → p <+: fold y.1 → p ≠ fold y.1 → ∃ x ∈ A', fold x.1 = p) →
    Reps Rep s M → (ups s)[f]? = some true →
    (∀ i : Nat, (ups s)[i]? = some true → ∀ q, q ≠ [] → M f q ≠ none → M i q = M f q) →
    (∀ q, q ≠ [] → M f q = (F0 q).or (if ∃ x ∈ A, fold x.1 = q then m q else none)) →
    ∃ M', Reps Rep (B.foldl (visit I f j) s) M' ∧ ups (B.foldl (visit I f j) s) = ups s ∧
      (∀ i, FreshAt s i → FreshAt (B.foldl (visit I f j) s) i) ∧
      (∀ q, q ≠ [] → M' f q = (F0 q).or (if ∃ x ∈ A ++ B, fold x.1 = q then m q else none)) ∧
      (∀ i : Nat, (ups s)[i]? = some true → ∀ q, q ≠ [] → M' f q ≠ none → M' i q = M' f q) ∧
      (∀ i : Nat, (ups s)[i]? = some true → ∀ q, q ≠ [] → M' f q = none → M' i q = M i q) ∧
      ∀ i : Nat, (ups s)[i]? ≠ some true → M' i = M i := by
  induction B with
  | nil =>
    intro A s M F0 _ _ h hu ext hF
    exact ⟨M, h, rfl, fun _ h => h, by rw [List.append_nil]; exact hF, ext, fun _ _ _ _ _ => rfl, fun _ _ => rfl⟩
  | cons y B ih =>
    intro A s M F0 hB hpre h hu ext hF
    obtain ⟨k, v⟩ := y
    obtain ⟨y1, y2, y3⟩ := hB (k, v) (by simp)
    simp only at y1 y2 y3
    obtain ⟨v, rfl⟩ := Option.ne_none_iff_exists'.mp y3
    have hp : ∀ p, p ≠ [] → p <+: fold k → p ≠ fold k → M f p ≠ none := by
      intro p p1 p2 p3
      obtain ⟨x, hx, he⟩ := hpre A (k, some v) B rfl p p1 p2 p3
      rw [hF p p1, if_pos ⟨x, hx, he⟩]
      obtain ⟨r, hr⟩ := p2
      have : m p ≠ none := hm p r (by rw [hr, ← y2]; simp)
      cases F0 p with
      | none => simpa using this
      | some w => simp
    obtain ⟨M1, s1, s2, s3, s4, s5, s6, s7⟩ := visit_spec I Rep hI f j hj s M h hu ext k y1 v hp
    obtain ⟨M2, t1, t2, t3, t4, t5, t6, t7⟩ := ih (A ++ [(k, some v)]) (visit I f j s (k, some v)) M1 F0
      (fun y hy => hB y (by simp [hy])) (by simpa using hpre) s1 (by rw [s2]; exact hu) (by rw [s2]; exact s5) (by
        intro q hq
        rw [s4 q hq, hF q hq]
        by_cases hqk : q = fold k
        · subst hqk
          have h2 : ∃ x ∈ A ++ [(k, some v)], fold x.1 = fold k := ⟨(k, some v), by simp, rfl⟩
          rw [if_pos h2, if_pos rfl, ← y2]
          cases F0 (fold k) with
          | some w => rfl
          | none =>
            by_cases hA : ∃ x ∈ A, fold x.1 = fold k
            · rw [if_pos hA]; rfl
            · rw [if_neg hA]; rfl
        · rw [if_neg hqk, Option.or_none]
          congr 1
          have : (∃ x ∈ A ++ [(k, some v)], fold x.1 = q) ↔ ∃ x ∈ A, fold x.1 = q := by
            constructor
            · rintro ⟨x, hx, he⟩
              rcases List.mem_append.mp hx with hx | hx
              · exact ⟨x, hx, he⟩
              · simp only [List.mem_singleton] at hx; subst hx; exact absurd he.symm hqk
            · rintro ⟨x, hx, he⟩; exact ⟨x, by simp [hx], he⟩
          simp only [this])
    rw [s2] at t5 t6 t7
    refine ⟨M2, t1, t2.trans s2, fun i hi => t3 i (s3 i hi), ?_, t5, ?_, ?_⟩
    · intro q hq
      rw [t4 q hq]
      simp only [List.append_assoc, List.cons_append, List.nil_append]
    · intro i hi q hq hn
      rw [t6 i hi q hq hn]
      refine s6 i hi q hq ?_
      have := t6 f hu q hq hn
      rw [← this]; exact hn
    · intro i hi
      rw [t7 i hi, s7 i hi]

/-- What a walk over a copy visits. -/
theorem walk_spec (g : σ) (m : Spec.Conf.State) (h : Rep g m) : (∀ y ∈ I.walk g, Names y.1 ∧ y.2 = m (fold y.1) ∧ y.2 ≠ none) ∧
    (∀ A y B, I.walk g = A ++ y :: B → ∀ p, p ≠ [] → p <+: fold y.1 → p ≠ fold y.1 → ∃ x ∈ A, fold x.1 = p) ∧
    ∀ q, q ≠ [] → m q ≠ none → ∃ y ∈ I.walk g, fold y.1 = q := by
  have hc := hI.speaks.closed _ _ h
  have hw := hI.walk _ _ h
  obtain ⟨h1, -⟩ := Rec.preorder_mem m hc _ _ _ hw
  simp only [List.nil_append] at h1
  refine ⟨?_, ?_, ?_⟩
  · intro y hy
    obtain ⟨t, t1, t2, t3, t4⟩ := (h1 (fold y.1) y.2).mp (List.mem_map.mpr ⟨y, hy, rfl⟩)
    exact ⟨hI.keys _ _ h y hy, t3, t4⟩
  · intro A y B he p p1 p2 p3
    obtain ⟨r, hr⟩ := p2
    have hrne : r ≠ [] := by rintro rfl; simp at hr; exact p3 hr
    obtain ⟨w, hw'⟩ := preorder_first m hc [] [] _ hw (A.map fun y => (fold y.1, y.2)) (fold y.1) y.2 (B.map fun y => (fold y.1, y.2))
      (by rw [he]; simp) p r p1 hrne (by simpa using hr.symm)
    obtain ⟨x, hx, hxe⟩ := List.mem_map.mp hw'
    exact ⟨x, hx, (Prod.mk.inj hxe).1⟩
  · intro q hq hn
    obtain ⟨y, hy, he⟩ := List.mem_map.mp ((h1 q (m q)).mpr ⟨q, hq, rfl, rfl, hn⟩)
    exact ⟨y, hy, (Prod.mk.inj he).1⟩

/-- What is so after some copies were visited. -/
structure Inv (S : List Spec.Replica.Copy) (t : Nat) (s : State σ) (M : Nat → Spec.Conf.State) : Prop where
  reps : Reps Rep s M
  up : ups s = S.map (·.up)
  merged : ∀ (i : Nat) C, S[i]? = some C → C.up = true → ∀ q, q ≠ [] → M i q = (Spec.Replica.merge (S.take t) q).or (C.conf q)
  away : ∀ (i : Nat) C, S[i]? = some C → C.up = false → ∀ q, q ≠ [] → M i q = C.conf q
  fresh : ∀ i, i < t → FreshAt s i

theorem isok_reps (s : State σ) (M) (j : Nat) (c : Copy σ) (hc : s[j]? = some c) (h : Reps Rep s M) : Reps Rep (s.set j c.isok) M ∧
    ups (s.set j c.isok) = ups s ∧ (∀ i, FreshAt s i → FreshAt (s.set j c.isok) i) ∧ FreshAt (s.set j c.isok) j := by
  have hl : j < s.length := (List.getElem?_eq_some_iff.mp hc).1
  refine ⟨?_, ?_, ?_, ?_⟩
  · intro i d hd
    by_cases hj : i = j
    · subst hj; rw [List.getElem?_set_self hl] at hd; cases hd; exact h i c hc
    · rw [List.getElem?_set_ne (Ne.symm hj)] at hd; exact h i d hd
  · apply List.ext_getElem?
    intro i
    simp only [ups, List.getElem?_map]
    by_cases hj : i = j
    · subst hj; rw [List.getElem?_set_self hl, hc]; rfl
    · rw [List.getElem?_set_ne (Ne.symm hj)]
  · intro i hi d hd
    by_cases hj : i = j
    · subst hj; rw [List.getElem?_set_self hl] at hd; cases hd; rfl
    · rw [List.getElem?_set_ne (Ne.symm hj)] at hd; exact hi d hd
  · intro d hd
    rw [List.getElem?_set_self hl] at hd; cases hd; rfl

theorem one_spec (S : List Spec.Replica.Copy) (f : Nat) (hf : (S.map (·.up))[f]? = some true) (hff : ∀ i : Nat, i < f → (S.map (·.up))[i]? ≠ some true)
    (t : Nat) (ht : t < S.length) (s : State σ) (M) (h : Inv Rep S t s M) : ∃ M', Inv Rep S (t + 1) (replicateOne I f s t) M' := by
  obtain ⟨C, hC⟩ : ∃ C, S[t]? = some C := ⟨S[t], by simp [ht]⟩
  obtain ⟨c, hc, hcu⟩ : ∃ c, s[t]? = some c ∧ c.up = C.up := by
    have := congrArg (fun l => l[t]?) h.up
    simp only [ups, List.getElem?_map, hC, Option.map_some, Option.map_eq_some_iff] at this
    exact this
  have htake : S.take (t + 1) = S.take t ++ [C] := by
    rw [List.take_add_one, hC]; rfl
  obtain ⟨k1, k2, k3, k4⟩ := isok_reps I Rep hI s M t c hc h.reps
  by_cases hu : c.up = true
  · have hCu : C.up = true := hcu ▸ hu
    have e : replicateOne I f s t = (I.walk c.gen).foldl (visit I f t) (s.set t c.isok) := by simp only [replicateOne, hc, hu, if_true]
    rw [e]
    have hr := h.reps t c hc
    obtain ⟨w1, w2, w3⟩ := walk_spec I Rep hI c.gen (M t) hr
    have hcl := hI.speaks.closed _ _ hr
    by_cases htf : t = f
    · -- the first
      subst htf
      have hm0 : ∀ q, Spec.Replica.merge (S.take t) q = none := by
        intro q
        unfold Spec.Replica.merge
        have : (S.take t).find? (fun c => c.up && (c.conf q).isSome) = none := by
          rw [List.find?_eq_none]
          intro D hD
          obtain ⟨i, hi, he⟩ := List.mem_take_iff_getElem.mp hD
          have := hff i (by omega)
          have hi' : i < S.length := by omega
          simp only [List.getElem?_map, List.getElem?_eq_getElem hi', Option.map_some, ne_eq, Option.some.injEq] at this
          rw [he] at this
          simp [this]
        rw [this]; rfl
      have e2 : ∀ (L : List (Key × Option Value)) (s : State σ), L.foldl (visit I t t) s = L.foldl (deltacallback I t) s := by
        intro L
        induction L with
        | nil => intro s; rfl
        | cons y L ih => intro s; simp only [List.foldl_cons]; rw [ih]; simp [visit]
      rw [e2]
      obtain ⟨d1, d2, d3⟩ := deltas_spec I Rep hI t (I.walk c.gen) (fun y hy => (w1 y hy).1) _ _ k1
      refine ⟨_, d1, d2.trans (k2.trans h.up), ?_, ?_, ?_⟩
      · intro i D hD hDu q hq
        have hMi := h.merged i D hD hDu q hq
        have hMt := h.merged t C hC hCu q hq
        rw [hm0] at hMi hMt
        simp only [Option.none_or] at hMi hMt
        rw [htake, merge_snoc, hm0, hCu]
        simp only [Option.none_or, if_true]
        by_cases hit : i = t
        · subst hit
          rw [hC] at hD; cases hD
          simp only [ne_eq, not_true_eq_false, and_false, if_false, hMt]
          cases C.conf q <;> rfl
        · have hiu : (ups (s.set t c.isok))[i]? = some true := by rw [k2, h.up]; simp [hD, hDu]
          simp only [hiu, hit, ne_eq, not_false_eq_true, and_self, if_true]
          rw [← hMt, ← hMi]
          cases hq' : M t q with
          | none =>
            simp only [Option.none_or]
            exact replay_none (M t) hcl _ q hq' (fun y hy => (w1 y hy).1) (fun y hy => (w1 y hy).2.1.symm) (fun y hy => (w1 y hy).2.2) (M i)
          | some v =>
            simp only [Option.some_or]
            rw [← hq']
            refine replay_kept _ kept_eq (M t) hcl _ (fun y hy => (w1 y hy).1) (fun y hy => (w1 y hy).2.1.symm) (M i) q (Or.inl ?_)
            exact w3 q hq (by simp [hq'])
      · intro i D hD hDu q hq
        have : (ups (s.set t c.isok))[i]? ≠ some true := by rw [k2, h.up]; simp [hD, hDu]
        simp only [this, false_and, if_false]
        exact h.away i D hD hDu q hq
      · intro i hi
        have hfr : FreshAt (s.set t c.isok) i := by
          rcases Nat.lt_or_ge i t with h1 | h1
          · exact k3 i (h.fresh i h1)
          · have : i = t := by omega
            subst this; exact k4
        rcases d3 with ⟨-, d3⟩ | d3
        · rw [d3]; exact hfr
        · exact d3 i
    · -- another
      obtain ⟨Cf, hCf, hCfu⟩ : ∃ C, S[f]? = some C ∧ C.up = true := by
        simp only [List.getElem?_map, Option.map_eq_some_iff] at hf; exact hf
      have htf' : f < t := by
        rcases Nat.lt_or_ge t f with h1 | h1
        · exact absurd (by simp [hC, hCu]) (hff t h1)
        · omega
      have hf1 : ∀ q, q ≠ [] → M f q = Spec.Replica.merge (S.take t) q := by
        intro q hq
        rw [h.merged f Cf hCf hCfu q hq]
        -- the first is among those visited
        have hex : ∀ v, Cf.conf q = some v → Spec.Replica.merge (S.take t) q ≠ none := by
          intro v hv hn
          unfold Spec.Replica.merge at hn
          have hmem : Cf ∈ S.take t := by
            have := (List.getElem?_eq_some_iff.mp hCf)
            obtain ⟨h1, h2⟩ := this
            exact List.mem_take_iff_getElem.mpr ⟨f, by omega, h2⟩
          cases hfd : (S.take t).find? fun c => c.up && (c.conf q).isSome with
          | none =>
            have := List.find?_eq_none.mp hfd Cf hmem
            simp [hCfu, hv] at this
          | some D =>
            have h1 := List.find?_some hfd
            simp only [Bool.and_eq_true] at h1
            rw [hfd] at hn
            simp only [Option.bind_some] at hn
            rw [hn] at h1; simp at h1
        cases hm : Spec.Replica.merge (S.take t) q with
        | some v => rfl
        | none =>
          cases hv : Cf.conf q with
          | none => rfl
          | some v => exact absurd hm (hex v hv)
      have hfu : (ups (s.set t c.isok))[f]? = some true := by rw [k2, h.up]; exact hf
      obtain ⟨M', v1, v2, v3, v4, v5, v6, v7⟩ := visits_spec I Rep hI f t htf (M t) hcl (I.walk c.gen) [] (s.set t c.isok) M (M f) w1
        (by simpa using w2) k1 hfu (by
          intro i hi q hq hne
          rw [k2, h.up] at hi
          simp only [List.getElem?_map, Option.map_eq_some_iff] at hi
          obtain ⟨D, hD, hDu⟩ := hi
          rw [h.merged i D hD hDu q hq]
          rw [hf1 q hq] at hne ⊢
          cases hm : Spec.Replica.merge (S.take t) q with
          | none => exact absurd hm hne
          | some v => rfl) (by intro q hq; simp)
      rw [k2] at v2 v5 v6 v7
      have hF : ∀ q, q ≠ [] → M' f q = Spec.Replica.merge (S.take (t + 1)) q := by
        intro q hq
        rw [v4 q hq, htake, merge_snoc, hf1 q hq, hCu]
        simp only [if_true, List.nil_append]
        cases hm : Spec.Replica.merge (S.take t) q with
        | some v => rfl
        | none =>
          have hMt := h.merged t C hC hCu q hq
          rw [hm] at hMt
          simp only [Option.none_or] at hMt ⊢
          rw [← hMt]
          by_cases hn : M t q = none
          · rw [hn]; split <;> rfl
          · rw [if_pos (w3 q hq hn)]
      refine ⟨M', v1, v2.trans h.up, ?_, ?_, ?_⟩
      · intro i D hD hDu q hq
        have hiu : (ups s)[i]? = some true := by rw [h.up]; simp [hD, hDu]
        rw [← hF q hq]
        cases hm : M' f q with
        | some v => rw [v5 i hiu q hq (by simp [hm]), hm]; rfl
        | none =>
          rw [v6 i hiu q hq hm, h.merged i D hD hDu q hq]
          have : Spec.Replica.merge (S.take t) q = none := by
            have := hF q hq
            rw [hm, htake, merge_snoc] at this
            cases hx : Spec.Replica.merge (S.take t) q with
            | none => rfl
            | some v => rw [hx] at this; simp at this
          rw [this]
      · intro i D hD hDu q hq
        have : (ups s)[i]? ≠ some true := by rw [h.up]; simp [hD, hDu]
        rw [v7 i this]
        exact h.away i D hD hDu q hq
      · intro i hi
        refine v3 i ?_
        rcases Nat.lt_or_ge i t with h1 | h1
        · exact k3 i (h.fresh i h1)
        · have : i = t := by omega
          subst this; exact k4
  · have hCu : C.up = false := by rw [← hcu]; simpa using hu
    have e : replicateOne I f s t = s.set t c.isok := by simp only [replicateOne, hc, hu, if_false, Bool.false_eq_true]
    rw [e]
    refine ⟨M, k1, k2.trans h.up, ?_, h.away, ?_⟩
    · intro i D hD hDu q hq
      rw [htake, merge_snoc, hCu]
      simpa using h.merged i D hD hDu q hq
    · intro i hi
      rcases Nat.lt_or_ge i t with h1 | h1
      · exact k3 i (h.fresh i h1)
      · have : i = t := by omega
        subst this; exact k4

/-- The copies hold what they should, but for the root. -/
def Sim (s : State σ) (S : List Spec.Replica.Copy) : Prop :=
  ∃ M, Reps Rep s M ∧ ups s = S.map (·.up) ∧ ∀ (i : Nat) C, S[i]? = some C → ∀ q, q ≠ [] → M i q = C.conf q

/-- Replication makes all copies that can be reached the same. -/
theorem replicate_spec (s : State σ) (S : List Spec.Replica.Copy) (h : Sim Rep s S) : Sim Rep (replicate I s) (Spec.Replica.sync S) ∧
    ∀ i, FreshAt (replicate I s) i := by
  obtain ⟨M, h1, h2, h3⟩ := h
  obtain ⟨f1, f2, f3, -, f5⟩ := firstOk_spec s
  have hlen : s.length = S.length := by simpa [ups] using congrArg List.length h2
  unfold replicate
  cases hf : (firstOk s).2 with
  | none =>
    rw [hf] at f5
    have hno : ∀ (i : Nat) C, S[i]? = some C → C.up = false := by
      intro i C hC
      have := f5.1 i
      rw [h2] at this
      simpa [hC] using this
    have e : Spec.Replica.sync S = S := by
      unfold Spec.Replica.sync
      apply List.ext_getElem?
      intro i
      rw [List.getElem?_map]
      cases hC : S[i]? with
      | none => rfl
      | some C => simp [hno i C hC]
    rw [e]
    exact ⟨⟨M, reps_gens Rep f1 M h1, f2.trans h2, h3⟩, f5.2⟩
  | some f =>
    rw [hf] at f5
    simp only
    have hfS : (S.map (·.up))[f]? = some true := by rw [← h2]; exact f5.1
    have hffS : ∀ i : Nat, i < f → (S.map (·.up))[i]? ≠ some true := by rw [← h2]; exact f5.2.1
    have key : ∀ t, t ≤ S.length → ∃ M', Inv Rep S t ((List.range t).foldl (replicateOne I f) (firstOk s).1) M' := by
      intro t
      induction t with
      | zero =>
        intro _
        refine ⟨M, reps_gens Rep f1 M h1, f2.trans h2, ?_, fun i C hC _ => h3 i C hC, by intro i hi; omega⟩
        intro i C hC _ q hq
        simp only [List.take_zero, merge_nil, Option.none_or]
        exact h3 i C hC q hq
      | succ t ih =>
        intro ht
        obtain ⟨M', hM'⟩ := ih (by omega)
        rw [List.range_succ, List.foldl_append]
        exact one_spec I Rep hI S f hfS hffS t (by omega) _ M' hM'
    obtain ⟨M', k⟩ := key S.length (Nat.le_refl _)
    rw [hlen]
    have hup : (Spec.Replica.sync S).map (·.up) = S.map (·.up) := by
      unfold Spec.Replica.sync
      rw [List.map_map]
      apply List.map_congr_left
      intro C _
      simp only [Function.comp]
      split <;> rfl
    refine ⟨⟨M', k.reps, k.up.trans hup.symm, ?_⟩, ?_⟩
    · intro i C hC q hq
      unfold Spec.Replica.sync at hC
      simp only [List.getElem?_map, Option.map_eq_some_iff] at hC
      obtain ⟨D, hD, rfl⟩ := hC
      by_cases hu : D.up = true
      · simp only [hu, if_true]
        rw [k.merged i D hD hu q hq, List.take_length]
        -- what it holds is in there
        cases hm : Spec.Replica.merge S q with
        | some v => rfl
        | none =>
          simp only [Option.none_or]
          unfold Spec.Replica.merge at hm
          cases hfd : S.find? fun c => c.up && (c.conf q).isSome with
          | none =>
            have := List.find?_eq_none.mp hfd D (List.mem_of_getElem? hD)
            simpa [hu] using this
          | some E =>
            have h1 := List.find?_some hfd
            simp only [Bool.and_eq_true] at h1
            rw [hfd] at hm
            simp only [Option.bind_some] at hm
            rw [hm] at h1; simp at h1
      · have hu' : D.up = false := by simpa using hu
        simp only [hu', Bool.false_eq_true, if_false]
        exact k.away i D hD hu' q hq
    · intro i
      rcases Nat.lt_or_ge i S.length with h1 | h1
      · exact k.fresh i h1
      · intro c hc
        have : ((List.range S.length).foldl (replicateOne I f) (firstOk s).1).length = S.length := by
          simpa [ups] using congrArg List.length k.up
        have := (List.getElem?_eq_some_iff.mp hc).1
        omega

end
end Props.Rpl
