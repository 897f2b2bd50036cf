import Verif.Model.Caches
import Verif.Props.RecIter
/- Notifications that tell of a change, and hearing them. -/
namespace Props.Notify
open Wv Wv.TempGen Spec.Conf Spec.Walk
open Wv.Key (fold Names)
open Props.Gens

/-- Notifications of a change from one configuration to another: what each says is so afterwards, and all that changes is in them. -/
structure Tells (m m' : Spec.Conf.State) (d : List Delta) : Prop where
  key : ∀ x ∈ d, Names x.1
  says : ∀ x ∈ d, m' (fold x.1) = x.2
  all : ∀ q, m q ≠ m' q → ∃ x ∈ d, fold x.1 = q

/-- A generator that behaves as a configuration and tells of its changes. -/
structure Speaks {σ : Type} (I : NGen σ) (Rep : σ → Spec.Conf.State → Prop) : Prop where
  behaves : Behaves I.toIGen Rep
  closed : ∀ s m, Rep s m → Closed m
  bounded : ∀ s m, Rep s m → Bounded m
  tells : ∀ s m, Rep s m → ∀ (k : Text) v, Tells m (Spec.Conf.set m k v) (I.notes s (Key.parse k) v)

/-- Hearing notifications: each is a call of `set`. -/
def replay (c : Spec.Conf.State) (d : List Delta) : Spec.Conf.State :=
  d.foldl (fun c x => Spec.Conf.set c (Spec.Path.write x.1 false) x.2) c

theorem place_write (ns : List Seg) (h : Names ns) : place (Spec.Path.write ns false) = fold ns := by
  rw [place_eq, Key.names_write ns false h]

theorem dir_write (ns : List Seg) (h : Names ns) : Spec.Path.dir (Spec.Path.write ns false) = false :=
  Key.dir_write ns false h (by simp)

theorem parse_write (ns : List Seg) (h : Names ns) : Key.parse (Spec.Path.write ns false) = ns := by
  rw [Key.parse_write ns false h (by simp)]; simp [Key.mk]

/-- A relation between what is heard and what is so that hearing keeps. -/
structure Kept (R : Option Text → Option Text → Prop) : Prop where
  refl : ∀ v, R v v
  made : ∀ x y, R x y → y ≠ none → R (some (x.getD [])) y

/-- Hearing notifications of a change leaves what is heard in the relation to what is so afterwards, everywhere it was before and
    everywhere something is notified. -/
theorem replay_kept (R : Option Text → Option Text → Prop) (hR : Kept R) (m' : Spec.Conf.State) (hc : Closed m') (d : List Delta) :
    (∀ x ∈ d, Names x.1) → (∀ x ∈ d, m' (fold x.1) = x.2) → ∀ (c : Spec.Conf.State) (q : Place),
    ((∃ x ∈ d, fold x.1 = q) ∨ R (c q) (m' q)) → R (replay c d q) (m' q) := by
  induction d with
  | nil => intro _ _ c q h; rcases h with ⟨x, hx, _⟩ | h
           · simp at hx
           · exact h
  | cons x d ih =>
    intro hk hs c q h
    obtain ⟨k, v⟩ := x
    have hkn := hk (k, v) (by simp)
    have hsv : m' (fold k) = v := hs (k, v) (by simp)
    show R (replay (Spec.Conf.set c (Spec.Path.write k false) v) d q) (m' q)
    refine ih (fun x hx => hk x (by simp [hx])) (fun x hx => hs x (by simp [hx])) _ q ?_
    by_cases hd : ∃ x ∈ d, fold x.1 = q
    · exact Or.inl hd
    · right
      have hq : fold k = q ∨ R (c q) (m' q) := by
        rcases h with ⟨x, hx, he⟩ | h
        · rcases List.mem_cons.mp hx with rfl | hx
          · exact Or.inl he
          · exact absurd ⟨x, hx, he⟩ hd
        · exact Or.inr h
      cases v with
      | none =>
        simp only [Spec.Conf.set, place_write k hkn]
        split
        · rename_i hp
          obtain ⟨r, rfl⟩ := hp
          have : m' (fold k ++ r) = none := by
            apply Decidable.byContradiction
            intro hn
            exact hc _ _ hn hsv
          rw [this]; exact hR.refl none
        · rename_i hp
          rcases hq with rfl | hq
          · exact absurd (List.prefix_refl _) hp
          · exact hq
      | some v =>
        simp only [Spec.Conf.set, place_write k hkn, dir_write k hkn, Bool.false_eq_true, if_false]
        split
        · rename_i he; subst he; rw [hsv]; exact hR.refl _
        · rename_i hne
          rcases hq with rfl | hq
          · exact absurd rfl hne
          · split
            · rename_i hp
              obtain ⟨r, hr⟩ := hp
              exact hR.made _ _ hq (hc q r (by rw [hr, hsv]; simp))
            · exact hq

theorem kept_eq : Kept (· = ·) where
  refl := fun _ => rfl
  made := by
    intro x y h hy
    subst h
    cases x with
    | none => exact absurd rfl hy
    | some v => rfl

/-- What is in step stays in step. -/
theorem replay_eq (m m' : Spec.Conf.State) (hc : Closed m') (d : List Delta) (h : Tells m m' d) : replay m d = m' := by
  funext q
  refine replay_kept _ kept_eq m' hc d h.key h.says m q ?_
  by_cases hq : m q = m' q
  · exact Or.inr hq
  · exact Or.inl (h.all q hq)

/-! The in-memory generator -/

mutual
theorem visit_keys (ps : List Seg) (hp : Names ps) : (t : Tree) → Good t → ∀ x ∈ visit (ones ps) t, Names x.1
  | .node k v c, h => by
    intro x hx
    have hg : (∀ x ∈ c, ∃ n : Seg, x.key = [n] ∧ n ≠ [] ∧ Spec.Path.slash ∉ n) ∧ ∀ x ∈ c, Good x := by cases h; exact ⟨‹_›, ‹_›⟩
    rw [visit] at hx
    rcases List.mem_append.mp hx with hx | hx
    · exact visitAll_keys ps hp c hg.1 hg.2 x hx
    · simp only [List.mem_singleton] at hx
      subst hx
      rw [fullkey_ones ps hp]; exact hp
theorem visitAll_keys (ps : List Seg) (hp : Names ps) : (c : List Tree) → (∀ x ∈ c, ∃ n : Seg, x.key = [n] ∧ n ≠ [] ∧ Spec.Path.slash ∉ n) →
    (∀ x ∈ c, Good x) → ∀ x ∈ visitAll (ones ps) c, Names x.1
  | [], _, _ => by simp [visitAll]
  | .node k v c :: r, h1, h2 => by
    intro x hx
    rw [visitAll] at hx
    rcases List.mem_append.mp hx with hx | hx
    · obtain ⟨n, hn, h3, h4⟩ := h1 (.node k v c) (by simp)
      have hn : k = [n] := hn
      have hp' : Names (ps ++ [n]) := by
        intro y hy
        rcases List.mem_append.mp hy with hy | hy
        · exact hp y hy
        · simp only [List.mem_singleton] at hy; subst hy; exact ⟨h3, h4⟩
      have e : ones ps ++ [k] = ones (ps ++ [n]) := by simp [ones, hn]
      rw [e] at hx
      exact visit_keys _ hp' (.node k v c) (h2 _ (by simp)) x hx
    · exact visitAll_keys ps hp r (fun y hy => h1 y (by simp [hy])) (fun y hy => h2 y (by simp [hy])) x hx
end

theorem good_child {t : Tree} (h : Good t) : (∀ x ∈ t.children, ∃ n : Seg, x.key = [n] ∧ n ≠ [] ∧ Spec.Path.slash ∉ n) ∧ ∀ x ∈ t.children, Good x := by
  cases h; exact ⟨‹_›, ‹_›⟩

theorem names_snoc {ps : List Seg} (hp : Names ps) {n : Seg} (h : n ≠ [] ∧ Spec.Path.slash ∉ n) : Names (ps ++ [n]) := by
  intro y hy
  rcases List.mem_append.mp hy with hy | hy
  · exact hp y hy
  · simp only [List.mem_singleton] at hy; subst hy; exact h

theorem remove_keys (ord : List Tree → List Tree) (ks : List Key) : ∀ (ps : List Seg) (t : Tree), Names ps → Good t → ∀ r,
    TempGen.removeLoop ord (ones ps) t ks = some r → ∀ x ∈ r.2, Names x.1 := by
  induction ks with
  | nil =>
    intro ps t hp ht r h x hx
    simp only [TempGen.removeLoop, Option.some.injEq] at h
    subst h
    exact visit_keys ps hp t ht x hx
  | cons k ks ih =>
    intro ps t hp ht r h x hx
    simp only [TempGen.removeLoop] at h
    by_cases hk : Key.isempty k = true
    · rw [if_pos hk] at h
      exact ih ps t hp ht r h x hx
    · rw [if_neg hk] at h
      cases hl : lookup t.children k with
      | none => rw [hl] at h; cases h
      | some c =>
        rw [hl] at h
        simp only at h
        have hm : c ∈ t.children := List.mem_of_find?_eq_some hl
        obtain ⟨n, hn, hok⟩ := (good_child ht).1 c hm
        have e : ones ps ++ [c.key] = ones (ps ++ [n]) := by simp [ones, hn]
        rw [e] at h
        cases hr : TempGen.removeLoop ord (ones (ps ++ [n])) c ks with
        | none => rw [hr] at h; cases h
        | some y =>
          rw [hr] at h
          have := ih (ps ++ [n]) c (names_snoc hp hok) ((good_child ht).2 c hm) y hr
          obtain ⟨y1, y2⟩ := y
          cases y1 with
          | none => simp only [Option.some.injEq] at h; subst h; exact this x hx
          | some _ => simp only [Option.some.injEq] at h; subst h; exact this x hx

theorem set_keys (ord : List Tree → List Tree) (v : Value) (ns : List Seg) (hn : Names ns) : ∀ (ps : List Seg) (t : Option Tree) (prev : Key),
    Names ps → (∀ x, t = some x → Good x) → ∀ x ∈ (setLoop ord v (ones ps) t prev (ones ns)).2, Names x.1 := by
  induction ns with
  | nil =>
    intro ps t prev hp ht x hx
    simp only [ones, List.map_nil, setLoop] at hx
    cases t with
    | none =>
      simp only [List.mem_singleton] at hx
      subst hx
      have := fullkey_ones ps hp
      simp only [ones] at this
      rw [this]; exact hp
    | some t =>
      obtain ⟨k, w, c⟩ := t
      simp only at hx
      split at hx
      · simp only [List.mem_singleton] at hx
        subst hx
        have := fullkey_ones ps hp
        simp only [ones] at this
        rw [this]; exact hp
      · simp at hx
  | cons n ns ih =>
    intro ps t prev hp ht x hx
    have hok := hn n (by simp)
    have hns : Names ns := fun y hy => hn y (by simp [hy])
    have hne : Key.isempty [n] = false := rfl
    have eo : ones (n :: ns) = [n] :: ones ns := rfl
    rw [eo] at hx
    -- the node reached, made if there is none
    have key : ∀ (u : Tree) (d0 : List Delta), Good u → (∀ x ∈ d0, Names x.1) →
        (x ∈ d0 ++ (match lookup u.children [n] with
          | some c => (setLoop ord v (ones ps ++ [c.key]) (some c) [n] (ones ns)).2
          | none => (setLoop ord v (ones ps ++ [[n]]) none [n] (ones ns)).2)) → Names x.1 := by
      intro u d0 hu h0 hx
      rcases List.mem_append.mp hx with hx | hx
      · exact h0 x hx
      · cases hl : lookup u.children [n] with
        | none =>
          rw [hl] at hx
          have e : ones ps ++ [[n]] = ones (ps ++ [n]) := by simp [ones]
          simp only [e] at hx
          exact ih hns (ps ++ [n]) none [n] (names_snoc hp hok) (by simp) x hx
        | some c =>
          rw [hl] at hx
          have hm : c ∈ u.children := List.mem_of_find?_eq_some hl
          obtain ⟨n', hn', hok'⟩ := (good_child hu).1 c hm
          have e : ones ps ++ [c.key] = ones (ps ++ [n']) := by simp [ones, hn']
          simp only [e] at hx
          exact ih hns (ps ++ [n']) (some c) [n] (names_snoc hp hok') (by rintro y ⟨⟩; exact (good_child hu).2 c hm) x hx
    cases t with
    | none =>
      refine key (.node prev [] []) [(fullkey (ones ps), some [])] (Good.node _ _ _ (by simp) (by simp [Uniq]) (by simp)) ?_ ?_
      · intro y hy
        simp only [List.mem_singleton] at hy
        subst hy
        rw [fullkey_ones ps hp]; exact hp
      · simp only [setLoop, hne, Bool.false_eq_true, if_false] at hx
        cases hl : lookup (Tree.node prev [] []).children [n] with
        | none => rw [hl] at hx; exact hx
        | some c => rw [hl] at hx; exact hx
    | some t =>
      refine key t [] (ht t rfl) (by simp) ?_
      simp only [setLoop, hne, Bool.false_eq_true, if_false] at hx
      cases hl : lookup t.children [n] with
      | none => rw [hl] at hx; exact hx
      | some c => rw [hl] at hx; exact hx

theorem call_keys (g : Gen) (m : Spec.Conf.State) (h : Temp.Holds g m) (c : Temp.SetCall) : ∀ x ∈ (Temp.call g c).2, Names x.1 := by
  have hnm := Key.names_ok c.key
  have hp : Key.parse c.key = Key.mk (Spec.Path.names c.key) (Spec.Path.dir c.key) := Key.parse_eq _
  have hdn := Key.dir_names c.key
  have hseg : segments (Spec.Path.names c.key) = ones (Spec.Path.names c.key) := by
    have := segments_mk (Spec.Path.names c.key) false hnm; simpa [Key.mk] using this
  unfold Temp.call TempGen.set
  rw [hp, stripSlash_mk _ _ hnm hdn]
  simp only [hseg]
  intro x hx
  cases hv : c.value with
  | none =>
    rw [hv] at hx
    simp only at hx
    cases hr : g.root with
    | none => rw [hr] at hx; simp at hx
    | some t =>
      rw [hr] at hx
      simp only at hx
      cases hl : TempGen.removeLoop c.order [] t (ones (Spec.Path.names c.key)) with
      | none => rw [hl] at hx; simp at hx
      | some r =>
        rw [hl] at hx
        exact remove_keys c.order _ [] t (by simp [Names]) (h.1 t hr) r hl x hx
  | some v =>
    rw [hv] at hx
    simp only at hx
    split at hx
    · simp at hx
    · exact set_keys c.order v _ hnm [] g.root [] (by simp [Names]) (fun y hy => h.1 y hy) x hx

/-- The in-memory generator tells of its changes. -/
theorem temp_speaks (ord) (ho : ∀ l, (ord l).Perm l) :
    Speaks (NGen.temp ord) (fun g m => Temp.Holds g m ∧ Closed m ∧ Bounded m) where
  behaves := {
    reads := fun g m h => temp_reads ord g m h.1
    set := fun g m h k v => ⟨(Temp.call_spec g m h.1 ⟨k, v, ord, ho⟩).1, Rec.set_closed m h.2.1 k v, Rec.set_bounded m h.2.2 k v⟩
    commit := fun _ _ h => h
    refresh := fun _ _ h => h
    prefetch := fun _ _ h _ _ => h
    flush := fun _ _ h => h }
  closed := fun _ _ h => h.2.1
  bounded := fun _ _ h => h.2.2
  tells := by
    intro g m h k v
    obtain ⟨-, h2⟩ := Temp.call_spec g m h.1 ⟨k, v, ord, ho⟩
    refine ⟨call_keys g m h.1 ⟨k, v, ord, ho⟩, ?_, ?_⟩
    · intro x hx
      obtain ⟨q, hq, h3, -⟩ := (h2.2 (fold x.1) x.2).mp (List.mem_map.mpr ⟨x, hx, rfl⟩)
      simp only [List.nil_append] at hq
      rw [hq]; exact h3
    · intro q hq
      obtain ⟨x, hx, he⟩ := List.mem_map.mp ((h2.2 q _).mpr ⟨q, by simp, rfl, hq⟩)
      obtain ⟨e1, -⟩ := Prod.mk.inj he
      exact ⟨x, hx, e1⟩

/-- Hearing notifications in an in-memory generator. -/
theorem hear_holds (ord) (ho : ∀ l, (ord l).Perm l) (d : List Delta) : (∀ x ∈ d, Names x.1) → ∀ (g : Gen) (c : Spec.Conf.State), Temp.Holds g c →
    Temp.Holds (Cache.hear ord g d) (replay c d) := by
  induction d with
  | nil => intro _ g c h; exact h
  | cons x d ih =>
    intro hk g c h
    have := (Temp.call_spec g c h ⟨Spec.Path.write x.1 false, x.2, ord, ho⟩).1
    simp only [Temp.call, parse_write x.1 (hk x (by simp))] at this
    exact ih (fun y hy => hk y (by simp [hy])) _ _ this

end Props.Notify
