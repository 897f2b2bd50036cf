import Verif.Lemmas.TransRead
/- Helper lemmas for C28: what committing a tree of changes does. -/
namespace Tr
open Wv Wv.TempGen Wv.TransGen Spec.Conf
open Wv.Key (fold Names)
open Spec.Path (slash)
open Props.Gens (Reads Behaves)

/-- Nothing is below what does not exist. -/
def Closed (m : State) : Prop := ∀ p q, m p = none → p <+: q → m q = none

/-- A configuration with another one put at a place. -/
def graft (m : State) (P : Place) (f : State) : State := fun q => if P <+: q then f (q.drop P.length) else m q

/-- A configuration with others put below a place, at some names. -/
def graftAll (m : State) (P : Place) (g : List Byte → Option State) : State := fun q =>
  if P <+: q then match q.drop P.length with
    | [] => m q
    | n :: r => match g n with | some f => f r | none => m q
  else m q

theorem graft_in (m : State) (P : Place) (f : State) (r : Place) : graft m P f (P ++ r) = f r := by
  simp [graft]

theorem graft_out (m : State) (P : Place) (f : State) (q : Place) (h : ¬ P <+: q) : graft m P f q = m q := by
  simp [graft, h]

theorem graftAll_top (m : State) (P : Place) (g) : graftAll m P g P = m P := by
  simp [graftAll]

theorem graftAll_in (m : State) (P : Place) (g) (n : List Byte) (r : Place) :
    graftAll m P g (P ++ n :: r) = match g n with | some f => f r | none => m (P ++ n :: r) := by
  simp [graftAll]

theorem graftAll_out (m : State) (P : Place) (g) (q : Place) (h : ¬ P <+: q) : graftAll m P g q = m q := by
  simp [graftAll, h]

/-- A place is below another one, at it, or not. -/
theorem where_ (P q : Place) : (¬ P <+: q) ∨ q = P ∨ ∃ n r, q = P ++ n :: r := by
  by_cases h : P <+: q
  · obtain ⟨r, rfl⟩ := h
    cases r with
    | nil => exact Or.inr (Or.inl (by simp))
    | cons n r => exact Or.inr (Or.inr ⟨n, r, rfl⟩)
  · exact Or.inl h

theorem below_one (P : Place) (n n' : List Byte) (r : Place) : P ++ [n] <+: P ++ n' :: r ↔ n' = n := by
  rw [List.prefix_append_right_inj]
  constructor
  · intro h
    obtain ⟨s, hs⟩ := h
    simp at hs
    exact hs.1.symm
  · rintro rfl
    exact ⟨r, rfl⟩

theorem not_below (P : Place) (n : List Byte) (q : Place) (h : ¬ P <+: q) : ¬ P ++ [n] <+: q :=
  fun h' => h (List.IsPrefix.trans ⟨[n], rfl⟩ h')

theorem not_below_self (P : Place) (n : List Byte) : ¬ P ++ [n] <+: P := by
  intro h
  have := h.length_le
  rw [List.length_append, List.length_singleton] at this
  omega

/-- Whatever a place is below exists. -/
def Above (m : State) (P : Place) : Prop := ∀ p, p <+: P → p ≠ P → m p ≠ none

theorem Above.child {m : State} {P : Place} (h : Above m P) (hp : m P ≠ none) (n : List Byte) : Above m (P ++ [n]) := by
  intro p h1 h2
  by_cases h3 : p = P
  · rw [h3]; exact hp
  · refine h p ?_ h3
    rcases List.prefix_concat_iff.mp h1 with h | h
    · exact absurd h h2
    · exact h

/-- Giving a value to a place when those above exist. -/
theorem setAt_above (m : State) (P : Place) (v : Value) (h : Above m P) (q : Place) : setAt m P v q = if q = P then some v else m q := by
  unfold setAt
  by_cases h1 : q = P
  · rw [if_pos h1, if_pos h1]
  · rw [if_neg h1, if_neg h1]
    by_cases h2 : q <+: P
    · rw [if_pos h2]
      have := h q h2 h1
      cases hq : m q with
      | none => exact absurd hq this
      | some x => rfl
    · rw [if_neg h2]

theorem above_graft (m : State) (P : Place) (n : List Byte) (f : State) (h : Above m P) : Above (graft m (P ++ [n]) f) P := by
  intro p hp1 hp2
  rw [graft_out _ _ _ _ (fun h => by have := h.length_le; have := hp1.length_le; simp at *; omega)]
  exact h p hp1 hp2

section
variable {σ : Type} (I : IGen σ) (Rep : σ → State → Prop) (B : Behaves I Rep) (C : ∀ s m, Rep s m → Closed m)
include B

/-- The names that are removed. -/
def gone (t : Tree) (l : List (Key × Option Value)) (n : List Byte) : Bool :=
  (lk t.children n).isNone && l.any fun x => decide (fold x.1 = [n])

/-- Removing some of what is below a place. -/
theorem removeAll (ps : List Seg) (hp : Names ps) (t : Tree) (l : List (Key × Option Value)) :
    (∀ x ∈ l, ∃ n : Seg, x.1 = [n] ∧ n ≠ [] ∧ slash ∉ n) → ∀ (b : σ) (m : State), Rep b m →
    Rep (l.foldl (fun b x => if (findchild t x.1).isNone then I.set b (Key.join ps x.1) none else b) b)
      (graftAll m (fold ps) fun n => if gone t l n then some Spec.Conf.empty else none) := by
  induction l with
  | nil =>
    intro _ b m h
    have e : (graftAll m (fold ps) fun n => if gone t [] n then some Spec.Conf.empty else none) = m := by
      funext q
      rcases where_ (fold ps) q with hq | rfl | ⟨n, r, rfl⟩
      · rw [graftAll_out _ _ _ _ hq]
      · rw [graftAll_top]
      · rw [graftAll_in]; simp [gone]
    rw [e]
    exact h
  | cons x l ih =>
    intro hl b m h
    obtain ⟨n, hn, hnn⟩ := hl x (by simp)
    have ih := ih fun y hy => hl y (by simp [hy])
    rw [List.foldl_cons]
    have hf : findchild t x.1 = lk t.children (n.map tolower) := by
      rw [hn, findchild, lookup_eq]; simp [Key.isempty]
    have hx : ∀ n', fold x.1 = [n'] ↔ n' = n.map tolower := by
      intro n'; rw [hn]; simp [fold, eq_comm]
    rw [hf]
    by_cases hk : (lk t.children (n.map tolower)).isNone = true
    · rw [if_pos hk]
      obtain ⟨hj, hj'⟩ := join_names ps n hp hnn
      have h1 := bset I Rep B b m h (ps ++ [n]) hj' none
      rw [← hj, ← hn] at h1
      have e : (graftAll (change m (fold (Key.join ps x.1)) none) (fold ps) fun n => if gone t l n then some Spec.Conf.empty else none) =
          graftAll m (fold ps) fun n => if gone t (x :: l) n then some Spec.Conf.empty else none := by
        have e1 : fold (Key.join ps x.1) = fold ps ++ [n.map tolower] := by rw [hn, hj]; simp [fold]
        rw [e1]
        funext q
        rcases where_ (fold ps) q with hq | rfl | ⟨n', r, rfl⟩
        · rw [graftAll_out _ _ _ _ hq, graftAll_out _ _ _ _ hq]
          simp only [change]
          rw [if_neg (not_below _ _ _ hq)]
        · rw [graftAll_top, graftAll_top]
          simp only [change]
          rw [if_neg (not_below_self _ _)]
        · rw [graftAll_in, graftAll_in]
          simp only [change, below_one]
          by_cases hn' : n' = n.map tolower
          · have hg : gone t (x :: l) n' = true := by
              simp only [gone, List.any_cons, Bool.and_eq_true, Bool.or_eq_true, decide_eq_true_eq]
              exact ⟨by rw [hn']; exact hk, Or.inl ((hx _).mpr hn')⟩
            rw [hg]
            simp only [hn', if_true]
            split
            · rename_i f hf
              split at hf
              · cases hf; rfl
              · cases hf
            · rfl
          · have hg : gone t (x :: l) n' = gone t l n' := by
              have : decide (fold x.1 = [n']) = false := decide_eq_false fun h => hn' ((hx _).mp h)
              simp only [gone, List.any_cons, this, Bool.false_or]
            rw [hg]
            simp only [hn', if_false]
      rw [← e]
      exact ih _ _ h1
    · rw [if_neg hk]
      have e : (fun n => if gone t (x :: l) n then some Spec.Conf.empty else none) =
          fun n => if gone t l n then some (Spec.Conf.empty) else none := by
        funext n'
        have hg : gone t (x :: l) n' = gone t l n' := by
          by_cases hn' : n' = n.map tolower
          · rw [← hn'] at hk
            simp only [gone, Bool.not_eq_true] at hk ⊢
            rw [hk]; simp
          · have : decide (fold x.1 = [n']) = false := decide_eq_false fun h => hn' ((hx _).mp h)
            simp only [gone, List.any_cons, this, Bool.false_or]
        rw [hg]
      rw [e]
      exact ih _ _ h

include C

/-- After the value is set and the children that are not wanted are removed. -/
theorem prune_spec (ps : List Seg) (hp : Names ps) (t : Tree) (b : σ) (m : State) (h : Rep b m) (hP : m (fold ps) ≠ none) :
    ∃ m', Rep (prune I ps t b) m' ∧ (∀ q, ¬ fold ps <+: q → m' q = m q) ∧ m' (fold ps) = m (fold ps) ∧
      ∀ n r, lk t.children n = none → m' (fold ps ++ n :: r) = none := by
  obtain ⟨k, hk1, hk2, hk3⟩ := names_parse ps hp
  have hi := reads_lists (B.reads b m h) k
  rw [hk1, hk2] at hi
  unfold prune
  cases hb : I.iterator b ps with
  | none =>
    rw [hb] at hi
    have : ∀ q, m (fold ps ++ q) = none := hi
    exact absurd (by simpa using this []) hP
  | some l =>
    rw [hb] at hi
    obtain ⟨l1, l2, l3⟩ := hi
    refine ⟨_, removeAll I Rep B ps hp t l (fun x hx => (l2 x hx).1) b m h, ?_, ?_, ?_⟩
    · intro q hq; rw [graftAll_out _ _ _ _ hq]
    · rw [graftAll_top]
    · intro n r hn
      rw [graftAll_in]
      by_cases hm : m (fold ps ++ [n]) = none
      · have := C b m h _ (fold ps ++ n :: r) hm ((below_one _ _ _ _).mpr rfl)
        rw [this]
        split
        · rename_i f hf
          split at hf
          · cases hf; rfl
          · cases hf
        · rfl
      · obtain ⟨v, hv⟩ := Option.ne_none_iff_exists'.mp hm
        obtain ⟨x, hx, hx1, _⟩ := (l3 n v).mp hv
        have hg : gone t l n = true := by
          simp only [gone, hn, Option.isNone_none, Bool.true_and, List.any_eq_true, decide_eq_true_eq]
          exact ⟨x, hx, hx1⟩
        rw [hg]
        rfl

mutual
theorem applyValues_spec (ps : List Seg) (hp : Names ps) : (t : Tree) → Good t → ∀ (b : σ) (m : State), Rep b m → Above m (fold ps) →
    Rep (applyValues I ps t b) (graft m (fold ps) (look t))
  | .node k v c, hg, b, m, h, ha => by
    obtain ⟨hk, hu, hc⟩ : (∀ x ∈ c, ∃ n : Seg, x.key = [n] ∧ n ≠ [] ∧ slash ∉ n) ∧ Uniq c ∧ ∀ x ∈ c, Good x := by
      cases hg; exact ⟨‹_›, ‹_›, ‹_›⟩
    rw [applyValues]
    have h1 := bset I Rep B b m h ps hp (some v)
    have hs : ∀ q, change m (fold ps) (some v) q = if q = fold ps then some v else m q := setAt_above m (fold ps) v ha
    obtain ⟨m2, h2, p1, p2, p3⟩ := prune_spec I Rep B C ps hp (.node k v c) _ _ h1 (by rw [hs, if_pos rfl]; simp)
    rw [hs, if_pos rfl] at p2
    have ha2 : Above m2 (fold ps) := by
      intro p hp1 hp2
      have : ¬ fold ps <+: p := fun h => hp2 (List.IsPrefix.eq_of_length hp1 (Nat.le_antisymm hp1.length_le h.length_le))
      rw [p1 p this, hs, if_neg hp2]
      exact ha p hp1 hp2
    have h3 := applyValuesAll_spec ps hp c hk hu hc _ m2 h2 ha2 (by rw [p2]; simp)
    have e : graftAll m2 (fold ps) (fun n => (lk c n).map look) = graft m (fold ps) (look (.node k v c)) := by
      funext q
      rcases where_ (fold ps) q with hq | rfl | ⟨n, r, rfl⟩
      · rw [graftAll_out _ _ _ _ hq, graft_out _ _ _ _ hq, p1 q hq, hs, if_neg (fun h => hq (by rw [h]; exact List.prefix_refl _))]
      · rw [graftAll_top, p2]
        have := graft_in m (fold ps) (look (.node k v c)) []
        rw [List.append_nil] at this
        rw [this]
        rfl
      · rw [graftAll_in, graft_in, look_cons]
        simp only [children_node]
        cases hl : lk c n with
        | none => exact p3 n r hl
        | some x => rfl
    rw [← e]
    exact h3
theorem applyValuesAll_spec (ps : List Seg) (hp : Names ps) : (c : List Tree) →
    (∀ x ∈ c, ∃ n : Seg, x.key = [n] ∧ n ≠ [] ∧ slash ∉ n) → Uniq c → (∀ x ∈ c, Good x) →
    ∀ (b : σ) (m : State), Rep b m → Above m (fold ps) → m (fold ps) ≠ none →
    Rep (applyValuesAll I ps c b) (graftAll m (fold ps) fun n => (lk c n).map look)
  | [], _, _, _, b, m, h, _, _ => by
    rw [applyValuesAll]
    have e : (graftAll m (fold ps) fun n => (lk [] n).map look) = m := by
      funext q
      rcases where_ (fold ps) q with hq | rfl | ⟨n, r, rfl⟩
      · rw [graftAll_out _ _ _ _ hq]
      · rw [graftAll_top]
      · rw [graftAll_in]; rfl
    rw [e]
    exact h
  | .node k v c :: rest, hk, hu, hc, b, m, h, ha, hP => by
    obtain ⟨n, hn, hnn⟩ := hk (.node k v c) (by simp)
    have hn : k = [n] := hn
    obtain ⟨hj, hj'⟩ := join_names ps n hp hnn
    have hun := List.nodup_cons.mp (show (low (.node k v c) :: rest.map low).Nodup from hu)
    have e1 : fold (ps ++ [n]) = fold ps ++ [n.map tolower] := by simp [fold]
    rw [applyValuesAll, hn, hj]
    have h1 := applyValues_spec (ps ++ [n]) hj' (.node [n] v c) (by rw [← hn]; exact hc _ (by simp)) b m h
      (by rw [e1]; exact ha.child hP _)
    rw [e1] at h1
    have hout : ∀ q, ¬ fold ps ++ [n.map tolower] <+: q → graft m (fold ps ++ [n.map tolower]) (look (.node [n] v c)) q = m q :=
      fun q hq => graft_out _ _ _ _ hq
    have h2 := applyValuesAll_spec ps hp rest (fun x hx => hk x (by simp [hx])) hun.2 (fun x hx => hc x (by simp [hx])) _ _ h1
      (by
        intro p hp1 hp2
        rw [hout p (fun h => by have := h.length_le; have := hp1.length_le; simp at *; omega)]
        exact ha p hp1 hp2)
      (by rw [hout _ (not_below_self _ _)]; exact hP)
    have e : (graftAll (graft m (fold ps ++ [n.map tolower]) (look (.node [n] v c))) (fold ps) fun n => (lk rest n).map look) =
        graftAll m (fold ps) fun n' => (lk (.node [n] v c :: rest) n').map look := by
      funext q
      rcases where_ (fold ps) q with hq | rfl | ⟨n', r, rfl⟩
      · rw [graftAll_out _ _ _ _ hq, graftAll_out _ _ _ _ hq, hout _ (not_below _ _ _ hq)]
      · rw [graftAll_top, graftAll_top, hout _ (not_below_self _ _)]
      · rw [graftAll_in, graftAll_in]
        by_cases hn' : n' = n.map tolower
        · have l1 : lk (.node [n] v c :: rest) n' = some (.node [n] v c) := by
            unfold lk; rw [List.find?_cons]
            have : decide (low (.node [n] v c) = [n']) = true := decide_eq_true (by rw [hn']; rfl)
            rw [this]
          have l2 : lk rest n' = none := by
            rw [lk_none]
            intro x hx hx2
            refine hun.1 (List.mem_map.mpr ⟨x, hx, ?_⟩)
            rw [hx2, hn', hn]; rfl
          rw [l1, l2]
          simp only [Option.map_none, Option.map_some]
          have := graft_in m (fold ps ++ [n.map tolower]) (look (.node [n] v c)) r
          rw [← this, hn']
          simp
        · have l1 : lk (.node [n] v c :: rest) n' = lk rest n' := by
            unfold lk; rw [List.find?_cons]
            have : decide (low (.node [n] v c) = [n']) = false := decide_eq_false fun h => hn' (by
              have : [n.map tolower] = [n'] := h
              simpa using this.symm)
            rw [this]
          rw [l1, hout _ (fun h => hn' ((below_one _ _ _ _).mp h))]
    rw [← e]
    exact h2
end

mutual
theorem applyChanges_spec (ps : List Seg) (hp : Names ps) : (t : CTree) → CGood t → ∀ (b : σ) (m : State), Rep b m →
    (Quiet t.mode ∨ Above m (fold ps)) →
    Rep (applyChanges I ps t b) (graft m (fold ps) (den t fun q => m (fold ps ++ q)))
  | .node k md c, hg, b, m, h, ha => by
    obtain ⟨hk, hu, hc, ht, hb⟩ : (∀ x ∈ c, ∃ n : Seg, x.key = [n] ∧ n ≠ [] ∧ slash ∉ n) ∧ CUniq c ∧ (∀ x ∈ c, CGood x) ∧
        (∀ t, md = .newtree (some t) → Good t) ∧ (md = .blank → ∀ x ∈ c, Quiet x.mode) := by
      cases hg; exact ⟨‹_›, ‹_›, ‹_›, ‹_›, ‹_›⟩
    -- once the node itself is changed
    have rest : ∀ (b1 : σ) (m1 : State), Part md → Rep b1 m1 → (∀ q, m1 q = if q = fold ps then top md (m (fold ps)) else m q) →
        ((∀ x ∈ c, Quiet x.mode) ∨ (Above m1 (fold ps) ∧ m1 (fold ps) ≠ none)) →
        Rep (applyChangesAll I ps c b1) (graft m (fold ps) (den (.node k md c) fun q => m (fold ps ++ q))) := by
      intro b1 m1 hpart h1 hm1 ha1
      have h2 := applyChangesAll_spec ps hp c hk hu hc b1 m1 h1 ha1
      have e : graftAll m1 (fold ps) (fun n => (clk c n).map fun x => den x fun r => m1 (fold ps ++ n :: r)) =
          graft m (fold ps) (den (.node k md c) fun q => m (fold ps ++ q)) := by
        have hne : ∀ n r, m1 (fold ps ++ n :: r) = m (fold ps ++ n :: r) := by
          intro n r; rw [hm1, if_neg (by simp)]
        funext q
        rcases where_ (fold ps) q with hq | rfl | ⟨n, r, rfl⟩
        · rw [graftAll_out _ _ _ _ hq, graft_out _ _ _ _ hq, hm1, if_neg (fun h => hq (by rw [h]; exact List.prefix_refl _))]
        · rw [graftAll_top, hm1, if_pos rfl]
          have := graft_in m (fold ps) (den (.node k md c) fun q => m (fold ps ++ q)) []
          rw [List.append_nil] at this
          rw [this, den_nil _ _ hpart, List.append_nil]
        · rw [graftAll_in, graft_in, den_cons _ _ hpart]
          simp only [hne]
          cases clk c n <;> rfl
      rw [← e]
      exact h2
    cases md with
    | newtree u =>
      cases u with
      | none =>
        have h1 := bset I Rep B b m h ps hp none
        have e : change m (fold ps) none = graft m (fold ps) (den (.node k (.newtree none) c) fun q => m (fold ps ++ q)) := by
          rw [den_newtree]
          funext q
          simp only [change, graft, TempGen.abs, Spec.Conf.empty]
        rw [← e, applyChanges]
        exact h1
      | some t =>
        rcases ha with ha | ha
        · exact absurd ha (by simp [CTree.mode, Quiet])
        · rw [den_newtree, applyChanges]
          exact applyValues_spec I Rep B C ps hp t (ht t rfl) b m h ha
    | newvalue v =>
      rcases ha with ha | ha
      · exact absurd ha (by simp [CTree.mode, Quiet])
      · rw [applyChanges]
        have h1 := bset I Rep B b m h ps hp (some v)
        have hs : ∀ q, change m (fold ps) (some v) q = if q = fold ps then some v else m q := setAt_above m (fold ps) v ha
        refine rest _ _ (by intro t h; cases h) h1 hs (Or.inr ⟨?_, by rw [hs, if_pos rfl]; simp⟩)
        intro p hp1 hp2
        rw [hs, if_neg hp2]
        exact ha p hp1 hp2
    | newnode =>
      rcases ha with ha | ha
      · exact absurd ha (by simp [CTree.mode, Quiet])
      · rw [applyChanges]
        by_cases hx : I.exists b ps = true
        · have hP := (bexists I Rep B b m h ps hp).mp hx
          rw [if_pos hx]
          refine rest _ _ (by intro t h; cases h) h ?_ (Or.inr ⟨ha, hP⟩)
          intro q
          by_cases hq : q = fold ps
          · rw [if_pos hq, hq]
            cases hv : m (fold ps) with
            | none => exact absurd hv hP
            | some v => rfl
          · rw [if_neg hq]
        · have hP : m (fold ps) = none := by
            cases hv : m (fold ps) with
            | none => rfl
            | some v => exact absurd ((bexists I Rep B b m h ps hp).mpr (by rw [hv]; simp)) hx
          rw [if_neg hx]
          have h1 := bset I Rep B b m h ps hp (some [])
          have hs : ∀ q, change m (fold ps) (some []) q = if q = fold ps then some [] else m q := setAt_above m (fold ps) [] ha
          refine rest _ _ (by intro t h; cases h) h1 (by intro q; rw [hs, hP]; rfl) (Or.inr ⟨?_, by rw [hs, if_pos rfl]; simp⟩)
          intro p hp1 hp2
          rw [hs, if_neg hp2]
          exact ha p hp1 hp2
    | blank =>
      rw [applyChanges]
      refine rest _ _ (by intro t h; cases h) h ?_ (Or.inl (hb rfl))
      intro q
      by_cases hq : q = fold ps
      · rw [if_pos hq, hq]; rfl
      · rw [if_neg hq]
theorem applyChangesAll_spec (ps : List Seg) (hp : Names ps) : (c : List CTree) →
    (∀ x ∈ c, ∃ n : Seg, x.key = [n] ∧ n ≠ [] ∧ slash ∉ n) → CUniq c → (∀ x ∈ c, CGood x) →
    ∀ (b : σ) (m : State), Rep b m → ((∀ x ∈ c, Quiet x.mode) ∨ (Above m (fold ps) ∧ m (fold ps) ≠ none)) →
    Rep (applyChangesAll I ps c b) (graftAll m (fold ps) fun n => (clk c n).map fun x => den x fun r => m (fold ps ++ n :: r))
  | [], _, _, _, b, m, h, _ => by
    rw [applyChangesAll]
    have e : (graftAll m (fold ps) fun n => (clk [] n).map fun x => den x fun r => m (fold ps ++ n :: r)) = m := by
      funext q
      rcases where_ (fold ps) q with hq | rfl | ⟨n, r, rfl⟩
      · rw [graftAll_out _ _ _ _ hq]
      · rw [graftAll_top]
      · rw [graftAll_in]; rfl
    rw [e]
    exact h
  | .node k md c :: rest, hk, hu, hc, b, m, h, ha => by
    obtain ⟨n, hn, hnn⟩ := hk (.node k md c) (by simp)
    have hn : k = [n] := hn
    obtain ⟨hj, hj'⟩ := join_names ps n hp hnn
    have hun := List.nodup_cons.mp (show (clow (.node k md c) :: rest.map clow).Nodup from hu)
    have e1 : fold (ps ++ [n]) = fold ps ++ [n.map tolower] := by simp [fold]
    rw [applyChangesAll, hn, hj]
    have h1 := applyChanges_spec (ps ++ [n]) hj' (.node [n] md c) (by rw [← hn]; exact hc _ (by simp)) b m h
      (by
        rcases ha with ha | ha
        · exact Or.inl (ha (.node k md c) (by simp))
        · rw [e1]; exact Or.inr (ha.1.child ha.2 _))
    rw [e1] at h1
    have hout : ∀ f q, ¬ fold ps ++ [n.map tolower] <+: q → graft m (fold ps ++ [n.map tolower]) f q = m q :=
      fun f q hq => graft_out _ _ _ _ hq
    have h2 := applyChangesAll_spec ps hp rest (fun x hx => hk x (by simp [hx])) hun.2 (fun x hx => hc x (by simp [hx])) _ _ h1
      (by
        rcases ha with ha | ha
        · exact Or.inl fun x hx => ha x (by simp [hx])
        · exact Or.inr ⟨above_graft _ _ _ _ ha.1, by rw [hout _ _ (not_below_self _ _)]; exact ha.2⟩)
    refine Eq.mp (congrArg _ ?_) h2
    funext q
    rcases where_ (fold ps) q with hq | rfl | ⟨n', r, rfl⟩
    · rw [graftAll_out _ _ _ _ hq, graftAll_out _ _ _ _ hq, hout _ _ (not_below _ _ _ hq)]
    · rw [graftAll_top, graftAll_top, hout _ _ (not_below_self _ _)]
    · rw [graftAll_in, graftAll_in]
      by_cases hn' : n' = n.map tolower
      · have l1 : clk (.node [n] md c :: rest) n' = some (.node [n] md c) := by
          unfold clk; rw [List.find?_cons]
          have : decide (clow (.node [n] md c) = [n']) = true := decide_eq_true (by rw [hn']; rfl)
          rw [this]
        have l2 : clk rest n' = none := by
          rw [clk_none]
          intro x hx hx2
          refine hun.1 (List.mem_map.mpr ⟨x, hx, ?_⟩)
          rw [hx2, hn', hn]; rfl
        rw [l1, l2]
        simp only [Option.map_none, Option.map_some]
        have := graft_in m (fold ps ++ [n.map tolower]) (den (.node [n] md c) fun q => m (fold ps ++ [n.map tolower] ++ q)) r
        rw [hn']
        rw [List.append_assoc] at this
        rw [List.singleton_append] at this
        rw [this]
        simp
      · have l1 : clk (.node [n] md c :: rest) n' = clk rest n' := by
          unfold clk; rw [List.find?_cons]
          have : decide (clow (.node [n] md c) = [n']) = false := decide_eq_false fun h => hn' (by
            have : [n.map tolower] = [n'] := h
            simpa using this.symm)
          rw [this]
        have ho : ∀ f r, graft m (fold ps ++ [n.map tolower]) f (fold ps ++ n' :: r) = m (fold ps ++ n' :: r) :=
          fun f r => hout _ _ (fun h => hn' ((below_one _ _ _ _).mp h))
        rw [l1]
        simp only [ho]
end

end
end Tr
