import Verif.Lemmas.Replicate
import Mathlib.Data.List.Perm.Subperm
/- C59: copies of a configuration that are kept the same. -/
namespace Props
open Wv Spec.Conf Spec.Walk
open Wv.TempGen (Delta Value)
open Wv.Key (fold Names)
open Props.Gens Props.Notify
namespace Rpl
open Wv.Replicate (Copy State firstOk deltacallback setOn replicate check)
open Spec.Replica (Ev)

/-! The in-memory generator -/

mutual
/-- The places in a tree. -/
def paths : TempGen.Tree → List Place
  | .node _ _ c => [] :: pathsAll c
/-- The places in some trees, with their keys. -/
def pathsAll : List TempGen.Tree → List Place
  | [] => []
  | t :: r => (paths t).map (fun p => TempGen.low t ++ p) ++ pathsAll r
end

mutual
theorem paths_length : (t : TempGen.Tree) → (paths t).length = t.size
  | .node k v c => by
    rw [paths, TempGen.Tree.size, List.length_cons, pathsAll_length c]; omega
theorem pathsAll_length : (c : List TempGen.Tree) → (pathsAll c).length = TempGen.sizeAll c
  | [] => rfl
  | t :: r => by
    rw [pathsAll, TempGen.sizeAll, List.length_append, List.length_map, paths_length t, pathsAll_length r]
end

theorem mem_pathsAll (c : List TempGen.Tree) (t : TempGen.Tree) (h : t ∈ c) (p : Place) (hp : p ∈ paths t) : TempGen.low t ++ p ∈ pathsAll c := by
  induction c with
  | nil => simp at h
  | cons x c ih =>
    rw [pathsAll]
    rcases List.mem_cons.mp h with rfl | h
    · exact List.mem_append_left _ (List.mem_map.mpr ⟨p, hp, rfl⟩)
    · exact List.mem_append_right _ (ih h)

theorem look_paths (q : Place) : ∀ t : TempGen.Tree, TempGen.look t q ≠ none → q ∈ paths t := by
  induction q with
  | nil => intro t _; obtain ⟨k, v, c⟩ := t; rw [paths]; simp
  | cons n q ih =>
    intro t h
    obtain ⟨k, v, c⟩ := t
    rw [TempGen.look_cons] at h
    simp only [TempGen.Tree.children] at h
    cases hl : TempGen.lk c n with
    | none => rw [hl] at h; exact absurd rfl h
    | some x =>
      rw [hl] at h
      have hm : x ∈ c := List.mem_of_find?_eq_some hl
      have hlow : TempGen.low x = [n] := by
        have := List.find?_some (p := fun x => decide (TempGen.low x = [n])) hl
        simpa using this
      rw [paths]
      have := mem_pathsAll c x hm q (ih x h)
      rw [hlow] at this
      exact List.mem_cons_of_mem _ this

theorem temp_walks (ord) (ho : ∀ l, (ord l).Perm l) : Walks (WGen.temp ord) (fun g m => Temp.Holds g m ∧ Closed m ∧ Bounded m) := by
  have key : ∀ g m, Temp.Holds g m ∧ Closed m ∧ Bounded m → (∀ y ∈ (WGen.temp ord).walk g, Names y.1) ∧
      Preorder m [] [] (((WGen.temp ord).walk g).map fun y => (fold y.1, y.2)) := by
    intro g m h
    obtain ⟨L, l1, l2, l3, l4, l5⟩ := C54_complete (IGen.temp ord) g m (temp_reads ord g m h.1) h.2.2 h.2.1 []
    have hp : place [] = [] := by simp [place, Key.names_nil]
    have hnil : Key.parse [] = [] := rfl
    rw [hp] at l3 l5
    rw [hnil] at l1
    simp only [List.nil_append] at l5
    have hlen : L.length ≤ g.size := by
      have hall : ∀ y ∈ L, m (fold y.1) ≠ none := by
        intro y hy
        obtain ⟨-, -, -, h3, h4⟩ := ((Rec.preorder_mem m h.2.1 _ _ _ l3).1 (fold y.1) y.2).mp (List.mem_map.mpr ⟨_, hy, rfl⟩)
        simp only [List.nil_append] at h3
        rw [← h3]; exact h4
      cases hr : g.root with
      | none =>
        cases L with
        | nil => simp
        | cons y L =>
          exfalso
          refine hall y (by simp) ?_
          rw [← h.1.2, hr]; rfl
      | some t =>
        have hsub : (L.map fun y => fold y.1) ⊆ paths t := by
          intro q hq
          obtain ⟨y, hy, rfl⟩ := List.mem_map.mp hq
          have := hall y hy
          rw [← h.1.2, hr] at this
          exact look_paths _ t this
        have := (List.Nodup.subperm l4 hsub).length_le
        rw [List.length_map, paths_length] at this
        simpa [TempGen.Gen.size, hr] using this
    have e : (WGen.temp ord).walk g = L := by
      show (RecIter.recursive (IGen.temp ord) g (g.size + 1) []).1 = L
      rw [l1 (g.size + 1) (by omega)]
    rw [e]
    exact ⟨l2, l3⟩
  exact {
    speaks := temp_speaks ord ho
    gone := by
      intro g m h k v x hx hn
      obtain ⟨-, h2⟩ := Temp.call_spec g m h.1 ⟨k, v, ord, ho⟩
      obtain ⟨q, hq, h3, h4⟩ := (h2.2 (fold x.1) x.2).mp (List.mem_map.mpr ⟨x, hx, rfl⟩)
      simp only [List.nil_append] at hq
      rw [hq]
      intro hm
      rw [hm] at h4
      exact h4 hn.symm
    keys := fun g m h => (key g m h).1
    walk := fun g m h => (key g m h).2 }

/-! Histories -/

section
variable {σ : Type} (I : WGen σ) (Rep : σ → Spec.Conf.State → Prop)

/-- The event, for the generator. -/
def act (s : State σ) : Ev → State σ
  | .set k v => Replicate.set I s (Key.parse k) v
  | .get k => (Replicate.get I 1 [] s (Key.parse k)).2
  | .commit => Replicate.commit I s
  | .refresh => (Replicate.refresh I s).1
  | .isok => (Replicate.isok s).1
  | .change i k v => Replicate.change I s i (Key.parse k) v
  | .lose i => Replicate.lose s i
  | .back i => Replicate.back s i

/-- Some events. -/
def acts (s : State σ) : List Ev → State σ
  | [] => s
  | e :: r => acts (act I s e) r

/-- The generator has noticed all copies that can be reached. -/
def Seen (s : State σ) : Prop := ∀ c ∈ s, c.up = true → c.wasOk = true

/-- Whenever the generator is asked whether it is ok, or someone else changes a copy that can be reached, the generator has noticed all copies
    that can be reached; and whenever someone changes a copy that cannot be reached, it has noticed that it cannot. -/
def Orderly (s : State σ) : List Ev → Prop
  | [] => True
  | e :: r => (match e with
    | .isok => Seen s
    | .change i _ _ => ∀ c, s[i]? = some c → if c.up then Seen s else c.wasOk = false
    | _ => True) ∧ Orderly (act I s e) r

/-- The copies hold what they should, and those the generator holds to be reachable are the same. -/
def Fine (s : State σ) (S : List Spec.Replica.Copy) : Prop :=
  Sim Rep s S ∧ ∃ A : Spec.Conf.State, ∀ (i : Nat) c C, s[i]? = some c → c.wasOk = true → S[i]? = some C → ∀ q, q ≠ [] → C.conf q = A q

theorem set_congr (m m' : Spec.Conf.State) (k : Text) (v : Option Text) (q : Place) (h : m q = m' q) :
    Spec.Conf.set m k v q = Spec.Conf.set m' k v q := by
  cases v with
  | none => simp only [Spec.Conf.set, h]
  | some v => simp only [Spec.Conf.set]; split <;> simp [h]

theorem acts_append (a b : List Ev) : ∀ s : State σ, acts I s (a ++ b) = acts I (acts I s a) b := by
  induction a with
  | nil => intro s; rfl
  | cons x a ih => intro s; exact ih _

theorem run_append (a b : List Ev) : ∀ S, Spec.Replica.run S (a ++ b) = Spec.Replica.run (Spec.Replica.run S a) b := by
  induction a with
  | nil => intro s; rfl
  | cons x a ih => intro s; exact ih _

theorem sync_get (S : List Spec.Replica.Copy) (i : Nat) (C : Spec.Replica.Copy) (h : (Spec.Replica.sync S)[i]? = some C) :
    ∃ D, S[i]? = some D ∧ C.up = D.up ∧ C.conf = if D.up then Spec.Replica.merge S else D.conf := by
  unfold Spec.Replica.sync at h
  simp only [List.getElem?_map, Option.map_eq_some_iff] at h
  obtain ⟨D, hD, rfl⟩ := h
  refine ⟨D, hD, ?_, ?_⟩ <;> split <;> rfl

theorem sync_up (S : List Spec.Replica.Copy) : (Spec.Replica.sync S).map (·.up) = S.map (·.up) := by
  unfold Spec.Replica.sync
  rw [List.map_map]
  apply List.map_congr_left
  intro C _
  simp only [Function.comp]
  split <;> rfl

theorem put_get (S : List Spec.Replica.Copy) (k v) (i : Nat) (C : Spec.Replica.Copy) (h : (Spec.Replica.put S k v)[i]? = some C) :
    ∃ D, S[i]? = some D ∧ C.up = D.up ∧ C.conf = if D.up then Spec.Conf.set D.conf k v else D.conf := by
  unfold Spec.Replica.put at h
  simp only [List.getElem?_map, Option.map_eq_some_iff] at h
  obtain ⟨D, hD, rfl⟩ := h
  refine ⟨D, hD, ?_, ?_⟩ <;> split <;> rfl

theorem put_up (S : List Spec.Replica.Copy) (k v) : (Spec.Replica.put S k v).map (·.up) = S.map (·.up) := by
  unfold Spec.Replica.put
  rw [List.map_map]
  apply List.map_congr_left
  intro C _
  simp only [Function.comp]
  split <;> rfl

/-- What a copy that can be reached holds is merged. -/
theorem merge_none (S : List Spec.Replica.Copy) (q : Place) (h : Spec.Replica.merge S q = none) (C) (hC : C ∈ S) (hu : C.up = true) : C.conf q = none := by
  unfold Spec.Replica.merge at h
  cases hfd : S.find? fun c => c.up && (c.conf q).isSome with
  | none =>
    have := List.find?_eq_none.mp hfd C hC
    simpa [hu] using this
  | some E =>
    have h1 := List.find?_some hfd
    simp only [Bool.and_eq_true] at h1
    rw [hfd] at h
    simp only [Option.bind_some] at h
    rw [h] at h1; simp at h1

/-- If all that can be reached are the same, that is what they hold together. -/
theorem merge_same (S : List Spec.Replica.Copy) (q : Place) (a : Option Text) (h : ∀ C ∈ S, C.up = true → C.conf q = a) (C) (hC : C ∈ S) (hu : C.up = true) :
    Spec.Replica.merge S q = a := by
  cases hm : Spec.Replica.merge S q with
  | none => rw [← h C hC hu]; exact (merge_none S q hm C hC hu).symm
  | some v =>
    unfold Spec.Replica.merge at hm
    obtain ⟨E, h1, h2⟩ := Option.bind_eq_some_iff.mp hm
    have h3 := List.find?_some h1
    simp only [Bool.and_eq_true] at h3
    rw [← h E (List.mem_of_find?_eq_some h1) h3.1]; exact h2.symm

theorem sim_get {s : State σ} {S : List Spec.Replica.Copy} (h : ups s = S.map (·.up)) {i : Nat} {C : Spec.Replica.Copy} (hC : S[i]? = some C) :
    ∃ c, s[i]? = some c ∧ c.up = C.up := by
  have := congrArg (fun l => l[i]?) h
  simp only [ups, List.getElem?_map, hC, Option.map_some, Option.map_eq_some_iff] at this
  exact this

theorem sim_get' {s : State σ} {S : List Spec.Replica.Copy} (h : ups s = S.map (·.up)) {i : Nat} {c : Copy σ} (hc : s[i]? = some c) :
    ∃ C, S[i]? = some C ∧ c.up = C.up := by
  have := congrArg (fun l => l[i]?) h
  simp only [ups, List.getElem?_map, hc, Option.map_some] at this
  obtain ⟨C, h1, h2⟩ := Option.map_eq_some_iff.mp this.symm
  exact ⟨C, h1, h2.symm⟩

variable (hI : Walks I Rep)
include hI

theorem check_fine (s : State σ) (S) (h : Fine Rep s S) : Fine Rep (check I s) (Spec.Replica.sync S) ∧ Seen (check I s) := by
  obtain ⟨⟨M, h1, h2, h3⟩, A, hA⟩ := h
  unfold check
  by_cases hany : (s.any fun c => !c.wasOk && c.up) = true
  · rw [if_pos hany]
    have hsim : Sim Rep (s.map fun c => if !c.wasOk && c.up then { c with wasOk := true } else c) S := by
      refine ⟨M, reps_gens Rep ?_ M h1, ?_, h3⟩
      · rw [List.map_map]; apply List.map_congr_left; intro c _; simp only [Function.comp]; split <;> rfl
      · rw [← h2]; unfold ups; rw [List.map_map]; apply List.map_congr_left; intro c _; simp only [Function.comp]; split <;> rfl
    obtain ⟨r1, r2⟩ := replicate_spec I Rep hI _ S hsim
    refine ⟨⟨r1, Spec.Replica.merge S, ?_⟩, ?_⟩
    · intro i c C hc hw hC q _
      obtain ⟨D, hD, e1, e2⟩ := sync_get S i C hC
      have hu := r2 i c hc
      obtain ⟨M', -, u', -⟩ := r1
      obtain ⟨c', hc', hcu⟩ := sim_get u' hC
      rw [hc] at hc'; cases hc'
      rw [e2, if_pos (by rw [← e1, ← hcu, ← hu]; exact hw)]
    · intro c hc hu
      obtain ⟨i, hi⟩ := List.mem_iff_getElem?.mp hc
      rw [r2 i c hi]; exact hu
  · rw [if_neg hany]
    have hseen : Seen s := by
      intro c hc hu
      cases hw : c.wasOk with
      | true => rfl
      | false => exact absurd (List.any_eq_true.mpr ⟨c, hc, by simp [hw, hu]⟩) hany
    have hagree : ∀ C ∈ S, C.up = true → ∀ q, q ≠ [] → C.conf q = A q := by
      intro C hC hu q hq
      obtain ⟨i, hi⟩ := List.mem_iff_getElem?.mp hC
      obtain ⟨c, hc, hcu⟩ := sim_get h2 hi
      exact hA i c C hc (hseen c (List.mem_of_getElem? hc) (hcu.trans hu)) hi q hq
    have hsame : ∀ (i : Nat) C D, (Spec.Replica.sync S)[i]? = some C → S[i]? = some D → ∀ q, q ≠ [] → C.conf q = D.conf q := by
      intro i C D hC hD q hq
      obtain ⟨D', hD', e1, e2⟩ := sync_get S i C hC
      rw [hD] at hD'; cases hD'
      rw [e2]
      by_cases hu : D.up = true
      · rw [if_pos hu, merge_same S q (A q) (fun E hE hEu => hagree E hE hEu q hq) D (List.mem_of_getElem? hD) hu,
          hagree D (List.mem_of_getElem? hD) hu q hq]
      · rw [if_neg hu]
    refine ⟨⟨⟨M, h1, h2.trans (sync_up S).symm, ?_⟩, A, ?_⟩, hseen⟩
    · intro i C hC q hq
      obtain ⟨D, hD, -⟩ := sync_get S i C hC
      rw [hsame i C D hC hD q hq]; exact h3 i D hD q hq
    · intro i c C hc hw hC q hq
      obtain ⟨D, hD, -⟩ := sync_get S i C hC
      rw [hsame i C D hC hD q hq]; exact hA i c D hc hw hD q hq

omit hI in
theorem first_fine (s : State σ) (S) (h : Fine Rep s S) (hs : Seen s) : Fine Rep (firstOk s).1 S ∧ Seen (firstOk s).1 := by
  obtain ⟨⟨M, h1, h2, h3⟩, A, hA⟩ := h
  obtain ⟨f1, f2, f3, f4, -⟩ := firstOk_spec s
  refine ⟨⟨⟨M, reps_gens Rep f1 M h1, f2.trans h2, h3⟩, A, ?_⟩, ?_⟩
  · intro i c C hc hw hC q hq
    obtain ⟨c', hc', hor⟩ := f4 i c hc hw
    refine hA i c' C hc' ?_ hC q hq
    rcases hor with h | h
    · exact h
    · refine hs c' (List.mem_of_getElem? hc') ?_
      have := (up_get hc true).mpr h
      rw [f2] at this
      exact (up_get hc' true).mp this
  · intro c hc hu
    obtain ⟨i, hi⟩ := List.mem_iff_getElem?.mp hc
    have h4 := (up_get hi true).mpr hu
    rw [f2] at h4
    simp only [ups, List.getElem?_map, Option.map_eq_some_iff] at h4
    obtain ⟨c', hc', hu'⟩ := h4
    have hw := hs c' (List.mem_of_getElem? hc') hu'
    have : FreshAt s i := by
      intro d hd; rw [hc'] at hd; cases hd; rw [hw, hu']
    rw [f3 i this c hi]; exact hu

theorem setOn_fine (s : State σ) (S) (h : Fine Rep s S) (hs : Seen s) (f : Nat) (hf : (ups s)[f]? = some true) (k : Text) (v : Option Text) :
    Fine Rep (setOn I s f (Key.parse k) v) (Spec.Replica.put S k v) ∧ Seen (setOn I s f (Key.parse k) v) := by
  obtain ⟨⟨M, h1, h2, h3⟩, A, hA⟩ := h
  obtain ⟨d, d1, -, d3, d4, d5, d6, d7⟩ := setOn_spec I Rep hI f s M h1 hf k v
  obtain ⟨Cf, hCf, hCfu⟩ : ∃ C, S[f]? = some C ∧ C.up = true := by
    rw [h2] at hf
    simp only [List.getElem?_map, Option.map_eq_some_iff] at hf; exact hf
  have hagree : ∀ (i : Nat) C, S[i]? = some C → C.up = true → ∀ q, q ≠ [] → C.conf q = A q := by
    intro i C hC hu q hq
    obtain ⟨c, hc, hcu⟩ := sim_get h2 hC
    exact hA i c C hc (hs c (List.mem_of_getElem? hc) (hcu.trans hu)) hC q hq
  have hMf : ∀ q, q ≠ [] → M f q = A q := fun q hq => (h3 f Cf hCf q hq).trans (hagree f Cf hCf hCfu q hq)
  have hseen : Seen (setOn I s f (Key.parse k) v) := by
    intro c hc hu
    obtain ⟨i, hi⟩ := List.mem_iff_getElem?.mp hc
    have h4 := (up_get hi true).mpr hu
    rw [d5] at h4
    simp only [ups, List.getElem?_map, Option.map_eq_some_iff] at h4
    obtain ⟨c', hc', hu'⟩ := h4
    have : FreshAt s i := by
      intro d hd; rw [hc'] at hd; cases hd; rw [hs c' (List.mem_of_getElem? hc') hu', hu']
    rw [d6 i this c hi]; exact hu
  refine ⟨⟨⟨_, d4, d5.trans (h2.trans (put_up S k v).symm), ?_⟩, Spec.Conf.set (M f) k v, ?_⟩, hseen⟩
  · intro i C hC q hq
    obtain ⟨D, hD, e1, e2⟩ := put_get S k v i C hC
    rw [e2]
    by_cases hif : i = f
    · subst hif
      rw [hCf] at hD; cases hD
      rw [if_pos rfl, if_pos hCfu]
      exact set_congr _ _ k v q (h3 i Cf hCf q hq)
    · rw [if_neg hif]
      by_cases hu : D.up = true
      · rw [if_pos (by rw [h2]; simp [hD, hu]), if_pos hu]
        have hMi := h3 i D hD q hq
        have hDA := hagree i D hD hu q hq
        rw [set_congr D.conf (M f) k v q (hDA.trans (hMf q hq).symm)]
        refine replay_kept _ kept_eq _ d3 d d1.key d1.says (M i) q ?_
        by_cases hch : M f q = Spec.Conf.set (M f) k v q
        · right; rw [← hch, hMi, hDA, hMf q hq]
        · exact Or.inl (d1.all q hch)
      · rw [if_neg (by rw [h2]; simp [hD, hu]), if_neg hu]
        exact h3 i D hD q hq
  · intro i c C hc hw hC q hq
    obtain ⟨D, hD, e1, e2⟩ := put_get S k v i C hC
    rw [e2]
    by_cases hu : D.up = true
    · rw [if_pos hu]
      exact set_congr _ _ k v q ((hagree i D hD hu q hq).trans (hMf q hq).symm)
    · rw [if_neg hu]
      rcases d7 with ⟨rfl, d8⟩ | d7
      · -- nothing was changed
        have hno : M f q = Spec.Conf.set (M f) k v q := by
          apply Decidable.byContradiction
          intro hn
          obtain ⟨x, hx, -⟩ := d1.all q hn
          simp at hx
        have h5 := congrArg (fun l => l[i]?) d8
        simp only [List.getElem?_map, hc, Option.map_some] at h5
        obtain ⟨c', hc', hw'⟩ := Option.map_eq_some_iff.mp h5.symm
        rw [hA i c' D hc' (hw'.trans hw) hD q hq, ← hno, hMf q hq]
      · exfalso
        have h4 := d7 i c hc
        rw [hw] at h4
        have := (up_get hc true).mpr h4.symm
        rw [d5, h2] at this
        simp [hD, hu] at this

/-- A use of the generator. -/
theorem use_fine (s : State σ) (S) (h : Fine Rep s S) : Fine Rep (firstOk (check I s)).1 (Spec.Replica.sync S) ∧ Seen (firstOk (check I s)).1 := by
  obtain ⟨h1, h2⟩ := check_fine I Rep hI s S h
  exact first_fine Rep _ _ h1 h2

omit hI in
theorem put_none (S : List Spec.Replica.Copy) (k v) (h : ∀ i : Nat, (S.map (·.up))[i]? ≠ some true) : Spec.Replica.put S k v = S := by
  unfold Spec.Replica.put
  apply List.ext_getElem?
  intro i
  rw [List.getElem?_map]
  cases hC : S[i]? with
  | none => rfl
  | some C =>
    have := h i
    simp only [List.getElem?_map, hC, Option.map_some, ne_eq, Option.some.injEq] at this
    simp [this]

theorem map_fine (s : State σ) (S) (g : σ → σ) (hg : ∀ x m, Rep x m → Rep (g x) m) (h : Fine Rep s S) :
    Fine Rep (s.map fun c => { c with gen := g c.gen }) S := by
  obtain ⟨⟨M, h1, h2, h3⟩, A, hA⟩ := h
  refine ⟨⟨M, ?_, ?_, h3⟩, A, ?_⟩
  · intro i c hc
    simp only [List.getElem?_map, Option.map_eq_some_iff] at hc
    obtain ⟨d, hd, rfl⟩ := hc
    exact hg _ _ (h1 i d hd)
  · rw [← h2]; unfold ups; rw [List.map_map]; rfl
  · intro i c C hc hw hC q hq
    simp only [List.getElem?_map, Option.map_eq_some_iff] at hc
    obtain ⟨d, hd, rfl⟩ := hc
    exact hA i d C hd hw hC q hq

omit hI in
theorem modify_fine (s : State σ) (S) (i : Nat) (b : Bool) (h : Fine Rep s S) :
    Fine Rep (s.modify i fun c => { c with up := b }) (S.modify i fun c => { c with up := b }) := by
  obtain ⟨⟨M, h1, h2, h3⟩, A, hA⟩ := h
  refine ⟨⟨M, ?_, ?_, ?_⟩, A, ?_⟩
  · intro j c hc
    simp only [List.getElem?_modify, Option.map_eq_map, Option.map_eq_some_iff] at hc
    obtain ⟨d, hd, rfl⟩ := hc
    split <;> exact h1 j d hd
  · apply List.ext_getElem?
    intro j
    have := congrArg (fun l => l[j]?) h2
    simp only [ups, List.getElem?_map, List.getElem?_modify] at this ⊢
    cases hs : s[j]? with
    | none =>
      rw [hs] at this
      cases hS : S[j]? with
      | none => rfl
      | some C => rw [hS] at this; simp at this
    | some c =>
      rw [hs] at this
      cases hS : S[j]? with
      | none => rw [hS] at this; simp at this
      | some C =>
        rw [hS] at this
        simp only [Option.map_some, Option.some.injEq] at this
        by_cases hij : i = j <;> simp [hij, this]
  · intro j C hC q hq
    simp only [List.getElem?_modify, Option.map_eq_map, Option.map_eq_some_iff] at hC
    obtain ⟨D, hD, rfl⟩ := hC
    rw [h3 j D hD q hq]
    split <;> rfl
  · intro j c C hc hw hC q hq
    simp only [List.getElem?_modify, Option.map_eq_map, Option.map_eq_some_iff] at hC hc
    obtain ⟨D, hD, rfl⟩ := hC
    obtain ⟨d, hd, rfl⟩ := hc
    have hw' : d.wasOk = true := by
      by_cases hij : i = j
      · simp only [hij, if_true] at hw; exact hw
      · simp only [hij, if_false] at hw; exact hw
    rw [← hA j d D hd hw' hD q hq]
    split <;> rfl

theorem act_fine (s : State σ) (S) (h : Fine Rep s S) (e : Ev) (ho : Orderly I s [e]) : Fine Rep (act I s e) (Spec.Replica.step S e) := by
  cases e with
  | set k v =>
    obtain ⟨h1, h2⟩ := check_fine I Rep hI s S h
    obtain ⟨h3, h4⟩ := first_fine Rep _ _ h1 h2
    obtain ⟨-, f2, -, -, f5⟩ := firstOk_spec (check I s)
    show Fine Rep (Replicate.set I s (Key.parse k) v) (Spec.Replica.put (Spec.Replica.sync S) k v)
    unfold Replicate.set
    cases hf : (firstOk (check I s)).2 with
    | none =>
      rw [hf] at f5
      simp only
      rw [put_none]
      · exact h3
      · obtain ⟨⟨M, -, hu, -⟩, -⟩ := h1
        rw [← hu]; exact f5.1
    | some f =>
      rw [hf] at f5
      exact (setOn_fine I Rep hI _ _ h3 h4 f (by rw [f2]; exact f5.1) k v).1
  | get k =>
    obtain ⟨h3, h4⟩ := use_fine I Rep hI s S h
    show Fine Rep (Replicate.get I 1 [] s (Key.parse k)).2 (Spec.Replica.sync S)
    unfold Replicate.get
    cases hf : (firstOk (check I s)).2 with
    | none => exact h3
    | some f =>
      simp only
      cases hc : (firstOk (check I s)).1[f]? with
      | none => exact h3
      | some c => exact h3
  | commit =>
    exact map_fine I Rep hI _ _ I.commit hI.speaks.behaves.commit (check_fine I Rep hI s S h).1
  | refresh =>
    exact map_fine I Rep hI _ _ (fun x => (I.refresh x).1) hI.speaks.behaves.refresh (check_fine I Rep hI s S h).1
  | isok => exact (first_fine Rep s S h ho.1).1
  | change i k v =>
    have ho := ho.1
    simp only at ho
    show Fine Rep (Replicate.change I s i (Key.parse k) v) _
    unfold Replicate.change
    simp only [Spec.Replica.step]
    have hu := h.1
    obtain ⟨M, -, hu, -⟩ := hu
    cases hc : s[i]? with
    | none =>
      have hC : S[i]? = none := by
        cases hC : S[i]? with
        | none => rfl
        | some C => obtain ⟨c, hc', -⟩ := sim_get hu hC; rw [hc] at hc'; cases hc'
      rw [hC]; exact h
    | some c =>
      obtain ⟨C, hC, hcu⟩ := sim_get' hu hc
      rw [hC]
      simp only
      have hoc := ho c hc
      by_cases hup : c.up = true
      · rw [if_pos hup, if_pos (hcu ▸ hup)]
        rw [if_pos hup] at hoc
        exact (setOn_fine I Rep hI s S h hoc i ((up_get hc true).mpr hup) k v).1
      · rw [if_neg hup, if_neg (by rw [← hcu]; exact hup)]
        rw [if_neg hup] at hoc
        obtain ⟨⟨M, h1, h2, h3⟩, A, hA⟩ := h
        have hl : i < s.length := (List.getElem?_eq_some_iff.mp hc).1
        have hl' : i < S.length := (List.getElem?_eq_some_iff.mp hC).1
        refine ⟨⟨fun j => if j = i then Spec.Conf.set (M i) k v else M j, ?_, ?_, ?_⟩, A, ?_⟩
        · intro j d hd
          by_cases hij : j = i
          · subst hij
            rw [List.getElem?_set_self hl] at hd; cases hd
            dsimp only; rw [if_pos rfl]
            exact hI.speaks.behaves.set _ _ (h1 j c hc) k v
          · rw [List.getElem?_set_ne (Ne.symm hij)] at hd
            dsimp only; rw [if_neg hij]; exact h1 j d hd
        · apply List.ext_getElem?
          intro j
          have := congrArg (fun l => l[j]?) h2
          simp only [ups, List.getElem?_map] at this ⊢
          by_cases hij : j = i
          · subst hij
            rw [List.getElem?_set_self hl, List.getElem?_set_self hl']
            simp [hcu]
          · rw [List.getElem?_set_ne (Ne.symm hij), List.getElem?_set_ne (Ne.symm hij)]
            exact this
        · intro j D hD q hq
          by_cases hij : j = i
          · subst hij
            rw [List.getElem?_set_self hl'] at hD; cases hD
            dsimp only; rw [if_pos rfl]
            exact set_congr _ _ k v q (h3 j C hC q hq)
          · rw [List.getElem?_set_ne (Ne.symm hij)] at hD
            dsimp only; rw [if_neg hij]; exact h3 j D hD q hq
        · intro j d D hd hw hD q hq
          by_cases hij : j = i
          · subst hij
            rw [List.getElem?_set_self hl] at hd; cases hd
            simp only at hw
            rw [hoc] at hw; cases hw
          · rw [List.getElem?_set_ne (Ne.symm hij)] at hD hd
            exact hA j d D hd hw hD q hq
  | lose i => exact modify_fine Rep s S i false h
  | back i => exact modify_fine Rep s S i true h

theorem acts_fine (l : List Ev) : ∀ (s : State σ) (S), Fine Rep s S → Orderly I s l → Fine Rep (acts I s l) (Spec.Replica.run S l) := by
  induction l with
  | nil => intro s S h _; exact h
  | cons e l ih =>
    intro s S h ho
    exact ih _ _ (act_fine I Rep hI s S h e ⟨ho.1, trivial⟩) ho.2

theorem new_fine (l : List (σ × Bool)) (S : List Spec.Replica.Copy) (hu : l.map (·.2) = S.map (·.up))
    (h : ∀ (i : Nat) x C, l[i]? = some x → S[i]? = some C → Rep x.1 C.conf) :
    Fine Rep (Replicate.new I l) (Spec.Replica.sync S) ∧ Seen (Replicate.new I l) := by
  have hups : ups (l.map fun x => Copy.new x.1 x.2) = S.map (·.up) := by
    rw [← hu]; unfold ups; rw [List.map_map]; rfl
  have hsim : Sim Rep (l.map fun x => Copy.new x.1 x.2) S := by
    refine ⟨fun i => ((S[i]?).map (·.conf)).getD Spec.Conf.empty, ?_, hups, ?_⟩
    · intro i c hc
      obtain ⟨C, hC, -⟩ := sim_get' hups hc
      simp only [List.getElem?_map, Option.map_eq_some_iff] at hc
      obtain ⟨x, hx, rfl⟩ := hc
      simp only [hC, Option.map_some, Option.getD_some]
      exact h i x C hx hC
    · intro i C hC q _
      simp [hC]
  obtain ⟨r1, r2⟩ := replicate_spec I Rep hI _ S hsim
  refine ⟨⟨r1, Spec.Replica.merge S, ?_⟩, ?_⟩
  · intro i c C hc hw hC q _
    obtain ⟨D, hD, e1, e2⟩ := sync_get S i C hC
    have hu := r2 i c hc
    obtain ⟨M', -, u', -⟩ := r1
    obtain ⟨c', hc', hcu⟩ := sim_get u' hC
    have hc : (replicate I (l.map fun x => Copy.new x.1 x.2))[i]? = some c := hc
    rw [hc] at hc'; cases hc'
    rw [e2, if_pos (by rw [← e1, ← hcu, ← hu]; exact hw)]
  · intro c hc hu
    obtain ⟨i, hi⟩ := List.mem_iff_getElem?.mp hc
    rw [r2 i c hi]; exact hu

/-- Reading, while copies are lost. -/
theorem get_fine (k : Text) (hk : place k ≠ []) (n : Nat) : ∀ (lost : List Bool) (s : State σ) (S), Fine Rep s S →
    (lost.takeWhile id).length < (ups s).count true → (lost.takeWhile id).length < n →
    (Replicate.get I n lost s (Key.parse k)).1 = Spec.Conf.get (Spec.Replica.merge S) k := by
  induction n with
  | zero => intro lost s S _ _ h; omega
  | succ n ih =>
    intro lost s S h hc hn
    obtain ⟨⟨⟨M, h1, h2, h3⟩, A, hA⟩, h4⟩ := use_fine I Rep hI s S h
    have hsu : ups s = S.map (·.up) := by obtain ⟨⟨M, -, hu, -⟩, -⟩ := h; exact hu
    obtain ⟨-, f2, -, -, f5⟩ := firstOk_spec (check I s)
    have hsu' : ups (check I s) = ups s := by rw [← f2, h2, sync_up, hsu]
    rw [Replicate.get]
    cases hf : (firstOk (check I s)).2 with
    | none =>
      rw [hf] at f5
      exfalso
      have : true ∈ ups s := List.count_pos_iff.mp (by omega)
      obtain ⟨i, hi⟩ := List.mem_iff_getElem?.mp this
      rw [hsu'] at f5
      exact f5.1 i hi
    | some f =>
      rw [hf] at f5
      have hfu : (ups (firstOk (check I s)).1)[f]? = some true := by rw [f2]; exact f5.1
      obtain ⟨c, hcf, hcu⟩ : ∃ c, (firstOk (check I s)).1[f]? = some c ∧ c.up = true := by
        simp only [ups, List.getElem?_map, Option.map_eq_some_iff] at hfu; exact hfu
      simp only [hcf]
      obtain ⟨C, hC, hCu⟩ := sim_get' h2 hcf
      obtain ⟨D, hD, e1, e2⟩ := sync_get S f C hC
      have hDu : D.up = true := by rw [← e1, ← hCu]; exact hcu
      rw [if_pos hDu] at e2
      by_cases hl : lost.headD false = true
      · rw [if_pos hl]
        obtain ⟨rest, rfl⟩ : ∃ rest, lost = true :: rest := by
          cases lost with
          | nil => simp at hl
          | cons b rest => simp at hl; subst hl; exact ⟨rest, rfl⟩
        simp only [List.takeWhile_cons, id_eq, if_true, List.length_cons] at hc hn
        have hlf : f < (firstOk (check I s)).1.length := (List.getElem?_eq_some_iff.mp hcf).1
        have hlf' : f < (Spec.Replica.sync S).length := (List.getElem?_eq_some_iff.mp hC).1
        -- the copy is lost
        have hups1 : ups ((firstOk (check I s)).1.set f { c with up := false, wasOk := false }) = (ups (firstOk (check I s)).1).set f false := by
          simp [ups, List.map_set]
        have hfine : Fine Rep ((firstOk (check I s)).1.set f { c with up := false, wasOk := false })
            ((Spec.Replica.sync S).set f { C with up := false }) := by
          refine ⟨⟨M, ?_, ?_, ?_⟩, A, ?_⟩
          · intro j d hd
            by_cases hij : j = f
            · subst hij; rw [List.getElem?_set_self hlf] at hd; cases hd; exact h1 j c hcf
            · rw [List.getElem?_set_ne (Ne.symm hij)] at hd; exact h1 j d hd
          · rw [hups1, h2]; simp [List.map_set]
          · intro j E hE q hq
            by_cases hij : j = f
            · subst hij; rw [List.getElem?_set_self hlf'] at hE; cases hE; exact h3 j C hC q hq
            · rw [List.getElem?_set_ne (Ne.symm hij)] at hE; exact h3 j E hE q hq
          · intro j d E hd hw hE q hq
            by_cases hij : j = f
            · subst hij; rw [List.getElem?_set_self hlf] at hd; cases hd; simp at hw
            · rw [List.getElem?_set_ne (Ne.symm hij)] at hE hd; exact hA j d E hd hw hE q hq
        have hseen : Seen ((firstOk (check I s)).1.set f { c with up := false, wasOk := false }) := by
          intro d hd hu
          obtain ⟨j, hj⟩ := List.mem_iff_getElem?.mp hd
          by_cases hij : j = f
          · subst hij; rw [List.getElem?_set_self hlf] at hj; cases hj; simp at hu
          · rw [List.getElem?_set_ne (Ne.symm hij)] at hj; exact h4 d (List.mem_of_getElem? hj) hu
        have hcount : ((ups (firstOk (check I s)).1).set f false).count true = (ups s).count true - 1 := by
          have hlu : f < (ups (firstOk (check I s)).1).length := by simpa [ups] using hlf
          rw [List.count_set hlu]
          have : (ups (firstOk (check I s)).1)[f] = true := by
            have := List.getElem?_eq_getElem hlu
            rw [hfu] at this; exact (Option.some.inj this).symm
          rw [this, f2, hsu']
          simp
        obtain ⟨-, g2, -, -, -⟩ := firstOk_spec ((firstOk (check I s)).1.set f { c with up := false, wasOk := false })
        have hcount2 : (rest.takeWhile id).length < (ups (firstOk ((firstOk (check I s)).1.set f { c with up := false, wasOk := false })).1).count true := by
          rw [g2, hups1, hcount]; omega
        have := ih rest _ _ (first_fine Rep _ _ hfine hseen).1 hcount2 (by omega)
        rw [List.tail_cons, this]
        -- the others hold the same
        have hany : true ∈ ((Spec.Replica.sync S).set f { C with up := false }).map (·.up) := by
          apply List.count_pos_iff.mp
          rw [g2, hups1, h2] at hcount2
          have e : ((Spec.Replica.sync S).set f { C with up := false }).map (·.up) = ((Spec.Replica.sync S).map (·.up)).set f false := by
            simp [List.map_set]
          rw [e]; omega
        obtain ⟨E, hE, hEu⟩ := List.mem_map.mp hany
        have hsame : ∀ q, Spec.Replica.merge ((Spec.Replica.sync S).set f { C with up := false }) q = Spec.Replica.merge S q := by
          intro q
          refine merge_same _ q _ ?_ E hE hEu
          intro G hG hGu
          obtain ⟨j, hj⟩ := List.mem_iff_getElem?.mp hG
          by_cases hij : j = f
          · subst hij; rw [List.getElem?_set_self hlf'] at hj; cases hj; simp at hGu
          · rw [List.getElem?_set_ne (Ne.symm hij)] at hj
            obtain ⟨D', -, e3, e4⟩ := sync_get S j G hj
            rw [e4, if_pos (e3 ▸ hGu)]
        simp only [Spec.Conf.get, hsame]
      · rw [if_neg hl]
        simp only
        rw [(hI.speaks.behaves.reads _ _ (h1 f c hcf)).get k]
        simp only [Spec.Conf.get]
        rw [h3 f C hC _ hk, e2]

/-- Events that leave the generator a chance to see what happens are orderly. -/
theorem tidy_orderly (l : List Ev) : ∀ (s : State σ) (S) (up : List Bool) (fresh : Bool), Fine Rep s S → ups s = up → (fresh = false → Seen s) →
    Spec.Replica.Tidy up fresh l → Orderly I s l := by
  induction l with
  | nil => intros; trivial
  | cons e l ih =>
    intro s S up fresh h hu hs ht
    have key : Orderly I s [e] → ∀ up' fresh', (Spec.Replica.step S e).map (·.up) = up' → (fresh' = false → Seen (act I s e)) →
        Spec.Replica.Tidy up' fresh' l → Orderly I s (e :: l) := by
      intro ho up' fresh' hu' hs' ht'
      have hf := act_fine I Rep hI s S h e ho
      have : ups (act I s e) = up' := by obtain ⟨⟨M, -, hu2, -⟩, -⟩ := hf; rw [hu2, hu']
      exact ⟨ho.1, ih _ _ up' fresh' hf this hs' ht'⟩
    have hSu : S.map (·.up) = up := by rw [← hu]; obtain ⟨⟨M, -, hu2, -⟩, -⟩ := h; exact hu2.symm
    have hmodify : ∀ i b, (S.modify i fun c => { c with up := b }).map (·.up) = up.set i b := by
      intro i b
      rw [← hSu]
      apply List.ext_getElem?
      intro j
      simp only [List.getElem?_map, List.getElem?_modify, List.getElem?_set, List.length_map]
      by_cases hij : i = j
      · subst hij
        cases hS : S[i]? with
        | none =>
          have : ¬ i < S.length := by rw [List.getElem?_eq_none_iff] at hS; omega
          simp [this]
        | some C =>
          have := (List.getElem?_eq_some_iff.mp hS).1
          simp [this]
      · cases S[j]? <;> simp [hij]
    cases e with
    | set k v =>
      refine key ⟨trivial, trivial⟩ up false (by show (Spec.Replica.put _ k v).map _ = _; rw [put_up, sync_up, hSu]) ?_ ht
      intro _
      obtain ⟨h3, h4⟩ := use_fine I Rep hI s S h
      obtain ⟨-, f2, -, -, f5⟩ := firstOk_spec (check I s)
      show Seen (Replicate.set I s (Key.parse k) v)
      unfold Replicate.set
      cases hf : (firstOk (check I s)).2 with
      | none => exact h4
      | some f =>
        rw [hf] at f5
        exact (setOn_fine I Rep hI _ _ h3 h4 f (by rw [f2]; exact f5.1) k v).2
    | get k =>
      refine key ⟨trivial, trivial⟩ up false (by show (Spec.Replica.sync S).map _ = _; rw [sync_up, hSu]) ?_ ht
      intro _
      obtain ⟨h3, h4⟩ := use_fine I Rep hI s S h
      show Seen (Replicate.get I 1 [] s (Key.parse k)).2
      unfold Replicate.get
      cases hf : (firstOk (check I s)).2 with
      | none => exact h4
      | some f =>
        simp only
        cases hc : (firstOk (check I s)).1[f]? with
        | none => exact h4
        | some c => exact h4
    | commit =>
      refine key ⟨trivial, trivial⟩ up false (by show (Spec.Replica.sync S).map _ = _; rw [sync_up, hSu]) ?_ ht
      intro _ c hc hcu
      obtain ⟨d, hd, rfl⟩ := List.mem_map.mp hc
      exact (check_fine I Rep hI s S h).2 d hd hcu
    | refresh =>
      refine key ⟨trivial, trivial⟩ up false (by show (Spec.Replica.sync S).map _ = _; rw [sync_up, hSu]) ?_ ht
      intro _ c hc hcu
      obtain ⟨d, hd, rfl⟩ := List.mem_map.mp hc
      exact (check_fine I Rep hI s S h).2 d hd hcu
    | isok =>
      obtain ⟨t1, t2⟩ := ht
      exact key ⟨hs t1, trivial⟩ up fresh hSu (fun _ => (first_fine Rep s S h (hs t1)).2) t2
    | change i k v =>
      obtain ⟨t1, t2, t3⟩ := ht
      have hup : ∀ c, s[i]? = some c → c.up = true := by
        intro c hc
        cases hcu : c.up with
        | true => rfl
        | false => rw [← hu] at t2; exact absurd ((up_get hc false).mpr hcu) t2
      refine key ⟨?_, trivial⟩ up fresh ?_ ?_ t3
      · intro c hc; rw [if_pos (hup c hc)]; exact hs t1
      · simp only [Spec.Replica.step]
        cases hC : S[i]? with
        | none => exact hSu
        | some C =>
          obtain ⟨c, hc, hcu⟩ := sim_get (hu.trans hSu.symm) hC
          simp only
          rw [if_pos (hcu ▸ hup c hc), put_up, hSu]
      · intro _
        show Seen (Replicate.change I s i (Key.parse k) v)
        unfold Replicate.change
        cases hc : s[i]? with
        | none => exact hs t1
        | some c =>
          simp only
          rw [if_pos (hup c hc)]
          exact (setOn_fine I Rep hI s S h (hs t1) i ((up_get hc true).mpr (hup c hc)) k v).2
    | lose i =>
      refine key ⟨trivial, trivial⟩ _ fresh (hmodify i false) ?_ ht
      intro hf c hc hcu
      obtain ⟨j, hj⟩ := List.mem_iff_getElem?.mp hc
      have hj : (s.modify i fun c => { c with up := false })[j]? = some c := hj
      simp only [List.getElem?_modify, Option.map_eq_map, Option.map_eq_some_iff] at hj
      obtain ⟨d, hd, rfl⟩ := hj
      by_cases hij : i = j
      · simp [hij] at hcu
      · simp only [hij, if_false] at hcu ⊢; exact hs hf d (List.mem_of_getElem? hd) hcu
    | back i => exact key ⟨trivial, trivial⟩ _ true (hmodify i true) (by simp) ht

end

/-- A generator over some others, of each what it holds, and whether it can be reached. -/
def start {σ : Type} (I : WGen σ) (gens : List (σ × Spec.Conf.State × Bool)) : State σ := Replicate.new I (gens.map fun x => (x.1, x.2.2))

/-- What they hold. -/
def held {σ : Type} (gens : List (σ × Spec.Conf.State × Bool)) : List Spec.Replica.Copy := gens.map fun x => ⟨x.2.1, x.2.2⟩

theorem start_fine {σ : Type} (I : WGen σ) (Rep) (hI : Walks I Rep) (gens : List (σ × Spec.Conf.State × Bool)) (h : ∀ x ∈ gens, Rep x.1 x.2.1) :
    Fine Rep (start I gens) (Spec.Replica.sync (held gens)) ∧ Seen (start I gens) := by
  refine new_fine I Rep hI _ _ (by simp [held]) ?_
  intro i x C hx hC
  simp only [held, List.getElem?_map, Option.map_eq_some_iff] at hx hC
  obtain ⟨y, hy, rfl⟩ := hx
  obtain ⟨z, hz, rfl⟩ := hC
  rw [hy] at hz; cases hz
  exact h y (List.mem_of_getElem? hy)

end Rpl
open Rpl
open Spec.Replica (Ev)

section
variable {σ : Type} (I : WGen σ) (Rep : σ → Spec.Conf.State → Prop) (hI : Walks I Rep) (gens : List (σ × Spec.Conf.State × Bool))
  (h : ∀ x ∈ gens, Rep x.1 x.2.1) (l : List Ev)
include hI h

/-- C59: after any orderly history, each copy holds at each key but the root what the specification says. What is missing are the root, and
    histories that are not orderly. -/
theorem C59_copies_partial (ho : Orderly I (start I gens) l) (i : Nat) (c : Replicate.Copy σ) (hc : (acts I (start I gens) l)[i]? = some c) :
    ∃ C, (Spec.Replica.run (Spec.Replica.sync (held gens)) l)[i]? = some C ∧ c.up = C.up ∧
      ∀ k : Text, place k ≠ [] → I.get c.gen (Key.parse k) = Spec.Conf.get C.conf k := by
  obtain ⟨⟨M, h1, h2, h3⟩, -⟩ := acts_fine I Rep hI l _ _ (start_fine I Rep hI gens h).1 ho
  obtain ⟨C, hC, hu⟩ := sim_get' h2 hc
  refine ⟨C, hC, hu, ?_⟩
  intro k hk
  rw [(hI.speaks.behaves.reads _ _ (h1 i c hc)).get k]
  simp only [Spec.Conf.get, h3 i C hC _ hk]

/-- C59: reading through the generator gives, at any key but the root, what the copies that can be reached hold together, also if copies are
    lost during it, as long as one is left. -/
theorem C59_get_partial (ho : Orderly I (start I gens) l) (k : Text) (hk : place k ≠ []) (lost : List Bool) (n : Nat)
    (hl : (lost.takeWhile id).length < ((Spec.Replica.run (Spec.Replica.sync (held gens)) l).map (·.up)).count true)
    (hn : (lost.takeWhile id).length < n) :
    (Replicate.get I n lost (acts I (start I gens) l) (Key.parse k)).1 =
      Spec.Conf.get (Spec.Replica.merge (Spec.Replica.run (Spec.Replica.sync (held gens)) l)) k := by
  have hf := acts_fine I Rep hI l _ _ (start_fine I Rep hI gens h).1 ho
  refine get_fine I Rep hI k hk n lost _ _ hf ?_ hn
  obtain ⟨⟨M, -, h2, -⟩, -⟩ := hf
  rw [h2]; exact hl

/-- C59: after a value is set or removed through the generator, all copies that can be reached hold, at each key but the root, what they held
    together before, with that change. -/
theorem C59_set_partial (ho : Orderly I (start I gens) l) (k : Text) (v : Option Text) (c : Replicate.Copy σ)
    (hc : c ∈ acts I (start I gens) (l ++ [.set k v])) (hu : c.up = true) (k' : Text) (hk' : place k' ≠ []) :
    I.get c.gen (Key.parse k') =
      Spec.Conf.get (Spec.Conf.set (Spec.Replica.merge (Spec.Replica.run (Spec.Replica.sync (held gens)) l)) k v) k' := by
  have hf := acts_fine I Rep hI l _ _ (start_fine I Rep hI gens h).1 ho
  have hf2 := act_fine I Rep hI _ _ hf (.set k v) ⟨trivial, trivial⟩
  rw [acts_append] at hc
  obtain ⟨⟨M, h1, h2, h3⟩, -⟩ := hf2
  obtain ⟨i, hi⟩ := List.mem_iff_getElem?.mp hc
  have hi : (act I (acts I (start I gens) l) (.set k v))[i]? = some c := hi
  obtain ⟨C, hC, hCu⟩ := sim_get' h2 hi
  obtain ⟨D, hD, e1, e2⟩ := put_get _ k v i C hC
  obtain ⟨E, hE, e3, e4⟩ := sync_get _ i D hD
  have hDu : D.up = true := by rw [← e1, ← hCu]; exact hu
  rw [if_pos hDu] at e2
  rw [if_pos (e3 ▸ hDu)] at e4
  rw [(hI.speaks.behaves.reads _ _ (h1 i c hi)).get k']
  simp only [Spec.Conf.get, h3 i C hC _ hk', e2, e4]

/-- C59: whenever the generator has noticed all copies that can be reached, in particular after each use of it, they hold the same, at each key
    but the root. -/
theorem C59_same_partial (ho : Orderly I (start I gens) l) (hs : Seen (acts I (start I gens) l)) (c d : Replicate.Copy σ)
    (hc : c ∈ acts I (start I gens) l) (hd : d ∈ acts I (start I gens) l) (hcu : c.up = true) (hdu : d.up = true) (k : Text) (hk : place k ≠ []) :
    I.get c.gen (Key.parse k) = I.get d.gen (Key.parse k) := by
  obtain ⟨⟨M, h1, h2, h3⟩, A, hA⟩ := acts_fine I Rep hI l _ _ (start_fine I Rep hI gens h).1 ho
  have key : ∀ c ∈ acts I (start I gens) l, c.up = true → I.get c.gen (Key.parse k) = Spec.Conf.get A k := by
    intro c hc hcu
    obtain ⟨i, hi⟩ := List.mem_iff_getElem?.mp hc
    obtain ⟨C, hC, hCu⟩ := sim_get' h2 hi
    rw [(hI.speaks.behaves.reads _ _ (h1 i c hi)).get k]
    simp only [Spec.Conf.get, h3 i C hC _ hk, hA i c C hi (hs c hc hcu) hC _ hk]
  rw [key c hc hcu, key d hd hdu]

/-- C59: an iterator through the generator shows what the copies hold together one below the key. -/
theorem C59_iterator_partial (ho : Orderly I (start I gens) l) (k : Text)
    (hl : true ∈ (Spec.Replica.run (Spec.Replica.sync (held gens)) l).map (·.up)) :
    ∀ n v, Spec.Replica.merge (Spec.Replica.run (Spec.Replica.sync (held gens)) l) (place k ++ [n]) = some v ↔
      ∃ r, (Replicate.iterator I (acts I (start I gens) l) (Key.parse k)).1 = some r ∧ ∃ x ∈ r, fold x.1 = [n] ∧ x.2 = some v := by
  have hf := acts_fine I Rep hI l _ _ (start_fine I Rep hI gens h).1 ho
  generalize acts I (start I gens) l = s at hf ⊢
  generalize Spec.Replica.run (Spec.Replica.sync (held gens)) l = S at hf hl ⊢
  obtain ⟨⟨⟨M, h1, h2, h3⟩, -⟩, -⟩ := use_fine I Rep hI s S hf
  obtain ⟨-, f2, -, -, f5⟩ := firstOk_spec (Replicate.check I s)
  unfold Replicate.iterator
  cases hfo : (Replicate.firstOk (Replicate.check I s)).2 with
  | none =>
    rw [hfo] at f5
    obtain ⟨i, hi⟩ := List.mem_iff_getElem?.mp hl
    rw [← f2, h2, sync_up] at f5
    exact absurd hi (f5.1 i)
  | some f =>
    rw [hfo] at f5
    have hfu : (ups (Replicate.firstOk (Replicate.check I s)).1)[f]? = some true := by rw [f2]; exact f5.1
    obtain ⟨c, hcf, hcu⟩ : ∃ c, (Replicate.firstOk (Replicate.check I s)).1[f]? = some c ∧ c.up = true := by
      simp only [ups, List.getElem?_map, Option.map_eq_some_iff] at hfu; exact hfu
    obtain ⟨C, hC, hCu⟩ := sim_get' h2 hcf
    obtain ⟨D, hD, e1, e2⟩ := sync_get S f C hC
    rw [if_pos (by rw [← e1, ← hCu]; exact hcu)] at e2
    have hM : ∀ q, q ≠ [] → M f q = Spec.Replica.merge S q := by intro q hq; rw [h3 f C hC q hq, e2]
    have hit := (hI.speaks.behaves.reads _ _ (h1 f c hcf)).iterator k
    intro n v
    rw [← hM _ (by simp)]
    simp only [hcf, Option.bind_some]
    cases hi : I.iterator c.gen (Key.parse k) with
    | none => rw [hi] at hit; rw [hit [n]]; simp
    | some r => rw [hi] at hit; rw [hit.2.2 n v]; simp

/-- C59: a history is orderly if after a copy can be reached again the generator is used before it is asked whether it is ok and before anyone
    else changes a copy, and no one changes a copy that cannot be reached. -/
theorem C59_tidy (ht : Spec.Replica.Tidy (gens.map fun x => x.2.2) false l) : Orderly I (start I gens) l := by
  obtain ⟨h1, h2⟩ := start_fine I Rep hI gens h
  refine tidy_orderly I Rep hI l _ _ _ false h1 ?_ (fun _ => h2) ht
  obtain ⟨⟨M, -, hu, -⟩, -⟩ := h1
  rw [hu, sync_up]; simp [held]

end

/-- C59: a generator that is added after the others gets what they hold together, and they what it holds besides, at each key but the root. -/
theorem C59_append_partial {σ : Type} (I : WGen σ) (Rep : σ → Spec.Conf.State → Prop) (hI : Walks I Rep) (gens : List (σ × Spec.Conf.State × Bool))
    (h : ∀ x ∈ gens, Rep x.1 x.2.1) (l : List Ev) (ho : Orderly I (start I gens) l) (g : σ) (m : Spec.Conf.State) (up : Bool) (hg : Rep g m)
    (i : Nat) (c : Replicate.Copy σ) (hc : (Replicate.append I (acts I (start I gens) l) g up)[i]? = some c) :
    ∃ C, (Spec.Replica.sync (Spec.Replica.run (Spec.Replica.sync (held gens)) l ++ [⟨m, up⟩]))[i]? = some C ∧ c.up = C.up ∧
      ∀ k : Text, place k ≠ [] → I.get c.gen (Key.parse k) = Spec.Conf.get C.conf k := by
  obtain ⟨⟨M, h1, h2, h3⟩, -⟩ := acts_fine I Rep hI l _ _ (start_fine I Rep hI gens h).1 ho
  generalize acts I (start I gens) l = s at h1 h2 h3 hc
  generalize Spec.Replica.run (Spec.Replica.sync (held gens)) l = S at h2 h3 ⊢
  have hlen : s.length = S.length := by simpa [ups] using congrArg List.length h2
  have hs : Sim Rep (s ++ [Replicate.Copy.new g up]) (S ++ [⟨m, up⟩]) := by
    refine ⟨fun j => if j < s.length then M j else m, ?_, ?_, ?_⟩
    · intro j d hd
      dsimp only
      by_cases hj : j < s.length
      · rw [List.getElem?_append_left hj] at hd; rw [if_pos hj]; exact h1 j d hd
      · rw [List.getElem?_append_right (by omega)] at hd
        rw [if_neg hj]
        have := List.mem_of_getElem? hd
        simp only [List.mem_singleton] at this
        subst this; exact hg
    · simp [ups] at h2 ⊢; exact ⟨h2, rfl⟩
    · intro j D hD q hq
      dsimp only
      by_cases hj : j < s.length
      · rw [List.getElem?_append_left (by omega)] at hD; rw [if_pos hj]; exact h3 j D hD q hq
      · rw [List.getElem?_append_right (by omega)] at hD
        rw [if_neg hj]
        have := List.mem_of_getElem? hD
        simp only [List.mem_singleton] at this
        subst this; rfl
  obtain ⟨⟨M', g1, g2, g3⟩, -⟩ := replicate_spec I Rep hI _ _ hs
  have hc : (Replicate.replicate I (s ++ [Replicate.Copy.new g up]))[i]? = some c := hc
  obtain ⟨C, hC, hu⟩ := sim_get' g2 hc
  refine ⟨C, hC, hu, ?_⟩
  intro k hk
  rw [(hI.speaks.behaves.reads _ _ (g1 i c hc)).get k]
  simp only [Spec.Conf.get, g3 i C hC _ hk]

/-- C59: a generator that is put before the others is the one whose values are kept where they differ. -/
theorem C59_prepend_partial {σ : Type} (I : WGen σ) (Rep : σ → Spec.Conf.State → Prop) (hI : Walks I Rep) (gens : List (σ × Spec.Conf.State × Bool))
    (h : ∀ x ∈ gens, Rep x.1 x.2.1) (l : List Ev) (ho : Orderly I (start I gens) l) (g : σ) (m : Spec.Conf.State) (up : Bool) (hg : Rep g m)
    (i : Nat) (c : Replicate.Copy σ) (hc : (Replicate.prepend I (acts I (start I gens) l) g up)[i]? = some c) :
    ∃ C, (Spec.Replica.sync (⟨m, up⟩ :: Spec.Replica.run (Spec.Replica.sync (held gens)) l))[i]? = some C ∧ c.up = C.up ∧
      ∀ k : Text, place k ≠ [] → I.get c.gen (Key.parse k) = Spec.Conf.get C.conf k := by
  obtain ⟨⟨M, h1, h2, h3⟩, -⟩ := acts_fine I Rep hI l _ _ (start_fine I Rep hI gens h).1 ho
  generalize acts I (start I gens) l = s at h1 h2 h3 hc
  generalize Spec.Replica.run (Spec.Replica.sync (held gens)) l = S at h2 h3 ⊢
  have hs : Sim Rep (Replicate.Copy.new g up :: s) (⟨m, up⟩ :: S) := by
    refine ⟨fun j => match j with | 0 => m | j + 1 => M j, ?_, ?_, ?_⟩
    · intro j d hd
      cases j with
      | zero => simp at hd; subst hd; exact hg
      | succ j => exact h1 j d (by simpa using hd)
    · simp [ups] at h2 ⊢; exact ⟨rfl, h2⟩
    · intro j D hD q hq
      cases j with
      | zero => simp at hD; subst hD; rfl
      | succ j => exact h3 j D (by simpa using hD) q hq
  obtain ⟨⟨M', g1, g2, g3⟩, -⟩ := replicate_spec I Rep hI _ _ hs
  have hc : (Replicate.replicate I (Replicate.Copy.new g up :: s))[i]? = some c := hc
  obtain ⟨C, hC, hu⟩ := sim_get' g2 hc
  refine ⟨C, hC, hu, ?_⟩
  intro k hk
  rw [(hI.speaks.behaves.reads _ _ (g1 i c hc)).get k]
  simp only [Spec.Conf.get, g3 i C hC _ hk]

/-- C59: all this holds of generators in memory. -/
theorem C59_temp (ord : List TempGen.Tree → List TempGen.Tree) (ho : ∀ l, (ord l).Perm l) :
    Walks (WGen.temp ord) (fun g m => Temp.Holds g m ∧ Closed m ∧ Bounded m) := temp_walks ord ho

namespace Rpl

/-- A generator in memory after some calls of `set`. -/
def mem (l : List (Text × Option Text)) : TempGen.Gen := l.foldl (fun g x => (TempGen.set id g (Key.parse x.1) x.2).1) TempGen.new

theorem mem_holds (l : List (Text × Option Text)) : ∀ g m, (Temp.Holds g m ∧ Closed m ∧ Bounded m) →
    (fun g m => Temp.Holds g m ∧ Closed m ∧ Bounded m) (l.foldl (fun g x => (TempGen.set id g (Key.parse x.1) x.2).1) g) (Spec.Conf.run m l) := by
  induction l with
  | nil => intro g m h; exact h
  | cons x l ih =>
    intro g m h
    exact ih _ _ ((temp_walks id (fun _ => List.Perm.refl _)).speaks.behaves.set g m h x.1 x.2)

/-- Two generators: the first has `a = 1` and `b = 2`, the second `a = 5` and `c/d = 6` and cannot be reached at first. -/
def two : List (TempGen.Gen × Spec.Conf.State × Bool) :=
  [(mem [(str ['a'], some (str ['1'])), (str ['b'], some (str ['2']))],
      Spec.Conf.run Spec.Conf.empty [(str ['a'], some (str ['1'])), (str ['b'], some (str ['2']))], true),
    (mem [(str ['a'], some (str ['5'])), (str ['c', '/', 'd'], some (str ['6']))],
      Spec.Conf.run Spec.Conf.empty [(str ['a'], some (str ['5'])), (str ['c', '/', 'd'], some (str ['6']))], false)]

/-- Some events. -/
def events : List Ev :=
  [.set (str ['x']) (some (str ['7'])), .back 1, .get (str ['x']), .isok, .change 1 (str ['y']) (some (str ['8'])), .lose 0,
    .set (str ['b']) none, .back 0, .commit]

end Rpl

/-- Two generators and some events meet the hypotheses. -/
example : (∀ x ∈ two, (fun g m => Temp.Holds g m ∧ Closed m ∧ Bounded m) x.1 x.2.1) ∧
    Spec.Replica.Tidy (two.map fun x => x.2.2) false events ∧ Orderly (WGen.temp id) (start (WGen.temp id) two) events := by
  have h1 : ∀ x ∈ two, (fun g m => Temp.Holds g m ∧ Closed m ∧ Bounded m) x.1 x.2.1 := by
    have h0 : Temp.Holds TempGen.new Spec.Conf.empty ∧ Closed Spec.Conf.empty ∧ Bounded Spec.Conf.empty :=
      ⟨Temp.new_holds, Rec.empty_shape⟩
    intro x hx
    simp only [two, List.mem_cons, List.not_mem_nil, or_false] at hx
    rcases hx with rfl | rfl
    · exact mem_holds _ _ _ h0
    · exact mem_holds _ _ _ h0
  have h2 : Spec.Replica.Tidy (two.map fun x => x.2.2) false events := by simp [two, events, Spec.Replica.Tidy]
  exact ⟨h1, h2, C59_tidy _ _ (C59_temp id fun _ => List.Perm.refl _) two h1 events h2⟩

/-- What the copies hold then: `a` of the first, `b` from it again although it was removed while it was lost, and all that was set since. -/
example : (acts (WGen.temp id) (start (WGen.temp id) two) events).map (fun c => ([str ['a'], str ['b'], str ['c', '/', 'd'], str ['x'], str ['y']].map
      fun k => (WGen.temp id).get c.gen (Key.parse k))) =
    [[some (str ['1']), some (str ['2']), some (str ['6']), some (str ['7']), some (str ['8'])],
      [some (str ['1']), some (str ['2']), some (str ['6']), some (str ['7']), some (str ['8'])]] := by decide +kernel

/-- Reading goes on with the second copy if the first is lost. -/
example : (Replicate.get (WGen.temp id) 2 [true] (acts (WGen.temp id) (start (WGen.temp id) two) events) (Key.parse (str ['c', '/', 'd']))).1 =
    some (str ['6']) := by decide +kernel

/-- The value of the root is not copied: two copies that can be reached all the time hold different values there, also after each use. -/
theorem C59_root_fails : ∃ (g : TempGen.Gen) (v : Text), g = mem [([], some v)] ∧
    (acts (WGen.temp id) (Replicate.new (WGen.temp id) [(g, true), (mem [], true)]) [.get [], .commit, .refresh, .get []]).map
      (fun c => (c.up, (WGen.temp id).get c.gen (Key.parse []))) = [(true, some v), (true, none)] :=
  ⟨_, str ['1'], rfl, by decide +kernel⟩

/-- If the generator is asked whether it is ok as the first thing after a copy can be reached again, the copy is never brought up to date:
    what reading gives is then older than what was set. -/
theorem C59_isok_fails : ∃ (k v w : Text) (s : Replicate.State TempGen.Gen), v ≠ w ∧
    s = acts (WGen.temp id) (Replicate.new (WGen.temp id) [(mem [(k, some v)], true), (mem [(k, some v)], true)])
      [.lose 0, .set k (some w), .back 0, .isok, .commit, .refresh, .get k] ∧
    s.map (fun c => (c.up, (WGen.temp id).get c.gen (Key.parse k))) = [(true, some v), (true, some w)] ∧
    (Replicate.get (WGen.temp id) 1 [] s (Key.parse k)).1 = some v :=
  ⟨str ['k'], str ['1'], str ['2'], _, by decide, rfl, by decide +kernel, by decide +kernel⟩

/-- The same if someone else changes a value as the first thing: the copies that can be reached stay different. -/
theorem C59_change_fails : ∃ (k v k' w : Text) (s : Replicate.State TempGen.Gen),
    s = acts (WGen.temp id) (Replicate.new (WGen.temp id) [(mem [], true), (mem [], true)])
      [.lose 1, .set k (some v), .back 1, .change 0 k' (some w), .commit, .refresh, .get k] ∧
    s.map (fun c => (c.up, (WGen.temp id).get c.gen (Key.parse k))) = [(true, some v), (true, none)] :=
  ⟨str ['k'], str ['1'], str ['m'], str ['2'], _, rfl, by decide +kernel⟩

/-- The same if a copy was changed while it could not be reached and the generator was not used meanwhile. -/
theorem C59_unseen_fails : ∃ (k v : Text) (s : Replicate.State TempGen.Gen),
    s = acts (WGen.temp id) (Replicate.new (WGen.temp id) [(mem [], true), (mem [], true)])
      [.lose 1, .change 1 k (some v), .back 1, .get k, .commit, .refresh] ∧
    s.map (fun c => (c.up, (WGen.temp id).get c.gen (Key.parse k))) = [(true, none), (true, some v)] :=
  ⟨str ['k'], str ['1'], _, rfl, by decide +kernel⟩

/-- A key that was removed while a copy could not be reached is there again in all copies once it can be. -/
theorem C59_removed_returns : ∃ (k v : Text) (s : Replicate.State TempGen.Gen),
    s = acts (WGen.temp id) (Replicate.new (WGen.temp id) [(mem [(k, some v)], true), (mem [(k, some v)], true)])
      [.lose 1, .set k none, .get k, .back 1, .get k] ∧
    s.map (fun c => (c.up, (WGen.temp id).get c.gen (Key.parse k))) = [(true, some v), (true, some v)] :=
  ⟨str ['k'], str ['1'], _, rfl, by decide +kernel⟩

end Props
