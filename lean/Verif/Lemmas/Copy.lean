import Verif.Model.Copy
import Verif.Spec.Copy
import Verif.Props.RecIter
/- Lemmas for C79. -/
namespace Props.Cpy
open Wv Spec.Conf Gens Spec.Walk Spec.Copy Rec RecIter
open Wv.Key (fold mk Names)

/-- What an iterator shows is what is one below the place. -/
def IterOk (m : Spec.Conf.State) (p : Place) : Option (List (Key × Option TempGen.Value)) → Prop
  | none => ∀ q, m (p ++ q) = none
  | some r => (r.map fun x => fold x.1).Nodup ∧
      (∀ x ∈ r, (∃ n : Seg, x.1 = [n] ∧ n ≠ [] ∧ Spec.Path.slash ∉ n) ∧ x.2 ≠ none) ∧
      ∀ n v, m (p ++ [n]) = some v ↔ ∃ x ∈ r, fold x.1 = [n] ∧ x.2 = some v

/-- The generator shows what is below `k` as the configuration `m` has it. -/
structure Below {σ : Type} (I : IGen σ) (m : Spec.Conf.State) (k : Text) (s : σ) : Prop where
  get : ∀ x, Names x → x ≠ [] → I.get s (Key.join (Key.parse k) x) = m (place k ++ fold x)
  top : IterOk m (place k) (I.iterator s (Key.parse k))
  iter : ∀ x, Names x → x ≠ [] → IterOk m (place k ++ fold x) (I.iterator s (Key.join (Key.parse k) x))

section
variable {σ : Type} (I : IGen σ) (body : σ → Key → σ)

theorem loop_descend (n : Nat) (s : σ) (it : It) : Copy.loop I body n s it = Copy.loop I body n s (descend I s it) := by
  cases n with
  | zero => rfl
  | succ n =>
    have h : next I s it = next I s (descend I s it) := by simp only [next, descend_idem]
    simp only [Copy.loop, h]

theorem loop_up (n : Nat) (s : σ) (top : Key) (cur : Option Key) (st : List Sub) (c : Key) :
    Copy.loop I body n s ⟨top, (cur, []) :: st, c, false⟩ = Copy.loop I body n s ⟨top, st, Key.removelast c 1, false⟩ := by
  cases n with
  | zero => rfl
  | succ n =>
    have h : next I s ⟨top, (cur, []) :: st, c, false⟩ = next I s ⟨top, st, Key.removelast c 1, false⟩ := by
      simp [next, descend, advance]
    simp only [Copy.loop, h]

theorem loop_one (n : Nat) (s : σ) (top : Key) (cur : Option Key) (x : Key) (rest : List Key) (st : List Sub) (c : Key) :
    Copy.loop I body (n + 1) s ⟨top, (cur, x :: rest) :: st, c, false⟩ =
      Copy.loop I body n (body s (Key.join c x)) (descend I (body s (Key.join c x)) ⟨top, (some x, rest) :: st, c, true⟩) := by
  have h : next I s ⟨top, (cur, x :: rest) :: st, c, false⟩ = (⟨top, (some x, rest) :: st, c, true⟩, true) := by
    simp [next, descend, advance]
  rw [Copy.loop]
  simp only [h, if_true, ← loop_descend]
  simp [key, firstKey]

theorem level (m : Spec.Conf.State) (D : Nat) (hD : ∀ q, m q ≠ none → q.length ≤ D) (k : Text) (Inv : σ → Prop)
    (hI : ∀ s, Inv s → Below I m k s)
    (hb : ∀ s y, Inv s → Names y → y ≠ [] → m (place k ++ fold y) ≠ none → Inv (body s y)) : ∀ (d : Nat) (c : Key),
    Names c → D ≤ (place k ++ fold c).length + d →
    ∀ (rest : List Key), (∀ x ∈ rest, One x ∧ m (place k ++ fold c ++ fold x) ≠ none) → ∀ (s : σ) (cur : Option Key) (st : List Sub),
    Inv s →
    ∃ (l : List (Text × List (Place × Option Text))) (L : List Key),
      l.map (fun x => [x.1]) = rest.map fold ∧ (∀ x ∈ l, Preorder m (place k) (fold c ++ [x.1]) x.2) ∧
      L.map (fun y => (fold y, m (place k ++ fold y))) = flat m (place k) (fold c) l ∧ (∀ y ∈ L, Names y) ∧ Inv (L.foldl body s) ∧
      ∀ f, Copy.loop I body (L.length + f) s ⟨Key.parse k, (cur, rest) :: st, c, false⟩ =
        Copy.loop I body f (L.foldl body s) ⟨Key.parse k, st, Key.removelast c 1, false⟩ := by
  intro d
  induction d with
  | zero =>
    intro c hc hd rest hrest s cur st hs
    cases rest with
    | nil => exact ⟨[], [], rfl, by simp, rfl, by simp, hs, fun f => by simp [loop_up]⟩
    | cons x rest =>
      exfalso
      obtain ⟨⟨n, rfl, -⟩, h⟩ := hrest x (by simp)
      have := hD _ h
      simp [fold] at this hd
      omega
  | succ d ihd =>
    intro c hc hd rest
    induction rest with
    | nil => intro _ s cur st hs; exact ⟨[], [], rfl, by simp, rfl, by simp, hs, fun f => by simp [loop_up]⟩
    | cons x rest ih =>
      intro hrest s cur st hs
      obtain ⟨hx, hmx⟩ := hrest x (by simp)
      have hcx : Names (c ++ x) := hc.append hx.names
      have hne : c ++ x ≠ [] := by obtain ⟨n, rfl, -⟩ := hx; simp
      have hj : Key.join c x = c ++ x := join_one hc hx
      have hmcx : m (place k ++ fold (c ++ x)) ≠ none := by rw [fold_append, ← List.append_assoc]; exact hmx
      have hs1 : Inv (body s (c ++ x)) := hb s _ hs hcx hne hmcx
      generalize hs1e : body s (c ++ x) = s1 at hs1
      have hit := (hI s1 hs1).iter (c ++ x) hcx hne
      obtain ⟨n, hxn, hn⟩ := hx
      have hfx : fold x = [n.map tolower] := by rw [hxn]; rfl
      have hx : One x := ⟨n, hxn, hn⟩
      -- what comes after `x`
      have key : ∃ (sub : List (Place × Option Text)) (L1 : List Key),
          Preorder m (place k) (fold (c ++ x)) sub ∧ L1.map (fun y => (fold y, m (place k ++ fold y))) = sub ∧ (∀ y ∈ L1, Names y) ∧
          Inv (L1.foldl body s1) ∧
          ∀ f, Copy.loop I body (L1.length + f) s1 (descend I s1 ⟨Key.parse k, (some x, rest) :: st, c, true⟩) =
            Copy.loop I body f (L1.foldl body s1) ⟨Key.parse k, (some x, rest) :: st, c, false⟩ := by
        have hdesc : descend I s1 ⟨Key.parse k, (some x, rest) :: st, c, true⟩ =
            match sub I s1 (Key.join (Key.parse k) (c ++ x)) with
            | some n => ⟨Key.parse k, n :: (some x, rest) :: st, c ++ x, false⟩
            | none => ⟨Key.parse k, (some x, rest) :: st, c, false⟩ := by
          simp only [descend, firstKey, if_true, hj, append_one hc hx]
          cases RecIter.sub I s1 (Key.join (Key.parse k) (c ++ x)) <;> rfl
        rw [hdesc]
        unfold sub
        cases hi : I.iterator s1 (Key.join (Key.parse k) (c ++ x)) with
        | none =>
          rw [hi] at hit
          refine ⟨[], [], ?_, rfl, by simp, hs1, fun f => by simp⟩
          refine Preorder.mk (fold (c ++ x)) [] (by simp) ?_ (by simp)
          intro n
          have h0 := hit [n]
          simpa using h0
        | some r =>
          rw [hi] at hit
          obtain ⟨i1, i2, i3⟩ := hit
          have hrest' : ∀ y ∈ r.map Prod.fst, One y ∧ m (place k ++ fold (c ++ x) ++ fold y) ≠ none := by
            intro y hy
            obtain ⟨z, hz, rfl⟩ := List.mem_map.mp hy
            obtain ⟨⟨n', e, h⟩, hv⟩ := i2 z hz
            refine ⟨⟨n', e, h⟩, ?_⟩
            obtain ⟨v, hv⟩ := Option.ne_none_iff_exists'.mp hv
            have := (i3 (n'.map tolower) v).mpr ⟨z, hz, by rw [e]; rfl, hv⟩
            rw [e]
            rw [show fold [n'] = [n'.map tolower] from rfl, this]
            simp
          have hd' : D ≤ (place k ++ fold (c ++ x)).length + d := by
            rw [fold_append, hfx]
            simp at hd ⊢
            omega
          obtain ⟨l1, L1, g1, g2, g3, g4, g6, g5⟩ := ihd (c ++ x) hcx hd' (r.map Prod.fst) hrest' s1 none ((some x, rest) :: st) hs1
          refine ⟨flat m (place k) (fold (c ++ x)) l1, L1, ?_, g3, g4, g6, ?_⟩
          · have hl1 : (l1.map fun x => [x.1]) = (l1.map Prod.fst).map fun n => [n] := by simp
            refine Preorder.mk (fold (c ++ x)) l1 ?_ ?_ g2
            · have : ((l1.map Prod.fst).map fun n => [n]).Nodup := by
                rw [← hl1, g1, List.map_map]; exact i1
              exact (List.pairwise_map.mp this).imp fun h e => h (by rw [e])
            · intro n'
              have e : n' ∈ l1.map Prod.fst ↔ [n'] ∈ (l1.map Prod.fst).map fun n => [n] := by simp
              rw [e, ← hl1, g1, List.map_map]
              constructor
              · intro h
                obtain ⟨z, hz, hz2⟩ := List.mem_map.mp h
                have := (hrest' z.1 (List.mem_map_of_mem hz)).2
                simp only [Function.comp] at hz2
                rwa [hz2] at this
              · intro h
                obtain ⟨v, hv⟩ := Option.ne_none_iff_exists'.mp h
                obtain ⟨z, hz, hz2, -⟩ := (i3 n' v).mp hv
                exact List.mem_map.mpr ⟨z, hz, hz2⟩
          · intro f
            simp only [Option.map_some]
            rw [g5 f, removelast_one hc hx]
      obtain ⟨sub, L1, k1, k2, k3, k6, k4⟩ := key
      obtain ⟨l2, L2, h1, h2, h3, h4, h6, h5⟩ := ih (fun y hy => hrest y (by simp [hy])) (L1.foldl body s1) (some x) st k6
      refine ⟨(n.map tolower, sub) :: l2, (c ++ x) :: (L1 ++ L2), ?_, ?_, ?_, ?_, ?_, ?_⟩
      · simp [h1, hfx]
      · intro y hy
        rcases List.mem_cons.mp hy with rfl | hy
        · rw [fold_append, hfx] at k1; exact k1
        · exact h2 y hy
      · simp [flat, k2, h3, fold_append, hfx]
      · intro y hy
        rcases List.mem_cons.mp hy with rfl | hy
        · exact hcx
        · rcases List.mem_append.mp hy with hy | hy
          · exact k3 y hy
          · exact h4 y hy
      · rw [List.foldl_cons, List.foldl_append, hs1e]; exact h6
      · intro f
        have e : ((c ++ x) :: (L1 ++ L2)).length + f = (L1.length + (L2.length + f)) + 1 := by
          simp; omega
        rw [e, loop_one, hj, hs1e, k4, h5 f, List.foldl_cons, List.foldl_append, hs1e]

/-- The whole loop. -/
theorem loop_spec (m : Spec.Conf.State) (hb : Bounded m) (k : Text) (Inv : σ → Prop)
    (hI : ∀ s, Inv s → Below I m k s)
    (hbody : ∀ s y, Inv s → Names y → y ≠ [] → m (place k ++ fold y) ≠ none → Inv (body s y)) (s : σ) (hs : Inv s) :
    ∃ L : List Key, (∀ y ∈ L, Names y) ∧ Preorder m (place k) [] (L.map fun y => (fold y, m (place k ++ fold y))) ∧
      ∀ n, L.length < n → Copy.loop I body n s (rewind I s (Key.parse k)) = (L.foldl body s, true) := by
  obtain ⟨D, hD⟩ := hb
  have hit := (hI s hs).top
  have hend : ∀ s f c, Copy.loop I body (f + 1) s ⟨Key.parse k, [], c, false⟩ = (s, true) := by
    intro s f c
    simp [Copy.loop, RecIter.next, RecIter.descend, RecIter.advance]
  cases hi : I.iterator s (Key.parse k) with
  | none =>
    rw [hi] at hit
    refine ⟨[], by simp, ?_, ?_⟩
    · refine Preorder.mk [] [] (by simp) ?_ (by simp)
      intro n
      simp [hit [n]]
    · intro n hn
      obtain ⟨f, rfl⟩ : ∃ f, n = f + 1 := ⟨n - 1, by simp at hn; omega⟩
      simp [RecIter.rewind, RecIter.sub, hi, hend]
  | some r =>
    rw [hi] at hit
    obtain ⟨i1, i2, i3⟩ := hit
    have hmem : ∀ y ∈ r.map Prod.fst, Rec.One y ∧ m (place k ++ fold [] ++ fold y) ≠ none := by
      intro y hy
      obtain ⟨z, hz, rfl⟩ := List.mem_map.mp hy
      obtain ⟨⟨n', e, h⟩, hv⟩ := i2 z hz
      refine ⟨⟨n', e, h⟩, ?_⟩
      obtain ⟨v, hv⟩ := Option.ne_none_iff_exists'.mp hv
      have := (i3 (n'.map tolower) v).mpr ⟨z, hz, by rw [e]; rfl, hv⟩
      rw [e]
      rw [show fold [n'] = [n'.map tolower] from rfl, show fold [] = [] from rfl, List.append_nil, this]
      simp
    obtain ⟨l, L, h1, h2, h3, h4, -, h5⟩ := level I body m D hD k Inv hI hbody D [] (by simp [Names]) (by simp [fold]) (r.map Prod.fst)
      hmem s none [] hs
    refine ⟨L, h4, ?_, ?_⟩
    · rw [h3]
      have hl1 : (l.map fun x => [x.1]) = (l.map Prod.fst).map fun n => [n] := by simp
      refine Preorder.mk [] l ?_ ?_ h2
      · have : ((l.map Prod.fst).map fun n => [n]).Nodup := by
          rw [← hl1, h1, List.map_map]; exact i1
        exact (List.pairwise_map.mp this).imp fun h e => h (by rw [e])
      · intro n'
        have e : n' ∈ l.map Prod.fst ↔ [n'] ∈ (l.map Prod.fst).map fun n => [n] := by simp
        rw [e, ← hl1, h1, List.map_map]
        constructor
        · intro h
          obtain ⟨z, hz, hz2⟩ := List.mem_map.mp h
          have := (hmem z.1 (List.mem_map_of_mem hz)).2
          simp only [Function.comp] at hz2
          rwa [hz2] at this
        · intro h
          rw [List.append_nil] at h
          obtain ⟨v, hv⟩ := Option.ne_none_iff_exists'.mp h
          obtain ⟨z, hz, hz2, -⟩ := (i3 n' v).mp hv
          exact List.mem_map.mpr ⟨z, hz, hz2⟩
    · intro n hn
      obtain ⟨f, rfl⟩ : ∃ f, n = L.length + (f + 1) := ⟨n - L.length - 1, by omega⟩
      have := h5 (f + 1)
      rw [hend] at this
      simp only [RecIter.rewind, RecIter.sub, hi, Option.map_some, Option.toList_some]
      rw [this]

end

/-- In a walk in preorder a place comes after those it is below of. -/
theorem preorder_parents (m : Spec.Conf.State) (p q : Place) (L : List (Place × Option Text)) (h : Preorder m p q L) :
    (∀ x ∈ L, q <+: x.1 ∧ x.1 ≠ q) ∧
    ∀ A x B, L = A ++ x :: B → ∀ r, q <+: r → r ≠ q → r <+: x.1 → r ≠ x.1 → r ∈ A.map Prod.fst := by
  induction h with
  | mk q l c1 c2 hs ih =>
    clear hs c1 c2
    induction l with
    | nil =>
      refine ⟨by simp, ?_⟩
      intro A x B h
      simp at h
    | cons y l ihl =>
      obtain ⟨j1, j2⟩ := ihl (fun z hz => ih z (by simp [hz]))
      obtain ⟨i1, i2⟩ := ih y (by simp)
      refine ⟨?_, ?_⟩
      · intro x hx
        rw [List.flatMap_cons, List.mem_append, List.mem_cons] at hx
        rcases hx with (hx | hx) | hx
        · rw [hx]; exact ⟨List.prefix_append _ _, by simp⟩
        · obtain ⟨a, b⟩ := i1 x hx
          refine ⟨(List.prefix_append _ _).trans a, fun e => ?_⟩
          have := a.length_le
          rw [e, List.length_append] at this
          simp only [List.length_cons, List.length_nil] at this
          omega
        · exact j1 x hx
      · intro A x B h r hr1 hr2 hr3 hr4
        rw [List.flatMap_cons] at h
        cases A with
        | nil =>
          have hx : (q ++ [y.1], m (p ++ q ++ [y.1])) = x := by
            rw [List.nil_append, List.cons_append] at h
            exact (List.cons.inj h).1
          rw [← hx] at hr3 hr4
          exfalso
          obtain ⟨t, rfl⟩ := hr1
          obtain ⟨u, e⟩ := hr3
          simp only at e hr4
          rw [List.append_assoc] at e
          have e' := List.append_cancel_left e
          cases t with
          | nil => simp at hr2
          | cons a t =>
            cases t with
            | nil =>
              cases u with
              | nil => exact hr4 (by rw [List.append_nil] at e'; rw [e'])
              | cons _ _ => simp at e'
            | cons _ _ => simp at e'
        | cons a A =>
          rw [List.cons_append, List.cons_append] at h
          obtain ⟨ha, h⟩ := List.cons.inj h
          rw [List.map_cons, List.mem_cons]
          rcases List.append_eq_append_iff.1 h with ⟨c, e1, e2⟩ | ⟨c, e1, e2⟩
          · -- A = y.2 ++ c
            right
            rw [e1, List.map_append, List.mem_append]
            right
            exact j2 c x B e2 r hr1 hr2 hr3 hr4
          · cases c with
            | nil =>
              right
              rw [List.append_nil] at e1
              rw [← e1, ← List.append_nil y.2, List.map_append, List.mem_append]
              right
              exact j2 [] x B (by simpa using e2.symm) r hr1 hr2 hr3 hr4
            | cons z c =>
              have hz : z = x := by simp at e2; exact e2.1.symm
              subst hz
              by_cases hq : r = q ++ [y.1]
              · left; rw [hq, ← ha]
              · right
                refine i2 A z c e1 r ?_ hq hr3 hr4
                -- r is below q ++ [y.1]
                have hpre := (i1 z (by rw [e1]; simp)).1
                rcases List.prefix_or_prefix_of_prefix hr3 hpre with h1 | h1
                · exfalso
                  obtain ⟨t, rfl⟩ := hr1
                  obtain ⟨u, e⟩ := h1
                  rw [List.append_assoc] at e
                  have e' := List.append_cancel_left e
                  cases t with
                  | nil => simp at hr2
                  | cons a t =>
                    cases t with
                    | nil =>
                      cases u with
                      | nil => exact hq (by rw [List.append_nil] at e'; rw [e'])
                      | cons _ _ => simp at e'
                    | cons _ _ => simp at e'
                · exact h1

theorem separate_under {S D : Place} (h : Separate S D) (q r : Place) : ¬ S ++ q <+: D ++ r ∧ ¬ D ++ r <+: S ++ q := by
  have key : ∀ {a b : Place}, Separate a b → ∀ q r, ¬ a ++ q <+: b ++ r := by
    intro a b h q r hp
    rcases List.prefix_or_prefix_of_prefix ((List.prefix_append a q).trans hp) (List.prefix_append b r) with h1 | h1
    · exact h.1 h1
    · exact h.2 h1
  exact ⟨key h q r, key ⟨h.2, h.1⟩ r q⟩

/-- What one round makes of the destination. -/
def stepTo (m : Spec.Conf.State) (S D : Place) (force : Bool) (d : Spec.Conf.State) (r : Place) : Spec.Conf.State :=
  if force = true ∨ d (D ++ r) = none then
    fun q => if q = D ++ r then m (S ++ r) else if q <+: D ++ r then some ((d q).getD []) else d q
  else d

/-- What some rounds make of it, if the places come in preorder. -/
theorem steps_spec (m : Spec.Conf.State) (S D : Place) (force : Bool) (d : Spec.Conf.State) (hcl : Closed d)
    (hD : d D ≠ none) (R : List Place) (hnd : R.Nodup) (hne : ∀ r ∈ R, r ≠ [] ∧ m (S ++ r) ≠ none)
    (hpar : ∀ A r B, R = A ++ r :: B → ∀ t, t ≠ [] → t <+: r → t ≠ r → t ∈ A) : ∀ A B, R = A ++ B →
    A.foldl (stepTo m S D force) d = fun q =>
      if D <+: q ∧ q.drop D.length ∈ A ∧ (force = true ∨ d q = none) then m (S ++ q.drop D.length) else d q := by
  intro A
  generalize hn : A.length = n
  induction n generalizing A with
  | zero =>
    intro B _
    rw [List.length_eq_zero_iff.1 hn]
    funext q; simp
  | succ n ih0 =>
    intro B h
    obtain ⟨A, r, rfl⟩ : ∃ A' r, A = A' ++ [r] := by
      rcases List.eq_nil_or_concat A with e | ⟨A', r, e⟩
      · rw [e] at hn; simp at hn
      · exact ⟨A', r, by rw [e]; simp⟩
    have ih := ih0 A (by simpa using hn)
    rw [List.foldl_append, ih (r :: B) (by simpa using h), List.foldl_cons, List.foldl_nil]
    have hr : r ∉ A := by
      have := h ▸ hnd
      rw [List.nodup_append] at this
      have := this.1
      rw [List.nodup_append] at this
      intro hm
      exact this.2.2 r hm r (by simp) rfl
    have hrR : r ∈ R := by rw [h]; simp
    obtain ⟨hr0, hmr⟩ := hne r hrR
    have hp := hpar A r B (by simpa using h)
    -- what is above exists already
    have habove : ∀ q, q <+: D ++ r → q ≠ D ++ r →
        (if D <+: q ∧ q.drop D.length ∈ A ∧ (force = true ∨ d q = none) then m (S ++ q.drop D.length) else d q) ≠ none := by
      intro q hq1 hq2
      rcases List.prefix_or_prefix_of_prefix hq1 (List.prefix_append D r) with h1 | h1
      · obtain ⟨t, e⟩ := h1
        have hdq : d q ≠ none := hcl q t (by rw [e]; exact hD)
        by_cases hc : D <+: q ∧ q.drop D.length ∈ A ∧ (force = true ∨ d q = none)
        · rw [if_pos hc]
          exact (hne _ (by rw [h]; simp [hc.2.1])).2
        · rw [if_neg hc]; exact hdq
      · obtain ⟨t, rfl⟩ := h1
        have ht : (D ++ t).drop D.length = t := by simp
        rw [ht]
        by_cases ht0 : t = []
        · subst ht0
          rw [if_neg (fun hc => (hne [] (by rw [h]; simp [hc.2.1])).1 rfl), List.append_nil]
          exact hD
        · have htA : t ∈ A := by
            refine hp t ht0 ?_ ?_
            · obtain ⟨u, e⟩ := hq1
              rw [List.append_assoc] at e
              exact ⟨u, List.append_cancel_left e⟩
            · intro e; exact hq2 (by rw [e])
          by_cases hf : force = true ∨ d (D ++ t) = none
          · rw [if_pos ⟨List.prefix_append _ _, htA, hf⟩]
            exact (hne t (by rw [h]; simp [htA])).2
          · rw [if_neg (fun hc => hf hc.2.2)]
            intro e; exact hf (Or.inr e)
    have hat : (if D <+: (D ++ r) ∧ (D ++ r).drop D.length ∈ A ∧ (force = true ∨ d (D ++ r) = none)
        then m (S ++ (D ++ r).drop D.length) else d (D ++ r)) = d (D ++ r) := by
      rw [if_neg]
      intro hc
      have := hc.2.1
      simp at this
      exact hr this
    unfold stepTo
    simp only [hat]
    funext q
    by_cases hf : force = true ∨ d (D ++ r) = none
    · rw [if_pos hf]
      by_cases hq : q = D ++ r
      · subst hq
        rw [if_pos rfl]
        have hdr : (D ++ r).drop D.length = r := by simp
        rw [hdr, if_pos ⟨List.prefix_append _ _, by simp, hf⟩]
      · rw [if_neg hq]
        have hiff : (D <+: q ∧ q.drop D.length ∈ A ++ [r] ∧ (force = true ∨ d q = none)) ↔
            (D <+: q ∧ q.drop D.length ∈ A ∧ (force = true ∨ d q = none)) := by
          constructor
          · rintro ⟨h1, h2, h3⟩
            refine ⟨h1, ?_, h3⟩
            rcases List.mem_append.mp h2 with h2 | h2
            · exact h2
            · exfalso
              obtain ⟨t, rfl⟩ := h1
              simp at h2
              exact hq (by rw [h2])
          · rintro ⟨h1, h2, h3⟩
            exact ⟨h1, by simp [h2], h3⟩
        have hval : (if D <+: q ∧ q.drop D.length ∈ A ++ [r] ∧ (force = true ∨ d q = none) then m (S ++ q.drop D.length) else d q)
            = if D <+: q ∧ q.drop D.length ∈ A ∧ (force = true ∨ d q = none) then m (S ++ q.drop D.length) else d q := by
          by_cases hc : D <+: q ∧ q.drop D.length ∈ A ∧ (force = true ∨ d q = none)
          · rw [if_pos hc, if_pos (hiff.2 hc)]
          · rw [if_neg hc, if_neg (fun h => hc (hiff.1 h))]
        rw [hval]
        by_cases hpre : q <+: D ++ r
        · rw [if_pos hpre]
          obtain ⟨v, hv⟩ := Option.ne_none_iff_exists'.mp (habove q hpre hq)
          rw [hv]; rfl
        · rw [if_neg hpre]
    · rw [if_neg hf]
      by_cases hq : q = D ++ r
      · subst hq
        rw [hat, if_neg (fun hc => hf hc.2.2)]
      · have hiff : (D <+: q ∧ q.drop D.length ∈ A ++ [r] ∧ (force = true ∨ d q = none)) ↔
            (D <+: q ∧ q.drop D.length ∈ A ∧ (force = true ∨ d q = none)) := by
          constructor
          · rintro ⟨h1, h2, h3⟩
            refine ⟨h1, ?_, h3⟩
            rcases List.mem_append.mp h2 with h2 | h2
            · exact h2
            · exfalso
              obtain ⟨t, rfl⟩ := h1
              simp at h2
              exact hq (by rw [h2])
          · rintro ⟨h1, h2, h3⟩
            exact ⟨h1, by simp [h2], h3⟩
        by_cases hc : D <+: q ∧ q.drop D.length ∈ A ∧ (force = true ∨ d q = none)
        · rw [if_pos hc, if_pos (hiff.2 hc)]
        · rw [if_neg hc, if_neg (fun h => hc (hiff.1 h))]

/-- `copy`, where `Q s d` says that in the state `s` the source shows `m` below `src`, and the destination `d`. -/
theorem copy_spec {σ : Type} (I J : IGen σ) (m : Spec.Conf.State) (hmb : Bounded m) (hmc : Closed m) (src dst : Text)
    (hsd : Spec.Path.dir src = false) (hdd : Spec.Path.dir dst = false) (force : Bool)
    (Q : σ → Spec.Conf.State → Prop)
    (hQb : ∀ s d, Q s d → Below I m src s)
    (hQsrc : ∀ s d, Q s d → I.get s (Key.parse src) = m (place src))
    (hQg : ∀ s d, Q s d → ∀ t, J.get s (Key.parse t) = Spec.Conf.get d t)
    (hQs : ∀ s d, Q s d → ∀ t v, place dst <+: place t → Q (J.set s (Key.parse t) v) (Spec.Conf.set d t v))
    (s : σ) (d : Spec.Conf.State) (hs : Q s d) (hdc : Closed d) :
    ∃ N, ∀ n, N < n → (Copy.copy I J n s (Key.parse src) (Key.parse dst) force).2 = true ∧
      Q (Copy.copy I J n s (Key.parse src) (Key.parse dst) force).1
        (if m (place src) = none then removed d (place dst)
         else copied m (fun q => if q = place dst then none else d q) (place src) (place dst) force) := by
  unfold Copy.copy
  simp only
  rw [hQsrc s d hs]
  have hs1 := hQs s d hs dst (m (place src)) (List.prefix_refl _)
  have hset1 : m (place src) ≠ none ∨ m (place src) = none := by
    cases m (place src) <;> simp
  generalize hse : J.set s (Key.parse dst) (m (place src)) = s1 at hs1
  have hround : ∀ s d y, Q s d → Names y → y ≠ [] → m (place src ++ fold y) ≠ none →
      Q (Copy.round I J (Key.parse src) (Key.parse dst) force s y) (stepTo m (place src) (place dst) force d (fold y)) := by
    intro s d y hq hy hy0 hm
    obtain ⟨t1, t2, t3⟩ := join_top dst hy hy0
    have hg := hQg s d hq (Mounts.path (Spec.Path.names dst ++ y))
    rw [← t1] at hg
    unfold Spec.Conf.get at hg
    rw [t3, t2] at hg
    have hg : J.get s (Key.join (Key.parse dst) y) = d (place dst ++ fold y) := by simpa using hg
    unfold Copy.round stepTo
    simp only
    rw [hg]
    by_cases hc : force = true ∨ d (place dst ++ fold y) = none
    · rw [if_pos hc, if_pos (by rcases hc with h | h <;> simp [h])]
      rw [(hQb s d hq).get y hy hy0, t1]
      obtain ⟨v, hv⟩ := Option.ne_none_iff_exists'.mp hm
      rw [hv]
      have := hQs s d hq (Mounts.path (Spec.Path.names dst ++ y)) (some v) (by rw [t2]; exact List.prefix_append _ _)
      unfold Spec.Conf.set at this
      simp only at this
      rw [t3, t2] at this
      simpa using this
    · rw [if_neg hc, if_neg (by
        intro h
        apply hc
        simp at h
        exact h)]
      exact hq
  have hfold : ∀ (L : List Key), (∀ y ∈ L, Names y) → (∀ y ∈ L, y ≠ [] ∧ m (place src ++ fold y) ≠ none) → ∀ s d, Q s d →
      Q (L.foldl (Copy.round I J (Key.parse src) (Key.parse dst) force) s)
        ((L.map fold).foldl (stepTo m (place src) (place dst) force) d) := by
    intro L
    induction L with
    | nil => intro _ _ s d h; exact h
    | cons y L ih =>
      intro h1 h2 s d h
      rw [List.foldl_cons, List.map_cons, List.foldl_cons]
      exact ih (fun z hz => h1 z (by simp [hz])) (fun z hz => h2 z (by simp [hz])) _ _
        (hround s d y h (h1 y (by simp)) (h2 y (by simp)).1 (h2 y (by simp)).2)
  obtain ⟨L, l1, l2, l3⟩ := loop_spec I (Copy.round I J (Key.parse src) (Key.parse dst) force) m hmb src (fun s => ∃ d, Q s d)
    (fun s ⟨d, h⟩ => hQb s d h) (fun s y ⟨d, h⟩ h1 h2 h3 => ⟨_, hround s d y h h1 h2 h3⟩) s1 ⟨_, hs1⟩
  refine ⟨L.length, fun n hn => ?_⟩
  rw [l3 n hn]
  refine ⟨rfl, ?_⟩
  -- what is visited
  obtain ⟨pm, pn⟩ := preorder_mem m hmc _ _ _ l2
  have pp := (preorder_parents m _ _ _ l2).2
  have hmem : ∀ y ∈ L, y ≠ [] ∧ m (place src ++ fold y) ≠ none := by
    intro y hy
    obtain ⟨t, t1, t2, t3, t4⟩ := (pm (fold y) (m (place src ++ fold y))).1 (List.mem_map.2 ⟨y, hy, rfl⟩)
    refine ⟨fun e => ?_, t4⟩
    subst e
    exact t1 (by simpa [fold] using t2.symm)
  have hq := hfold L l1 hmem s1 _ hs1
  by_cases hsrc : m (place src) = none
  · rw [if_pos hsrc]
    have hL : L = [] := by
      cases L with
      | nil => rfl
      | cons y L => exact absurd hsrc (hmc _ _ (hmem y (by simp)).2)
    subst hL
    rw [hsrc] at hq
    exact hq
  · rw [if_neg hsrc]
    obtain ⟨v0, hv0⟩ := Option.ne_none_iff_exists'.mp hsrc
    rw [hv0] at hq
    have hd1 : Spec.Conf.set d dst (some v0) = fun q => if q = place dst then some v0 else if q <+: place dst then some ((d q).getD []) else d q := by
      simp [Spec.Conf.set, hdd]
    have hcl1 : Closed (Spec.Conf.set d dst (some v0)) := set_closed d hdc dst _
    have hD1 : Spec.Conf.set d dst (some v0) (place dst) ≠ none := by rw [hd1]; simp
    have hR : ∀ r, r ∈ L.map fold ↔ r ≠ [] ∧ m (place src ++ r) ≠ none := by
      intro r
      constructor
      · intro h
        obtain ⟨y, hy, rfl⟩ := List.mem_map.1 h
        exact ⟨by simpa [fold] using (hmem y hy).1, (hmem y hy).2⟩
      · rintro ⟨h1, h2⟩
        have := (pm r (m (place src ++ r))).2 ⟨r, h1, rfl, rfl, h2⟩
        obtain ⟨y, hy, e⟩ := List.mem_map.1 this
        exact List.mem_map.2 ⟨y, hy, (Prod.mk.inj e).1⟩
    have := steps_spec m (place src) (place dst) force (Spec.Conf.set d dst (some v0)) hcl1 hD1 (L.map fold)
      (by rw [List.map_map] at pn; exact pn)
      (fun r hr => (hR r).1 hr)
      (by
        intro A r B hsplit t ht1 ht2 ht3
        obtain ⟨LA, LB, e1, e2, e3⟩ := List.map_eq_append_iff.1 hsplit
        obtain ⟨y, LB', e4, e5, e6⟩ := List.map_eq_cons_iff.1 e3
        have := pp (LA.map fun y => (fold y, m (place src ++ fold y))) (fold y, m (place src ++ fold y))
          (LB'.map fun y => (fold y, m (place src ++ fold y))) (by rw [e1, e4]; simp) t (List.nil_prefix) ht1
          (by rw [e5]; exact ht2) (by rw [e5]; exact ht3)
        rw [List.map_map] at this
        rw [← e2]
        exact this)
      (L.map fold) [] (by simp)
    rw [this] at hq
    have hfin : (fun q => if place dst <+: q ∧ q.drop (place dst).length ∈ L.map fold ∧
          (force = true ∨ Spec.Conf.set d dst (some v0) q = none) then m (place src ++ q.drop (place dst).length)
          else Spec.Conf.set d dst (some v0) q)
        = copied m (fun q => if q = place dst then none else d q) (place src) (place dst) force := by
      funext q
      rw [hd1]
      unfold copied
      simp only
      by_cases hpre : place dst <+: q
      · rw [if_pos hpre]
        obtain ⟨r, rfl⟩ := hpre
        have hdr : (place dst ++ r).drop (place dst).length = r := by simp
        rw [hdr]
        simp only [hR]
        by_cases hr : r = []
        · subst hr
          rw [List.append_nil, List.append_nil, hv0]
          simp
        · have hne : place dst ++ r ≠ place dst := by simpa using hr
          have hnp : ¬ place dst ++ r <+: place dst := by
            intro h
            have := h.length_le
            rw [List.length_append] at this
            exact hr (List.length_eq_zero_iff.1 (by omega))
          rw [if_neg hne, if_neg hnp, if_neg hne]
          cases hm : m (place src ++ r) with
          | none => simp
          | some v =>
            by_cases hc : force = true ∨ d (place dst ++ r) = none
            · rw [if_pos ⟨List.prefix_append _ _, ⟨hr, by simp⟩, hc⟩]
              simp only
              rw [if_pos hc]
            · rw [if_neg (fun h => hc h.2.2)]
              simp only
              rw [if_neg hc]
      · rw [if_neg (fun h => hpre h.1), if_neg hpre]
        have hne : q ≠ place dst := fun e => hpre (by rw [e]; exact List.prefix_refl _)
        rw [if_neg hne, if_neg hne]
    rw [hfin] at hq
    exact hq

/-- What `Below` asks for, from a generator that shows a configuration. -/
theorem below_of {σ : Type} (I : IGen σ) (s : σ) (d m : Spec.Conf.State) (h : Reads I s d) (k : Text)
    (ha : ∀ q, d (place k ++ q) = m (place k ++ q)) : Below I m k s := by
  have hok : ∀ (p : Place) (r), (∀ q, d (p ++ q) = m (p ++ q)) → IterOk d p r → IterOk m p r := by
    intro p r hp h
    cases r with
    | none => intro q; rw [← hp]; exact h q
    | some r =>
      obtain ⟨h1, h2, h3⟩ := h
      exact ⟨h1, h2, fun n v => by rw [← hp]; exact h3 n v⟩
  have hit : ∀ t, IterOk d (place t) (I.iterator s (Key.parse t)) := by
    intro t
    have := h.iterator t
    cases hi : I.iterator s (Key.parse t) with
    | none => rw [hi] at this; exact this
    | some r => rw [hi] at this; exact this
  refine ⟨fun x hx h0 => ?_, hok _ _ ha (hit k), fun x hx h0 => ?_⟩
  · obtain ⟨t1, t2, t3⟩ := join_top k hx h0
    rw [t1, h.get, Spec.Conf.get, t3, t2]
    simp [ha]
  · obtain ⟨t1, t2, t3⟩ := join_top k hx h0
    rw [t1]
    have := hit (Mounts.path (Spec.Path.names k ++ x))
    rw [t2] at this
    refine hok _ _ ?_ this
    intro q
    rw [List.append_assoc, ha]

end Props.Cpy
