import Verif.Model.RecIter
import Verif.Spec.Walk
import Verif.Props.MountGen
/- C54: recursive iterators. -/
namespace Props
open Wv Spec.Conf Gens Spec.Walk
open Wv.Key (fold mk Names)

namespace Rec
open RecIter

theorem fold_append (a b : Key) : fold (a ++ b) = fold a ++ fold b := by simp [fold]

/-- a single name -/
def One (x : Key) : Prop := ∃ n : Seg, x = [n] ∧ n ≠ [] ∧ Spec.Path.slash ∉ n

theorem One.names {x : Key} (h : One x) : Names x := by
  obtain ⟨n, rfl, h⟩ := h
  intro y hy
  simp at hy
  subst hy
  exact h

theorem append_one {c x : Key} (hc : Names c) (hx : One x) : Key.append c x = c ++ x := by
  obtain ⟨n, rfl, h1, h2⟩ := hx
  unfold Key.append Key.collapse
  simp only [Key.isempty, Key.hastrailingslash]
  have : c ++ [n] ≠ [[]] := fun h => h1 (by simpa using congrArg List.getLast? h)
  simp [h1, this]

theorem join_one {c x : Key} (hc : Names c) (hx : One x) : Key.join c x = c ++ x := by
  have := Key.join_mk c x false false hc hx.names (by simp)
  obtain ⟨n, rfl, h1, h2⟩ := hx
  simpa [mk] using this

theorem join_top (k : Text) {x : Key} (hx : Names x) (h0 : x ≠ []) :
    Key.join (Key.parse k) x = Key.parse (Mounts.path (Spec.Path.names k ++ x)) ∧
    place (Mounts.path (Spec.Path.names k ++ x)) = place k ++ fold x ∧ Spec.Path.dir (Mounts.path (Spec.Path.names k ++ x)) = false := by
  have hn : Names (Spec.Path.names k ++ x) := (Key.names_ok k).append hx
  have h1 := Mounts.path_spec _ hn
  refine ⟨?_, ?_, h1.2.2⟩
  · rw [h1.1, Key.parse_eq k]
    have := Key.join_mk (Spec.Path.names k) x (Spec.Path.dir k) false (Key.names_ok k) hx (by simp)
    have e : mk x false = x := by simp [mk]
    rw [e] at this
    rw [this]
    cases x with
    | nil => exact absurd rfl h0
    | cons => simp
  · rw [h1.2.1]
    rw [fold_append, place, Gens.fold_eq]

theorem removelast_one {c x : Key} (hc : Names c) (hx : One x) : Key.removelast (c ++ x) 1 = c := by
  have hn : Names (c ++ x) := hc.append hx.names
  have := Key.range_mk (c ++ x) false hn (by simp) 0 ((c ++ x).length - 1)
  have e : mk (c ++ x) false = c ++ x := by simp [mk]
  rw [e] at this
  unfold Key.removelast Key.numsegments
  rw [this]
  obtain ⟨n, rfl, h1, h2⟩ := hx
  simp [mk]

section
variable {σ : Type} (I : IGen σ) (s : σ)

theorem descend_idem (it : It) : descend I s (descend I s it) = descend I s it := by
  have h : (descend I s it).subNext = false := by
    unfold descend
    split
    · simp only; split <;> rfl
    · rename_i h; simpa using h
  generalize descend I s it = x at *
  unfold descend
  simp [h]

theorem visit_descend (n : Nat) (it : It) : visit I s n it = visit I s n (descend I s it) := by
  cases n with
  | zero => rfl
  | succ n =>
    have h : next I s it = next I s (descend I s it) := by simp only [next, descend_idem]
    simp only [visit, h]

theorem visit_up (n : Nat) (top : Key) (cur : Option Key) (st : List Sub) (c : Key) :
    visit I s n ⟨top, (cur, []) :: st, c, false⟩ = visit I s n ⟨top, st, Key.removelast c 1, false⟩ := by
  cases n with
  | zero => rfl
  | succ n =>
    have h : next I s ⟨top, (cur, []) :: st, c, false⟩ = next I s ⟨top, st, Key.removelast c 1, false⟩ := by
      simp [next, descend, advance]
    simp only [visit, h]

theorem visit_one (n : Nat) (top : Key) (cur : Option Key) (x : Key) (rest : List Key) (st : List Sub) (c : Key) :
    visit I s (n + 1) ⟨top, (cur, x :: rest) :: st, c, false⟩ =
      ((Key.join c x, I.get s (Key.join top (Key.join c x))) :: (visit I s n (descend I s ⟨top, (some x, rest) :: st, c, true⟩)).1,
       (visit I s n (descend I s ⟨top, (some x, rest) :: st, c, true⟩)).2) := by
  have h : next I s ⟨top, (cur, x :: rest) :: st, c, false⟩ = (⟨top, (some x, rest) :: st, c, true⟩, true) := by
    simp [next, descend, advance]
  rw [visit]
  simp only [h, if_true, ← visit_descend]
  simp [key, value, firstKey]

/-- what the names in a list and what comes after them make -/
def flat (m : Spec.Conf.State) (p q : Place) (l : List (Text × List (Place × Option Text))) : List (Place × Option Text) :=
  l.flatMap fun x => (q ++ [x.1], m (p ++ q ++ [x.1])) :: x.2

theorem level (m : Spec.Conf.State) (hr : Reads I s m) (D : Nat) (hD : ∀ q, m q ≠ none → q.length ≤ D) (k : Text) : ∀ (d : Nat) (c : Key),
    Names c → D ≤ (place k ++ fold c).length + d →
    ∀ (rest : List Key), (∀ x ∈ rest, One x ∧ m (place k ++ fold c ++ fold x) ≠ none) → ∀ (cur : Option Key) (st : List Sub),
    ∃ (l : List (Text × List (Place × Option Text))) (L : List (Key × Option TempGen.Value)),
      l.map (fun x => [x.1]) = rest.map fold ∧ (∀ x ∈ l, Preorder m (place k) (fold c ++ [x.1]) x.2) ∧
      L.map (fun y => (fold y.1, y.2)) = flat m (place k) (fold c) l ∧ (∀ y ∈ L, Names y.1) ∧
      ∀ f, visit I s (L.length + f) ⟨Key.parse k, (cur, rest) :: st, c, false⟩ =
        (L ++ (visit I s f ⟨Key.parse k, st, Key.removelast c 1, false⟩).1, (visit I s f ⟨Key.parse k, st, Key.removelast c 1, false⟩).2) := by
  intro d
  induction d with
  | zero =>
    intro c hc hd rest hrest cur st
    cases rest with
    | nil => exact ⟨[], [], rfl, by simp, rfl, by simp, fun f => by simp [visit_up]⟩
    | cons x rest =>
      exfalso
      obtain ⟨⟨n, rfl, -⟩, h⟩ := hrest x (by simp)
      have := hD _ h
      simp [fold] at this hd
      omega
  | succ d ihd =>
    intro c hc hd rest
    induction rest with
    | nil => intro _ cur st; exact ⟨[], [], rfl, by simp, rfl, by simp, fun f => by simp [visit_up]⟩
    | cons x rest ih =>
      intro hrest cur st
      obtain ⟨hx, hmx⟩ := hrest x (by simp)
      obtain ⟨l2, L2, h1, h2, h3, h4, h5⟩ := ih (fun y hy => hrest y (by simp [hy])) (some x) st
      have hcx : Names (c ++ x) := hc.append hx.names
      have hne : c ++ x ≠ [] := by obtain ⟨n, rfl, -⟩ := hx; simp
      obtain ⟨t1, t2, t3⟩ := join_top k hcx hne
      have hj : Key.join c x = c ++ x := join_one hc hx
      have hget : I.get s (Key.join (Key.parse k) (c ++ x)) = m (place k ++ fold c ++ fold x) := by
        rw [t1, hr.get, Spec.Conf.get, t3, t2, fold_append]
        simp
      have hit := hr.iterator (Mounts.path (Spec.Path.names k ++ (c ++ x)))
      rw [← t1, t2] at hit
      obtain ⟨n, hxn, hn⟩ := hx
      have hfx : fold x = [n.map tolower] := by rw [hxn]; rfl
      have hx : One x := ⟨n, hxn, hn⟩
      -- what comes after `x`
      have key : ∃ (sub : List (Place × Option Text)) (L1 : List (Key × Option TempGen.Value)),
          Preorder m (place k) (fold (c ++ x)) sub ∧ L1.map (fun y => (fold y.1, y.2)) = sub ∧ (∀ y ∈ L1, Names y.1) ∧
          ∀ f, visit I s (L1.length + f) (descend I s ⟨Key.parse k, (some x, rest) :: st, c, true⟩) =
            (L1 ++ (visit I s f ⟨Key.parse k, (some x, rest) :: st, c, false⟩).1,
             (visit I s f ⟨Key.parse k, (some x, rest) :: st, c, false⟩).2) := by
        have hdesc : descend I s ⟨Key.parse k, (some x, rest) :: st, c, true⟩ =
            match sub I s (Key.join (Key.parse k) (c ++ x)) with
            | some n => ⟨Key.parse k, n :: (some x, rest) :: st, c ++ x, false⟩
            | none => ⟨Key.parse k, (some x, rest) :: st, c, false⟩ := by
          simp only [descend, firstKey, if_true, hj, append_one hc hx]
          cases RecIter.sub I s (Key.join (Key.parse k) (c ++ x)) <;> rfl
        rw [hdesc]
        unfold sub
        cases hi : I.iterator s (Key.join (Key.parse k) (c ++ x)) with
        | none =>
          rw [hi] at hit
          refine ⟨[], [], ?_, rfl, by simp, fun f => by simp⟩
          refine Preorder.mk (fold (c ++ x)) [] (by simp) ?_ (by simp)
          intro n
          have h0 := hit [n]
          simpa using h0
        | some r =>
          rw [hi] at hit
          obtain ⟨i1, i2, i3⟩ := hit
          have hrest' : ∀ y ∈ r.map Prod.fst, One y ∧ m (place k ++ fold (c ++ x) ++ fold y) ≠ none := by
            intro y hy
            obtain ⟨z, hz, rfl⟩ := List.mem_map.mp hy
            obtain ⟨⟨n', e, h⟩, hv⟩ := i2 z hz
            refine ⟨⟨n', e, h⟩, ?_⟩
            obtain ⟨v, hv⟩ := Option.ne_none_iff_exists'.mp hv
            have := (i3 (n'.map tolower) v).mpr ⟨z, hz, by rw [e]; rfl, hv⟩
            rw [e]
            rw [show fold [n'] = [n'.map tolower] from rfl, this]
            simp
          have hd' : D ≤ (place k ++ fold (c ++ x)).length + d := by
            rw [fold_append, hfx]
            simp at hd ⊢
            omega
          obtain ⟨l1, L1, g1, g2, g3, g4, g5⟩ := ihd (c ++ x) hcx hd' (r.map Prod.fst) hrest' none ((some x, rest) :: st)
          refine ⟨flat m (place k) (fold (c ++ x)) l1, L1, ?_, g3, g4, ?_⟩
          · have hl1 : (l1.map fun x => [x.1]) = (l1.map Prod.fst).map fun n => [n] := by simp
            refine Preorder.mk (fold (c ++ x)) l1 ?_ ?_ g2
            · have : ((l1.map Prod.fst).map fun n => [n]).Nodup := by
                rw [← hl1, g1, List.map_map]; exact i1
              exact (List.pairwise_map.mp this).imp fun h e => h (by rw [e])
            · intro n'
              have e : n' ∈ l1.map Prod.fst ↔ [n'] ∈ (l1.map Prod.fst).map fun n => [n] := by simp
              rw [e, ← hl1, g1, List.map_map]
              constructor
              · intro h
                obtain ⟨z, hz, hz2⟩ := List.mem_map.mp h
                have := (hrest' z.1 (List.mem_map_of_mem hz)).2
                simp only [Function.comp] at hz2
                rwa [hz2] at this
              · intro h
                obtain ⟨v, hv⟩ := Option.ne_none_iff_exists'.mp h
                obtain ⟨z, hz, hz2, -⟩ := (i3 n' v).mp hv
                exact List.mem_map.mpr ⟨z, hz, hz2⟩
          · intro f
            simp only [Option.map_some]
            rw [g5 f, removelast_one hc hx]
      obtain ⟨sub, L1, k1, k2, k3, k4⟩ := key
      refine ⟨(n.map tolower, sub) :: l2, (c ++ x, m (place k ++ fold c ++ fold x)) :: (L1 ++ L2), ?_, ?_, ?_, ?_, ?_⟩
      · simp [h1, hfx]
      · intro y hy
        rcases List.mem_cons.mp hy with rfl | hy
        · rw [fold_append, hfx] at k1; exact k1
        · exact h2 y hy
      · simp [flat, k2, h3, fold_append, hfx]
      · intro y hy
        rcases List.mem_cons.mp hy with rfl | hy
        · exact hcx
        · rcases List.mem_append.mp hy with hy | hy
          · exact k3 y hy
          · exact h4 y hy
      · intro f
        have e : ((c ++ x, m (place k ++ fold c ++ fold x)) :: (L1 ++ L2)).length + f = (L1.length + (L2.length + f)) + 1 := by
          simp; omega
        rw [e, visit_one, hj, k4, h5 f, hget]
        simp

end
end Rec

/-- C54: a loop over a recursive iterator ends, and visits all that is below the key, each once, with its value, in preorder, in any
    generator that shows a configuration. -/
theorem C54_preorder {σ : Type} (I : IGen σ) (s : σ) (m : Spec.Conf.State) (hr : Reads I s m) (hb : Bounded m) (k : Text) :
    ∃ (L : List (Key × Option TempGen.Value)), (∀ y ∈ L, Names y.1) ∧ Preorder m (place k) [] (L.map fun y => (fold y.1, y.2)) ∧
      ∀ n, L.length < n → RecIter.recursive I s n (Key.parse k) = (L, true) := by
  obtain ⟨D, hD⟩ := hb
  have hit := hr.iterator k
  have hend : ∀ f c, RecIter.visit I s (f + 1) ⟨Key.parse k, [], c, false⟩ = ([], true) := by
    intro f c
    simp [RecIter.visit, RecIter.next, RecIter.descend, RecIter.advance]
  cases hi : I.iterator s (Key.parse k) with
  | none =>
    rw [hi] at hit
    refine ⟨[], by simp, ?_, ?_⟩
    · refine Preorder.mk [] [] (by simp) ?_ (by simp)
      intro n
      simp [hit [n]]
    · intro n hn
      obtain ⟨f, rfl⟩ : ∃ f, n = f + 1 := ⟨n - 1, by simp at hn; omega⟩
      simp [RecIter.recursive, RecIter.rewind, RecIter.sub, hi, hend]
  | some r =>
    rw [hi] at hit
    obtain ⟨i1, i2, i3⟩ := hit
    have hmem : ∀ y ∈ r.map Prod.fst, Rec.One y ∧ m (place k ++ fold [] ++ fold y) ≠ none := by
      intro y hy
      obtain ⟨z, hz, rfl⟩ := List.mem_map.mp hy
      obtain ⟨⟨n', e, h⟩, hv⟩ := i2 z hz
      refine ⟨⟨n', e, h⟩, ?_⟩
      obtain ⟨v, hv⟩ := Option.ne_none_iff_exists'.mp hv
      have := (i3 (n'.map tolower) v).mpr ⟨z, hz, by rw [e]; rfl, hv⟩
      rw [e]
      rw [show fold [n'] = [n'.map tolower] from rfl, show fold [] = [] from rfl, List.append_nil, this]
      simp
    obtain ⟨l, L, h1, h2, h3, h4, h5⟩ := Rec.level I s m hr D hD k D [] (by simp [Names]) (by simp [fold]) (r.map Prod.fst) hmem none []
    refine ⟨L, h4, ?_, ?_⟩
    · rw [h3]
      have hl1 : (l.map fun x => [x.1]) = (l.map Prod.fst).map fun n => [n] := by simp
      refine Preorder.mk [] l ?_ ?_ h2
      · have : ((l.map Prod.fst).map fun n => [n]).Nodup := by
          rw [← hl1, h1, List.map_map]; exact i1
        exact (List.pairwise_map.mp this).imp fun h e => h (by rw [e])
      · intro n'
        have e : n' ∈ l.map Prod.fst ↔ [n'] ∈ (l.map Prod.fst).map fun n => [n] := by simp
        rw [e, ← hl1, h1, List.map_map]
        constructor
        · intro h
          obtain ⟨z, hz, hz2⟩ := List.mem_map.mp h
          have := (hmem z.1 (List.mem_map_of_mem hz)).2
          simp only [Function.comp] at hz2
          rwa [hz2] at this
        · intro h
          rw [List.append_nil] at h
          obtain ⟨v, hv⟩ := Option.ne_none_iff_exists'.mp h
          obtain ⟨z, hz, hz2, -⟩ := (i3 n' v).mp hv
          exact List.mem_map.mpr ⟨z, hz, hz2⟩
    · intro n hn
      obtain ⟨f, rfl⟩ : ∃ f, n = L.length + (f + 1) := ⟨n - L.length - 1, by omega⟩
      have := h5 (f + 1)
      rw [hend] at this
      simp only [RecIter.recursive, RecIter.rewind, RecIter.sub, hi, Option.map_some, Option.toList_some]
      rw [this]
      simp

namespace Rec

theorem preorder_mem (m : Spec.Conf.State) (hc : Closed m) (p q : Place) (L : List (Place × Option Text)) (h : Preorder m p q L) :
    (∀ r v, (r, v) ∈ L ↔ ∃ t, t ≠ [] ∧ r = q ++ t ∧ v = m (p ++ r) ∧ v ≠ none) ∧ (L.map Prod.fst).Nodup := by
  induction h with
  | mk q l hn hl hs ih =>
    have hmem : ∀ r v, (r, v) ∈ (l.flatMap fun x => (q ++ [x.1], m (p ++ q ++ [x.1])) :: x.2) ↔
        ∃ t, t ≠ [] ∧ r = q ++ t ∧ v = m (p ++ r) ∧ v ≠ none := by
      intro r v
      rw [List.mem_flatMap]
      constructor
      · rintro ⟨x, hx, h⟩
        have hx1 := (hl x.1).mp (List.mem_map_of_mem hx)
        rcases List.mem_cons.mp h with h | h
        · obtain ⟨rfl, rfl⟩ := Prod.mk.inj h
          exact ⟨[x.1], by simp, rfl, by simp, hx1⟩
        · obtain ⟨t, h1, h2, h3, h4⟩ := ((ih x hx).1 r v).mp h
          exact ⟨x.1 :: t, by simp, by simp [h2], h3, h4⟩
      · rintro ⟨t, h1, h2, h3, h4⟩
        obtain ⟨n, t, rfl⟩ := List.exists_cons_of_ne_nil h1
        have hmn : m (p ++ q ++ [n]) ≠ none := hc _ t (by
          have : p ++ q ++ [n] ++ t = p ++ r := by rw [h2]; simp
          rw [this, ← h3]; exact h4)
        obtain ⟨x, hx, rfl⟩ := List.mem_map.mp ((hl n).mpr hmn)
        refine ⟨x, hx, ?_⟩
        by_cases ht : t = []
        · subst ht
          refine List.mem_cons.mpr (Or.inl ?_)
          rw [h3, h2]
          simp
        · exact List.mem_cons.mpr (Or.inr (((ih x hx).1 r v).mpr ⟨t, ht, by simp [h2], h3, h4⟩))
    refine ⟨hmem, ?_⟩
    clear hmem hl
    induction l with
    | nil => simp
    | cons x l ihl =>
      obtain ⟨h1, h2⟩ := List.nodup_cons.mp hn
      have h3 := ihl h2 (fun y hy => hs y (by simp [hy])) (fun y hy => ih y (by simp [hy]))
      simp only [List.flatMap_cons, List.map_append, List.map_cons]
      rw [List.cons_append, List.nodup_cons, List.nodup_append]
      have hx := ih x (by simp)
      have hxs : ∀ r ∈ x.2.map Prod.fst, ∃ t, t ≠ [] ∧ r = q ++ [x.1] ++ t := by
        intro r hr
        obtain ⟨⟨r', v⟩, hy, rfl⟩ := List.mem_map.mp hr
        obtain ⟨t, t1, t2, -⟩ := (hx.1 r' v).mp hy
        exact ⟨t, t1, t2⟩
      have hls : ∀ r ∈ (l.flatMap fun x => (q ++ [x.1], m (p ++ q ++ [x.1])) :: x.2).map Prod.fst, ∃ n t, n ∈ l.map Prod.fst ∧ r = q ++ n :: t := by
        intro r hr
        obtain ⟨⟨r', v⟩, hy, rfl⟩ := List.mem_map.mp hr
        obtain ⟨y, hy1, hy2⟩ := List.mem_flatMap.mp hy
        refine ⟨y.1, ?_⟩
        rcases List.mem_cons.mp hy2 with hy2 | hy2
        · obtain ⟨rfl, -⟩ := Prod.mk.inj hy2
          exact ⟨[], List.mem_map_of_mem hy1, rfl⟩
        · obtain ⟨t, -, t2, -⟩ := ((ih y (by simp [hy1])).1 r' v).mp hy2
          exact ⟨t, List.mem_map_of_mem hy1, by simp [t2]⟩
      refine ⟨?_, hx.2, h3, ?_⟩
      · intro h
        rcases List.mem_append.mp h with h | h
        · obtain ⟨t, t1, t2⟩ := hxs _ h
          have := congrArg List.length t2
          simp at this
          exact t1 this
        · obtain ⟨n, t, n1, n2⟩ := hls _ h
          have := List.append_cancel_left n2
          obtain ⟨rfl, -⟩ := List.cons.inj this
          exact h1 n1
      · intro a ha b hb hab
        subst hab
        obtain ⟨t, t1, t2⟩ := hxs _ ha
        obtain ⟨n, t', n1, n2⟩ := hls _ hb
        rw [t2, List.append_assoc] at n2
        have := List.append_cancel_left n2
        obtain ⟨rfl, -⟩ := List.cons.inj this
        exact h1 n1

theorem set_closed (m : Spec.Conf.State) (h : Closed m) (k : Text) (v : Option Text) : Closed (Spec.Conf.set m k v) := by
  intro q r hq
  cases v with
  | none =>
    simp only [Spec.Conf.set] at hq ⊢
    by_cases h1 : place k <+: q ++ r
    · rw [if_pos h1] at hq; exact absurd rfl hq
    · rw [if_neg h1] at hq
      have h2 : ¬ place k <+: q := fun h0 => h1 (h0.trans (List.prefix_append q r))
      rw [if_neg h2]
      exact h q r hq
  | some v =>
    simp only [Spec.Conf.set] at hq ⊢
    by_cases hd : Spec.Path.dir k = true
    · rw [if_pos hd] at hq ⊢; exact h q r hq
    · rw [if_neg hd] at hq ⊢
      by_cases h1 : q = place k
      · rw [if_pos h1]; simp
      · rw [if_neg h1]
        by_cases h2 : q <+: place k
        · rw [if_pos h2]; simp
        · rw [if_neg h2]
          have h3 : ¬ q ++ r = place k := fun h0 => h2 (h0 ▸ List.prefix_append q r)
          have h4 : ¬ q ++ r <+: place k := fun h0 => h2 ((List.prefix_append q r).trans h0)
          rw [if_neg h3, if_neg h4] at hq
          exact h q r hq

theorem set_bounded (m : Spec.Conf.State) (h : Bounded m) (k : Text) (v : Option Text) : Bounded (Spec.Conf.set m k v) := by
  obtain ⟨d, h⟩ := h
  refine ⟨max d (place k).length, ?_⟩
  intro q hq
  cases v with
  | none =>
    simp only [Spec.Conf.set] at hq
    by_cases h1 : place k <+: q
    · rw [if_pos h1] at hq; exact absurd rfl hq
    · rw [if_neg h1] at hq
      exact Nat.le_trans (h q hq) (Nat.le_max_left _ _)
  | some v =>
    simp only [Spec.Conf.set] at hq
    by_cases hd : Spec.Path.dir k = true
    · rw [if_pos hd] at hq; exact Nat.le_trans (h q hq) (Nat.le_max_left _ _)
    · rw [if_neg hd] at hq
      by_cases h2 : q <+: place k
      · exact Nat.le_trans h2.length_le (Nat.le_max_right _ _)
      · have h1 : ¬ q = place k := fun h0 => h2 (h0 ▸ List.prefix_refl _)
        rw [if_neg h1, if_neg h2] at hq
        exact Nat.le_trans (h q hq) (Nat.le_max_left _ _)

theorem run_shape (l : List (Text × Option Text)) : ∀ m : Spec.Conf.State, Closed m → Bounded m →
    Closed (Spec.Conf.run m l) ∧ Bounded (Spec.Conf.run m l) := by
  induction l with
  | nil => intro m h1 h2; exact ⟨h1, h2⟩
  | cons x l ih => intro m h1 h2; exact ih _ (set_closed m h1 _ _) (set_bounded m h2 _ _)

theorem empty_shape : Closed Spec.Conf.empty ∧ Bounded Spec.Conf.empty :=
  ⟨fun _ _ h => absurd rfl h, 0, fun _ h => absurd rfl h⟩

end Rec

/-- C54: the same without the order: the loop ends; no key is visited twice, without regard to case; and a key with a value is visited
    exactly if it is below the given one and has that value. -/
theorem C54_complete {σ : Type} (I : IGen σ) (s : σ) (m : Spec.Conf.State) (hr : Reads I s m) (hb : Bounded m) (hc : Closed m) (k : Text) :
    ∃ (L : List (Key × Option TempGen.Value)), (∀ n, L.length < n → RecIter.recursive I s n (Key.parse k) = (L, true)) ∧
      (∀ y ∈ L, Names y.1) ∧ Preorder m (place k) [] (L.map fun y => (fold y.1, y.2)) ∧ (L.map fun y => fold y.1).Nodup ∧
      ∀ q v, (∃ y ∈ L, fold y.1 = q ∧ y.2 = some v) ↔ q ≠ [] ∧ m (place k ++ q) = some v := by
  obtain ⟨L, h1, h2, h3⟩ := C54_preorder I s m hr hb k
  obtain ⟨h4, h5⟩ := Rec.preorder_mem m hc _ _ _ h2
  refine ⟨L, h3, h1, h2, by simpa [Function.comp_def] using h5, ?_⟩
  intro q v
  have := h4 q (some v)
  simp only [List.nil_append] at this
  constructor
  · rintro ⟨y, hy, rfl, hv⟩
    obtain ⟨t, t1, t2, t3, -⟩ := this.mp (List.mem_map.mpr ⟨y, hy, by rw [hv]⟩)
    exact ⟨t2 ▸ t1, t3.symm⟩
  · rintro ⟨t1, t2⟩
    obtain ⟨y, hy, he⟩ := List.mem_map.mp (this.mpr ⟨q, t1, rfl, t2.symm, by simp⟩)
    obtain ⟨e1, e2⟩ := Prod.mk.inj he
    exact ⟨y, hy, e1, e2⟩

/-- C54 for the in-memory generator, after any calls. -/
theorem C54_temp (ord : List TempGen.Tree → List TempGen.Tree) (l : List Temp.SetCall) (k : Text) :
    ∃ (L : List (Key × Option TempGen.Value)),
      (∀ n, L.length < n → RecIter.recursive (IGen.temp ord) (Temp.after TempGen.new l) n (Key.parse k) = (L, true)) ∧
      (∀ y ∈ L, Names y.1) ∧ Preorder (Temp.conf l) (place k) [] (L.map fun y => (fold y.1, y.2)) ∧ (L.map fun y => fold y.1).Nodup ∧
      ∀ q v, (∃ y ∈ L, fold y.1 = q ∧ y.2 = some v) ↔ q ≠ [] ∧ Temp.conf l (place k ++ q) = some v := by
  obtain ⟨h1, h2⟩ := Rec.run_shape (Temp.calls l) Spec.Conf.empty Rec.empty_shape.1 Rec.empty_shape.2
  exact C54_complete _ _ _ (temp_reads ord _ _ (Temp.conf_holds l)) h2 h1 k

/-- A configuration with things at several depths. -/
example : ∃ l : List Temp.SetCall, Temp.conf l [str ['a'], str ['b'], str ['c']] = some (str ['1']) ∧
    Temp.conf l [str ['a'], str ['d']] = some (str ['2']) ∧ Temp.conf l [str ['e']] = none :=
  ⟨[⟨str ['a', '/', 'b', '/', 'c'], some (str ['1']), id, fun _ => List.Perm.refl _⟩, ⟨str ['A', '/', 'd'], some (str ['2']), id, fun _ => List.Perm.refl _⟩,
    ⟨str ['e'], some [], id, fun _ => List.Perm.refl _⟩, ⟨str ['e', '/'], none, id, fun _ => List.Perm.refl _⟩], by decide +kernel⟩

end Props
