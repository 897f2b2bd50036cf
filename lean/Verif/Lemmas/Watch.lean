import Verif.Model.Watch
import Verif.Spec.Watch
import Verif.Lemmas.TempGen
/- Trees of watches as functions on paths. -/
set_option linter.unusedSimpArgs false
namespace Wv.Watch
open Spec.Conf Wv.Key
open Spec.Path (slash)
open TempGen (ones segments_mk)

/-! ### Containers -/

/-- The lower-case key of a node. -/
def low (t : Tree) : Place := fold t.key

/-- No two nodes have the same key. -/
def Uniq (c : List Tree) : Prop := (c.map low).Nodup

/-- The node with the given name. -/
def lk (c : List Tree) (m : List Byte) : Option Tree := c.find? fun x => decide (low x = [m])

theorem lookup_eq (c : List Tree) (n : Seg) : lookup c [n] = lk c (n.map tolower) := by
  unfold lookup lk
  congr 1
  funext x
  rw [Bool.eq_iff_iff, Key.eq_iff, decide_eq_true_iff]
  simp [fold, low, eq_comm]

theorem lk_some (c : List Tree) (h : Uniq c) (m : List Byte) (x : Tree) : lk c m = some x ↔ x ∈ c ∧ low x = [m] := by
  induction c with
  | nil => simp [lk]
  | cons y c ih =>
    have hn := List.nodup_cons.mp (show (low y :: c.map low).Nodup from h)
    have ih := ih hn.2
    unfold lk at ih ⊢
    rw [List.find?_cons]
    by_cases hy : low y = [m]
    · simp only [hy, decide_true]
      constructor
      · rintro ⟨⟩; simp [hy]
      · rintro ⟨hx, hx'⟩
        rcases List.mem_cons.mp hx with rfl | hx
        · rfl
        · exact absurd (List.mem_map.mpr ⟨x, hx, hx'.trans hy.symm⟩) hn.1
    · simp only [hy, decide_false, ih, List.mem_cons]
      constructor
      · rintro ⟨h1, h2⟩; exact ⟨Or.inr h1, h2⟩
      · rintro ⟨rfl | h1, h2⟩
        · exact absurd h2 hy
        · exact ⟨h1, h2⟩

theorem lk_none (c : List Tree) (m : List Byte) : lk c m = none ↔ ∀ x ∈ c, low x ≠ [m] := by simp [lk]

theorem Uniq.perm {a b : List Tree} (h : Uniq a) (p : b.Perm a) : Uniq b := (p.map low).nodup_iff.mpr h

theorem lk_perm (a b : List Tree) (h : Uniq a) (p : b.Perm a) (m : List Byte) : lk b m = lk a m := by
  apply Option.ext
  intro x
  rw [lk_some _ (h.perm p), lk_some _ h, p.mem_iff]

theorem lk_append (c : List Tree) (t : Tree) (m : List Byte) (h : lk c m = none) (ht : low t = [m]) (m' : List Byte) :
    lk (c ++ [t]) m' = if m' = m then some t else lk c m' := by
  unfold lk at *
  rw [List.find?_append]
  by_cases hm : m' = m
  · subst hm; rw [h]; simp [ht]
  · have : ¬ (low t = [m']) := by rw [ht]; simpa using fun h => hm h.symm
    simp [hm, this]

theorem Uniq.append {c : List Tree} {t : Tree} {m : List Byte} (h : Uniq c) (hm : lk c m = none) (ht : low t = [m]) :
    Uniq (c ++ [t]) := by
  unfold Uniq at *
  rw [List.map_append]
  refine List.nodup_append.mpr ⟨h, by simp, ?_⟩
  intro a ha b hb
  simp only [List.map_cons, List.map_nil, List.mem_singleton] at hb
  obtain ⟨x, hx, rfl⟩ := List.mem_map.mp ha
  rw [hb, ht]
  exact (lk_none c m).mp hm x hx

theorem replace_low (c : List Tree) (n : Seg) (t : Tree) (ht : low t = [n.map tolower]) :
    (replace c [n] t).map low = c.map low := by
  induction c with
  | nil => rfl
  | cons x c ih =>
    rw [replace]
    by_cases h : Key.eq [n] x.key = true
    · rw [if_pos h]
      have := (Key.eq_iff _ _).mp h
      simp only [List.map_cons, List.cons.injEq, and_true]
      rw [ht]
      exact this
    · rw [if_neg h]; simp [ih]

theorem mem_replace (c : List Tree) (k : Key) (t x : Tree) (h : x ∈ replace c k t) : x = t ∨ x ∈ c := by
  induction c with
  | nil => simp [replace] at h
  | cons y c ih =>
    rw [replace] at h
    split at h
    · rcases List.mem_cons.mp h with h | h
      · exact Or.inl h
      · exact Or.inr (by simp [h])
    · rcases List.mem_cons.mp h with h | h
      · exact Or.inr (by simp [h])
      · rcases ih h with h | h
        · exact Or.inl h
        · exact Or.inr (by simp [h])

theorem lk_replace (c : List Tree) (n : Seg) (t : Tree) (ht : low t = [n.map tolower]) (hs : (lk c (n.map tolower)).isSome)
    (m : List Byte) : lk (replace c [n] t) m = if m = n.map tolower then some t else lk c m := by
  induction c with
  | nil => simp [lk] at hs
  | cons x c ih =>
    rw [replace]
    by_cases h : Key.eq [n] x.key = true
    · rw [if_pos h]
      have hx : low x = [n.map tolower] := ((Key.eq_iff _ _).mp h).symm
      unfold lk
      rw [List.find?_cons, List.find?_cons, ht, hx]
      by_cases hm : m = n.map tolower
      · subst hm; simp
      · have : ¬ (n.map tolower = m) := fun h => hm h.symm
        simp [hm, this]
    · rw [if_neg h]
      have hx : ¬ (low x = [n.map tolower]) := fun h' => h ((Key.eq_iff _ _).mpr h'.symm)
      have hs' : (lk c (n.map tolower)).isSome := by
        unfold lk at hs ⊢; rw [List.find?_cons] at hs; simpa [hx] using hs
      have ih := ih hs'
      unfold lk at ih ⊢
      rw [List.find?_cons, List.find?_cons]
      by_cases hm : m = n.map tolower
      · subst hm; simpa [hx] using ih
      · simp only [hm, if_false] at ih ⊢
        split <;> simp_all

theorem erase_sub (c : List Tree) (k : Key) : (c.eraseP fun x => Key.eq k x.key).Sublist c := List.eraseP_sublist

theorem Uniq.erase {c : List Tree} (h : Uniq c) (k : Key) : Uniq (c.eraseP fun x => Key.eq k x.key) :=
  List.Nodup.sublist ((erase_sub c k).map low) h

theorem lk_erase (c : List Tree) (h : Uniq c) (n : Seg) (m : List Byte) :
    lk (c.eraseP fun x => Key.eq [n] x.key) m = if m = n.map tolower then none else lk c m := by
  induction c with
  | nil => simp [lk]
  | cons x c ih =>
    have hn := List.nodup_cons.mp (show (low x :: c.map low).Nodup from h)
    have ih := ih hn.2
    rw [List.eraseP_cons]
    by_cases hx : Key.eq [n] x.key = true
    · have hl : low x = [n.map tolower] := ((Key.eq_iff _ _).mp hx).symm
      rw [hx]
      simp only [cond_true]
      by_cases hm : m = n.map tolower
      · rw [if_pos hm, lk_none]
        intro y hy h'
        exact hn.1 (List.mem_map.mpr ⟨y, hy, by rw [h', hl, hm]⟩)
      · rw [if_neg hm]
        unfold lk
        rw [List.find?_cons, hl]
        have : ¬ (n.map tolower = m) := fun h => hm h.symm
        simp [this]
    · have hl : ¬ (low x = [n.map tolower]) := fun h' => hx ((Key.eq_iff _ _).mpr h'.symm)
      rw [Bool.not_eq_true] at hx
      rw [hx]
      simp only [cond_false]
      unfold lk at ih ⊢
      rw [List.find?_cons, List.find?_cons, ih]
      by_cases hm : m = n.map tolower
      · subst hm; simp [hl]
      · simp [hm]

/-! ### Trees -/

theorem watches_node (k : Key) (v : List Info) (c : List Tree) : (Tree.node k v c).watches = v := rfl
theorem children_node (k : Key) (v : List Info) (c : List Tree) : (Tree.node k v c).children = c := rfl

/-- Children have different names as keys, and each is needed. -/
inductive Good : Tree → Prop
  | node (k : Key) (v : List Info) (c : List Tree) (hk : ∀ x ∈ c, ∃ n : Seg, x.key = [n] ∧ n ≠ [] ∧ slash ∉ n) (hu : Uniq c)
    (he : ∀ x ∈ c, isessential x = true) (hc : ∀ x ∈ c, Good x) : Good (.node k v c)

/-- What is known of a node's children. -/
def Parts (c : List Tree) : Prop := (∀ x ∈ c, ∃ n : Seg, x.key = [n] ∧ n ≠ [] ∧ slash ∉ n) ∧ Uniq c ∧
    (∀ x ∈ c, isessential x = true) ∧ ∀ x ∈ c, Good x

theorem Good.parts {t : Tree} (h : Good t) : Parts t.children := by
  cases h; exact ⟨‹_›, ‹_›, ‹_›, ‹_›⟩

theorem Good.of {t : Tree} (h : Parts t.children) : Good t := by
  cases t; exact .node _ _ _ h.1 h.2.1 h.2.2.1 h.2.2.2

/-- The node at a place. -/
def findP (t : Tree) : Place → Option Tree
  | [] => some t
  | m :: q => (lk t.children m).bind fun x => findP x q

/-- The watches at a place. -/
def ats (t : Tree) (q : Place) : List Info := ((findP t q).map Tree.watches).getD []

theorem ats_nil (t : Tree) : ats t [] = t.watches := rfl
theorem ats_cons (t : Tree) (m : List Byte) (q : Place) : ats t (m :: q) = ((lk t.children m).map fun x => ats x q).getD [] := by
  unfold ats; rw [findP]; cases lk t.children m <;> rfl

/-- Segments of a key with names `ns`, possibly with a slash at the end. -/
def segs (ns : List Seg) (d : Bool) : List Key := ones ns ++ (if d then [[]] else [])

theorem segs_cons (n : Seg) (ns : List Seg) (d : Bool) : segs (n :: ns) d = [n] :: segs ns d := rfl

theorem findchild_one (t : Tree) (n : Seg) : findchild t [n] = lk t.children (n.map tolower) := by
  rw [findchild, lookup_eq]; simp [Key.isempty]

theorem fold_cons (n : Seg) (ns : List Seg) : fold (n :: ns) = n.map tolower :: fold ns := rfl

/-! ### Adding -/

theorem add_spec (ord : List Tree → List Tree) (hord : ∀ l, (ord l).Perm l) (w : Info) (d : Bool) (ns : List Seg) : ∀ t, Names ns → Good t →
    Good (addLoop ord w t (segs ns d)) ∧ (addLoop ord w t (segs ns d)).key = t.key ∧
    isessential (addLoop ord w t (segs ns d)) = true ∧
    ∀ q, ats (addLoop ord w t (segs ns d)) q = ats t q ++ if q = fold ns then [w] else [] := by
  induction ns with
  | nil =>
    intro t _ hg
    have e : addLoop ord w t (segs [] d) = .node t.key (t.watches ++ [w]) t.children := by cases d <;> rfl
    rw [e]
    refine ⟨Good.of hg.parts, rfl, by simp [isessential, Tree.watches], ?_⟩
    intro q
    cases q with
    | nil => simp [ats_nil, Tree.watches, fold]
    | cons m q => simp [ats_cons, Tree.children, fold]
  | cons n ns ih =>
    intro t hn hg
    obtain ⟨hk, hu, he, hc⟩ := hg.parts
    have hn1 := hn n (by simp)
    have hns : Names ns := fun x hx => hn x (by simp [hx])
    rw [segs_cons, addLoop]
    have hne : Key.isempty [n] = false := rfl
    rw [hne, lookup_eq]
    simp only [Bool.false_eq_true, if_false]
    cases hx : lk t.children (n.map tolower) with
    | some c =>
      dsimp only
      obtain ⟨hcm, hcl⟩ := (lk_some _ hu _ _).mp hx
      obtain ⟨i1, i2, i3, i4⟩ := ih c hns (hc c hcm)
      have hlow : low (addLoop ord w c (segs ns d)) = [n.map tolower] := by unfold low at hcl ⊢; rw [i2]; exact hcl
      have hl := lk_replace t.children n _ hlow (by rw [hx]; rfl)
      refine ⟨Good.of ⟨?_, ?_, ?_, ?_⟩, rfl, ?_, ?_⟩
      · intro x hxm
        rcases mem_replace _ _ _ _ hxm with rfl | hxm
        · rw [i2]; exact hk c hcm
        · exact hk x hxm
      · show ((replace t.children [n] _).map low).Nodup
        rw [replace_low _ _ _ hlow]; exact hu
      · intro x hxm
        rcases mem_replace _ _ _ _ hxm with rfl | hxm
        · exact i3
        · exact he x hxm
      · intro x hxm
        rcases mem_replace _ _ _ _ hxm with rfl | hxm
        · exact i1
        · exact hc x hxm
      · have : replace t.children [n] (addLoop ord w c (segs ns d)) ≠ [] := by
          intro h0
          have := hl (n.map tolower)
          rw [h0] at this; simp [lk] at this
        unfold isessential; rw [children_node, List.isEmpty_eq_false_iff.mpr this]; rfl
      · intro q
        cases q with
        | nil => simp [ats_nil, Tree.watches, fold]
        | cons m q =>
          rw [ats_cons, ats_cons, children_node, hl]
          by_cases hm : m = n.map tolower
          · subst hm
            rw [if_pos rfl, hx]
            simp only [Option.map_some, Option.getD_some]
            rw [i4]
            simp only [fold_cons, List.cons.injEq, true_and]
          · rw [if_neg hm]
            simp [fold, hm]
    | none =>
      dsimp only
      have hg0 : Good (.node [n] [] []) := Good.of ⟨by simp [Tree.children], by simp [Tree.children, Uniq], by simp [Tree.children], by simp [Tree.children]⟩
      obtain ⟨i1, i2, i3, i4⟩ := ih (.node [n] [] []) hns hg0
      have hlow : low (addLoop ord w (.node [n] [] []) (segs ns d)) = [n.map tolower] := by
        unfold low; rw [i2]; rfl
      have hu' : Uniq (t.children ++ [addLoop ord w (.node [n] [] []) (segs ns d)]) := hu.append hx hlow
      have hmem : ∀ x, x ∈ ord (t.children ++ [addLoop ord w (.node [n] [] []) (segs ns d)]) ↔
          x ∈ t.children ∨ x = addLoop ord w (.node [n] [] []) (segs ns d) := by
        intro x; rw [(hord _).mem_iff]; simp
      refine ⟨Good.of ⟨?_, ?_, ?_, ?_⟩, rfl, ?_, ?_⟩
      · intro x hxm
        rcases (hmem x).mp hxm with hxm | rfl
        · exact hk x hxm
        · exact ⟨n, i2, hn1.1, hn1.2⟩
      · exact hu'.perm (hord _)
      · intro x hxm
        rcases (hmem x).mp hxm with hxm | rfl
        · exact he x hxm
        · exact i3
      · intro x hxm
        rcases (hmem x).mp hxm with hxm | rfl
        · exact hc x hxm
        · exact i1
      · have : ord (t.children ++ [addLoop ord w (.node [n] [] []) (segs ns d)]) ≠ [] := by
          intro h0
          have := (hord (t.children ++ [addLoop ord w (.node [n] [] []) (segs ns d)])).length_eq
          rw [h0] at this; simp at this
        unfold isessential; rw [children_node, List.isEmpty_eq_false_iff.mpr this]; rfl
      · intro q
        cases q with
        | nil => simp [ats_nil, Tree.watches, fold]
        | cons m q =>
          rw [ats_cons, ats_cons, children_node, lk_perm _ _ hu' (hord _), lk_append _ _ _ hx hlow]
          by_cases hm : m = n.map tolower
          · subst hm
            rw [if_pos rfl, hx]
            simp only [Option.map_some, Option.getD_some, Option.map_none, Option.getD_none]
            rw [i4]
            have : ats (.node [n] [] []) q = [] := by cases q <;> rfl
            rw [this]
            simp only [fold_cons, List.cons.injEq, true_and]
          · rw [if_neg hm]
            simp [fold, hm]

/-! ### Removing -/

theorem bare (t : Tree) (h : isessential t = false) (q : Place) : ats t q = [] := by
  simp only [isessential, Bool.or_eq_false_iff, Bool.not_eq_false', List.isEmpty_iff] at h
  cases q with
  | nil => rw [ats_nil]; exact h.2
  | cons m q => rw [ats_cons, h.1]; rfl

theorem del_spec (ord : List Tree → List Tree) (hord : ∀ l, (ord l).Perm l) (ck : Nat) (r d : Bool) (ns : List Seg) : ∀ t, Names ns → Good t →
    (delLoop ord ck r t (segs ns d) = none → ats t (fold ns) = []) ∧
    ∀ t', delLoop ord ck r t (segs ns d) = some t' →
      Good t' ∧ t'.key = t.key ∧
      ∀ q, ats t' q = if q = fold ns then (ats t q).eraseP (fun w => w.cookie == ck && w.recurse == r) else ats t q := by
  induction ns with
  | nil =>
    intro t _ hg
    have e : delLoop ord ck r t (segs [] d) =
        some (.node t.key (t.watches.eraseP fun w => w.cookie == ck && w.recurse == r) t.children) := by cases d <;> rfl
    rw [e]
    refine ⟨(fun h => by cases h), fun t' ht => ?_⟩
    obtain rfl := Option.some.inj ht
    refine ⟨Good.of hg.parts, rfl, ?_⟩
    intro q
    cases q with
    | nil => simp [ats_nil, Tree.watches, fold]
    | cons m q => simp [ats_cons, Tree.children, fold]
  | cons n ns ih =>
    intro t hn hg
    obtain ⟨hk, hu, he, hc⟩ := hg.parts
    have hns : Names ns := fun x hx => hn x (by simp [hx])
    rw [segs_cons, delLoop]
    have hne : Key.isempty [n] = false := rfl
    rw [hne, lookup_eq]
    simp only [Bool.false_eq_true, if_false]
    cases hx : lk t.children (n.map tolower) with
    | none =>
      dsimp only
      refine ⟨fun _ => ?_, fun t' ht => by cases ht⟩
      show ats t (n.map tolower :: fold ns) = []
      rw [ats_cons, hx]; rfl
    | some c =>
      obtain ⟨hcm, hcl⟩ := (lk_some _ hu _ _).mp hx
      obtain ⟨i1, i2⟩ := ih c hns (hc c hcm)
      dsimp only
      cases hd : delLoop ord ck r c (segs ns d) with
      | none =>
        dsimp only
        refine ⟨fun _ => ?_, fun t' ht => by cases ht⟩
        show ats t (n.map tolower :: fold ns) = []
        rw [ats_cons, hx]
        exact i1 hd
      | some c' =>
        dsimp only
        obtain ⟨j1, j2, j3⟩ := i2 c' hd
        cases hes : isessential c' with
        | true =>
          simp only [if_true]
          refine ⟨(fun h => by cases h), fun t' ht => ?_⟩
          obtain rfl := Option.some.inj ht
          have hlow : low c' = [n.map tolower] := by unfold low at hcl ⊢; rw [j2]; exact hcl
          have hl := lk_replace t.children n _ hlow (by rw [hx]; rfl)
          refine ⟨Good.of ⟨?_, ?_, ?_, ?_⟩, rfl, ?_⟩
          · intro x hxm
            rcases mem_replace _ _ _ _ hxm with rfl | hxm
            · rw [j2]; exact hk c hcm
            · exact hk x hxm
          · show ((replace t.children [n] _).map low).Nodup
            rw [replace_low _ _ _ hlow]; exact hu
          · intro x hxm
            rcases mem_replace _ _ _ _ hxm with rfl | hxm
            · exact hes
            · exact he x hxm
          · intro x hxm
            rcases mem_replace _ _ _ _ hxm with rfl | hxm
            · exact j1
            · exact hc x hxm
          · intro q
            cases q with
            | nil => simp [ats_nil, Tree.watches, fold]
            | cons m q =>
              rw [ats_cons, ats_cons, children_node, hl]
              by_cases hm : m = n.map tolower
              · subst hm
                rw [if_pos rfl, hx]
                simp only [Option.map_some, Option.getD_some]
                rw [j3]
                simp only [fold_cons, List.cons.injEq, true_and]
              · rw [if_neg hm]
                simp [fold, hm]
        | false =>
          simp only [Bool.false_eq_true, if_false]
          refine ⟨(fun h => by cases h), fun t' ht => ?_⟩
          obtain rfl := Option.some.inj ht
          have hu' := hu.erase [n]
          have hmem : ∀ x, x ∈ ord (t.children.eraseP fun x => Key.eq [n] x.key) → x ∈ t.children := fun x hxm =>
            (erase_sub _ _).subset ((hord _).mem_iff.mp hxm)
          refine ⟨Good.of ⟨fun x h => hk x (hmem x h), hu'.perm (hord _), fun x h => he x (hmem x h), fun x h => hc x (hmem x h)⟩, rfl, ?_⟩
          intro q
          cases q with
          | nil => simp [ats_nil, Tree.watches, fold]
          | cons m q =>
            rw [ats_cons, ats_cons, children_node, lk_perm _ _ hu' (hord _), lk_erase _ hu]
            by_cases hm : m = n.map tolower
            · subst hm
              rw [if_pos rfl, hx]
              simp only [Option.map_some, Option.getD_some, Option.map_none, Option.getD_none]
              have := j3 q
              rw [bare c' hes] at this
              simp only [fold, List.map_cons, List.cons.injEq, true_and] at this ⊢
              exact this
            · rw [if_neg hm]
              simp [fold, hm]

/-! ### Calls -/

/-- A call, by places. -/
def toC (c : Call) : Place × Info × Place := (place (Key.printable c.base), c.watch, place (Key.printable c.rel))

theorem place_mk (ns : List Seg) (h : Names ns) : place (Key.printable (Key.mk ns false)) = fold ns := by
  rw [Key.printable_mk _ _ (by simp), TempGen.place_eq, Key.names_write _ _ h]

/-- Taking segments off the end, and the ones taken off. -/
theorem split_mk (ns : List Seg) (h : Names ns) (j : Nat) (hj : j ≤ ns.length) :
    Key.removelast (Key.mk ns false) j = Key.mk (ns.take (ns.length - j)) false ∧
    Key.last (Key.mk ns false) j = Key.mk (ns.drop (ns.length - j)) false := by
  have hl : (Key.mk ns false).length = ns.length := by simp [Key.mk]
  unfold Key.removelast Key.last Key.numsegments
  rw [hl, Key.range_mk ns false h (by simp), Key.range_mk ns false h (by simp)]
  have h1 : ((ns.length : Int) - j).toNat = ns.length - j := by omega
  have h2 : ((ns.length : Int)).toNat = ns.length := by omega
  simp [h1, h2]

theorem check_mk (t : Tree) (ns : List Seg) (h : Names ns) (j : Nat) (hj : j ≤ ns.length) :
    (check t (Key.mk ns false) j).map toC =
      (t.watches.filter fun w => w.recurse || j == 0).map fun w => (fold (ns.take (ns.length - j)), w, fold (ns.drop (ns.length - j))) := by
  obtain ⟨h1, h2⟩ := split_mk ns h j hj
  unfold check
  rw [List.map_map, h1, h2]
  have e : (fun w : Info => !(!w.recurse && decide (j > 0))) = fun w => w.recurse || j == 0 := by
    funext w; cases w.recurse <;> cases j <;> simp
  rw [e]
  apply List.map_congr_left
  intro w _
  simp only [Function.comp_apply, toC]
  rw [place_mk _ (h.take _), place_mk _ (h.drop _)]

/-- What the loop calls: at each place on the way, the watches that are recursive or at the end. -/
theorem walk_spec (ks : List Seg) (hk : Names ks) : ∀ (ns : List Seg) (a : List Seg) (t : Tree), ks = a ++ ns → 
    ((walk (Key.mk ks false) t (segs ns false)).1.map toC =
      (List.range ns.length).flatMap fun i => ((ats t (fold (ns.take (i + 1)))).filter fun w => w.recurse || i + 1 == ns.length).map fun w =>
        (fold (a ++ ns.take (i + 1)), w, fold (ns.drop (i + 1)))) ∧
    (walk (Key.mk ks false) t (segs ns false)).2 = findP t (fold ns) := by
  intro ns
  induction ns with
  | nil => intro a t _; exact ⟨rfl, rfl⟩
  | cons n ns ih =>
    intro a t he
    rw [segs_cons, walk, findchild_one]
    cases hx : lk t.children (n.map tolower) with
    | none =>
      dsimp only
      constructor
      · symm
        rw [List.map_nil, List.flatMap_eq_nil_iff]
        intro i _
        have : ats t (fold ((n :: ns).take (i + 1))) = [] := by
          show ats t (n.map tolower :: fold (ns.take i)) = []
          rw [ats_cons, hx]; rfl
        rw [this]; rfl
      · show none = findP t (n.map tolower :: fold ns)
        rw [findP, hx]; rfl
    | some c =>
      dsimp only
      obtain ⟨i1, i2⟩ := ih (a ++ [n]) c (by rw [he]; simp)
      constructor
      · rw [List.map_append, i1]
        have hsl : (segs ns false).length = ns.length := by simp [segs, ones]
        have hkl : ks.length = a.length + 1 + ns.length := by rw [he]; simp; omega
        rw [hsl, check_mk c ks hk _ (by omega)]
        have hat : ∀ q, ats t (n.map tolower :: q) = ats c q := by intro q; rw [ats_cons, hx]; rfl
        have hd : ks.length - ns.length = a.length + 1 := by omega
        rw [hd, List.length_cons, List.range_succ_eq_map, List.flatMap_cons, List.flatMap_map]
        congr 1
        · have h1 : ats t (fold ((n :: ns).take (0 + 1))) = c.watches := by
            show ats t (n.map tolower :: fold (ns.take 0)) = _
            rw [hat]; simp [fold, ats_nil]
          rw [h1]
          have h2 : ks.take (a.length + 1) = a ++ [n] := by
            rw [he]
            have : a ++ n :: ns = (a ++ [n]) ++ ns := by simp
            rw [this]; exact List.take_left' (by simp)
          have h3 : ks.drop (a.length + 1) = ns := by
            rw [he]
            have : a ++ n :: ns = (a ++ [n]) ++ ns := by simp
            rw [this]; exact List.drop_left' (by simp)
          rw [h2, h3]
          have h4 : (fun w : Info => w.recurse || ns.length == 0) = fun w => w.recurse || 0 + 1 == ns.length + 1 := by
            funext w
            congr 1
            rw [Bool.eq_iff_iff]
            simp only [beq_iff_eq]; omega
          rw [h4]
          simp
        · congr 1
          funext i
          have h1 : ats t (fold ((n :: ns).take (i + 1 + 1))) = ats c (fold (ns.take (i + 1))) := by
            show ats t (n.map tolower :: fold (ns.take (i + 1))) = _
            rw [hat]
          show _ = List.map _ (List.filter _ (ats t (fold ((n :: ns).take (i + 1 + 1)))))
          rw [h1]
          have h4 : (fun w : Info => w.recurse || i + 1 == ns.length) = fun w => w.recurse || i.succ + 1 == ns.length + 1 := by
            funext w
            congr 1
            rw [Bool.eq_iff_iff]
            simp only [beq_iff_eq]; omega
          rw [h4]
          simp
      · rw [i2]
        show _ = findP t (n.map tolower :: fold ns)
        rw [findP, hx]; rfl

mutual
/-- What is called for one child, how often. -/
theorem deletionOne_spec (ns : List Seg) (hn : Names ns) (n : Seg) (h1 : n ≠ [] ∧ slash ∉ n) (d : Bool) : (t : Tree) → t.key = [n] → Good t →
    ∀ p i r, ((deletionOne (Key.mk ns d) t).map toC).count (p, i, r) =
      if r = [] ∧ fold (ns ++ [n]) <+: p then (ats t (p.drop (ns.length + 1))).count i else 0
  | .node k w c, hkey, hg => by
    intro p i r
    have hkey : k = [n] := hkey
    subst hkey
    have hn1 : Names [n] := by intro x hx; simp only [List.mem_singleton] at hx; subst hx; exact h1
    have hj : Key.join (Key.mk ns d) [n] = Key.mk (ns ++ [n]) false := by
      have := Key.join_mk ns [n] d false hn hn1 (by simp)
      simpa [Key.mk] using this
    have hnn := hn.append hn1
    rw [deletionOne, hj]
    rw [List.map_append, List.count_append, deletionAll_spec (ns ++ [n]) hnn false c hg.parts p i r]
    have hc := check_mk (.node [n] w c) (ns ++ [n]) hnn 0 (by omega)
    rw [hc]
    have hfil : (Tree.node [n] w c).watches.filter (fun w => w.recurse || 0 == 0) = w := by
      rw [List.filter_eq_self.mpr (by simp)]; rfl
    rw [hfil]
    simp only [Nat.sub_zero, List.take_length, List.drop_length]
    have hl : (fold (ns ++ [n])).length = ns.length + 1 := by simp [fold]
    have hf0 : fold [] = ([] : Place) := rfl
    rw [hf0]
    by_cases hr : r = []
    · subst hr
      by_cases hp : fold (ns ++ [n]) <+: p
      · have hA : ([] : Place) = [] ∧ fold (ns ++ [n]) <+: p := ⟨rfl, hp⟩
        rw [if_pos hA]
        obtain ⟨q, rfl⟩ := hp
        rw [List.drop_left' hl]
        cases q with
        | nil =>
          have hB : ¬ (([] : Place) = [] ∧ fold (ns ++ [n]) <+: fold (ns ++ [n]) ++ [] ∧ fold (ns ++ [n]) ≠ fold (ns ++ [n]) ++ []) := by
            rintro ⟨-, -, h⟩; exact h (List.append_nil _).symm
          rw [if_neg hB]
          rw [List.append_nil, ats_nil, watches_node, Nat.add_zero]
          clear hB hA hfil hc hg
          induction w with
          | nil => rfl
          | cons x w ih => 
            rw [List.map_cons, List.count_cons, List.count_cons, ih rfl]
            congr 1
            by_cases hx : x = i <;> simp [hx]
        | cons m q =>
          have hB : ([] : Place) = [] ∧ fold (ns ++ [n]) <+: fold (ns ++ [n]) ++ m :: q ∧ fold (ns ++ [n]) ≠ fold (ns ++ [n]) ++ m :: q :=
            ⟨rfl, ⟨_, rfl⟩, by intro h; have := congrArg List.length h; simp at this⟩
          rw [if_pos hB]
          rw [List.count_eq_zero_of_not_mem, Nat.zero_add]
          · have hl' : (fold (ns ++ [n])).length = (ns ++ [n]).length := by simp [fold]
            rw [List.drop_left' hl']
            rw [ats_cons, children_node]
          · intro hm
            obtain ⟨x, _, hx⟩ := List.mem_map.mp hm
            simp only [Prod.mk.injEq] at hx
            have := congrArg List.length hx.1
            simp at this
      · have hA : ¬ (([] : Place) = [] ∧ fold (ns ++ [n]) <+: p) := fun h => hp h.2
        have hB : ¬ (([] : Place) = [] ∧ fold (ns ++ [n]) <+: p ∧ fold (ns ++ [n]) ≠ p) := fun h => hp h.2.1
        rw [if_neg hA, if_neg hB, Nat.add_zero]
        refine List.count_eq_zero_of_not_mem fun hm => ?_
        obtain ⟨x, _, hx⟩ := List.mem_map.mp hm
        simp only [Prod.mk.injEq] at hx
        exact hp (hx.1 ▸ List.prefix_refl _)
    · rw [if_neg (fun h => hr h.1), if_neg (fun h => hr h.1), Nat.add_zero]
      refine List.count_eq_zero_of_not_mem fun hm => ?_
      obtain ⟨x, _, hx⟩ := List.mem_map.mp hm
      simp only [Prod.mk.injEq] at hx
      exact hr hx.2.2.symm
/-- What is called for all children. -/
theorem deletionAll_spec (ns : List Seg) (hn : Names ns) (d : Bool) : (c : List Tree) → Parts c →
    ∀ p i r, ((deletionAll (Key.mk ns d) c).map toC).count (p, i, r) =
      if r = [] ∧ fold ns <+: p ∧ fold ns ≠ p then
        (match p.drop ns.length with
          | [] => []
          | m :: q => ((lk c m).map fun x => ats x q).getD []).count i
      else 0
  | [], _ => by
    intro p i r
    rw [deletionAll]
    split
    · split <;> rfl
    · rfl
  | t :: c, hp => by
    intro p i r
    obtain ⟨hk, hu, he, hg⟩ := hp
    obtain ⟨n, hn1, hn2⟩ := hk t (by simp)
    have hu' := List.nodup_cons.mp (show (low t :: c.map low).Nodup from hu)
    have hlow : low t = [n.map tolower] := by unfold low; rw [hn1]; rfl
    rw [deletionAll, List.map_append, List.count_append, deletionOne_spec ns hn n hn2 d t hn1 (hg t (by simp)),
      deletionAll_spec ns hn d c ⟨fun x hx => hk x (by simp [hx]), hu'.2, fun x hx => he x (by simp [hx]), fun x hx => hg x (by simp [hx])⟩]
    have hl : (fold ns).length = ns.length := by simp [fold]
    have hf : fold (ns ++ [n]) = fold ns ++ [n.map tolower] := by simp [fold]
    by_cases h : r = [] ∧ fold ns <+: p ∧ fold ns ≠ p
    · rw [if_pos h, if_pos h]
      obtain ⟨rfl, ⟨q, rfl⟩, hne⟩ := h
      rw [List.drop_left' hl]
      cases q with
      | nil => exact absurd (List.append_nil _).symm hne
      | cons m q =>
        dsimp only
        have hlk : lk (t :: c) m = if m = n.map tolower then some t else lk c m := by
          unfold lk
          rw [List.find?_cons, hlow]
          by_cases hm : m = n.map tolower
          · simp [hm]
          · have : ¬ (n.map tolower = m) := fun h => hm h.symm
            simp [hm, this]
        rw [hlk]
        by_cases hm : m = n.map tolower
        · subst hm
          rw [if_pos ⟨rfl, q, by rw [hf]; simp⟩, if_pos rfl]
          have hnone : lk c (n.map tolower) = none := by
            rw [lk_none]
            intro x hx hxl
            exact hu'.1 (List.mem_map.mpr ⟨x, hx, by rw [hxl, hlow]⟩)
          rw [hnone]
          have hd : (fold ns ++ n.map tolower :: q).drop (ns.length + 1) = q := by
            have : fold ns ++ n.map tolower :: q = (fold ns ++ [n.map tolower]) ++ q := by simp
            rw [this]; exact List.drop_left' (by simp [hl])
          rw [hd]
          simp
        · rw [if_neg hm, if_neg, Nat.zero_add]
          rintro ⟨-, x, hx⟩
          rw [hf, List.append_assoc, List.append_cancel_left_eq] at hx
          simp only [List.cons_append, List.nil_append, List.cons.injEq] at hx
          exact hm hx.1.symm
    · rw [if_neg h, if_neg h, if_neg, Nat.add_zero]
      rintro ⟨hr, hpre⟩
      refine h ⟨hr, ?_, ?_⟩
      · rw [hf] at hpre
        exact (List.prefix_append _ _).trans hpre
      · intro h0
        have := hpre.length_le
        rw [← h0, hf] at this
        simp at this
        omega
end

end Wv.Watch
