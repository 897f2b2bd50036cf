import Verif.Model.TempGen
import Verif.Spec.Conf
import Verif.Lemmas.KeyOrder
/- Trees as functions on paths. -/
set_option linter.unusedSimpArgs false
namespace Wv.TempGen
open Spec.Conf Wv.Key
open Spec.Path (slash)

theorem value_node (k : Key) (v : Value) (c : List Tree) : (Tree.node k v c).value = v := rfl
theorem children_node (k : Key) (v : Value) (c : List Tree) : (Tree.node k v c).children = c := rfl

/-- The segments of a key as keys. -/
def ones (ns : List Seg) : List Key := ns.map fun n => [n]

theorem segment_mk (ns : List Seg) (d : Bool) (i : Nat) (hi : i < (Key.mk ns d).length) :
    Key.segment (Key.mk ns d) i = Key.collapse [(Key.mk ns d)[i]] := by
  generalize Key.mk ns d = k at *
  unfold Key.segment Key.range
  have h1 : ¬ ((i : Int) + 1 > k.length) := by omega
  have h2 : ¬ ((i : Int) < 0) := by omega
  have h3 : ¬ ((i : Int) + 1 < i) := by omega
  simp only [h1, h2, h3, if_false]
  congr 1
  have h4 : ((i : Int) + 1).toNat = i + 1 := by omega
  have h5 : (i : Int).toNat = i := by omega
  rw [h4, h5, List.take_succ_eq_append_getElem hi, List.drop_append]
  have h6 : i - (List.take i k).length = 0 := by simp; omega
  rw [h6]; simp

theorem segments_eq (k : Key) : segments k = k.map fun s => Key.collapse [s] := by
  apply List.ext_getElem
  · simp [segments]
  · intro i h1 h2
    have hi : i < (Key.mk k false).length := by simpa [Key.mk] using h2
    have := segment_mk k false i hi
    simp only [Key.mk, Bool.false_eq_true, if_false, List.append_nil] at this
    simp [segments, this]

theorem segments_mk (ns : List Seg) (d : Bool) (h : Names ns) :
    segments (Key.mk ns d) = ones ns ++ (if d then [[]] else []) := by
  rw [segments_eq, Key.mk, List.map_append]
  congr 1
  · apply List.map_congr_left
    intro n hn
    simp [Key.collapse, (h n hn).1]
  · cases d <;> simp [Key.collapse]

theorem stripSlash_mk (ns : List Seg) (d : Bool) (h : Names ns) (hd : d = true → ns ≠ []) :
    stripSlash (Key.mk ns d) = (d, ns) := by
  unfold stripSlash
  rw [Key.isempty_mk ns d hd]
  cases d with
  | false =>
    rcases List.eq_nil_or_concat ns with rfl | ⟨a, b, rfl⟩
    · rfl
    · have hb : b ≠ [] := (h b (by simp)).1
      simp only [Key.mk, Bool.false_eq_true, if_false, List.append_nil, Key.pop, Key.numsegments]
      rcases a with _ | ⟨x, a⟩
      · simp [Key.isempty]
      · have e : (x :: a).concat b = (x :: a) ++ [b] := by simp
        rw [e]
        have h1 : ¬ (((x :: a ++ [b]).length : Int) - 1 = 0) := by simp; omega
        have h2 : ¬ (((x :: a ++ [b]).length : Int) - 1 > (x :: a ++ [b]).length) := by omega
        have h3 : ¬ (((x :: a ++ [b]).length : Int) - 1 < 0) := by simp; omega
        have h4 : (((x :: a ++ [b]).length : Int) - 1).toNat = (x :: a).length := by simp
        simp only [h1, h2, h3, h4, if_false]
        simp [Key.isempty, Key.collapse, hb]
  | true =>
    have hn := hd rfl
    have hl : 0 < ns.length := List.length_pos_iff.mpr hn
    have he : ns.isEmpty = false := by cases ns <;> simp_all
    simp only [he, Bool.not_false, if_true, Key.mk, Key.pop, Key.numsegments]
    have h1 : ¬ (((ns ++ [[]]).length : Int) - 1 = 0) := by simp; omega
    have h2 : ¬ (((ns ++ [[]]).length : Int) - 1 > (ns ++ [[]]).length) := by omega
    have h3 : ¬ (((ns ++ [[]]).length : Int) - 1 < 0) := by simp
    have h4 : (((ns ++ [[]]).length : Int) - 1).toNat = ns.length := by simp
    simp only [h1, h2, h3, h4, if_false]
    have h5 : ¬ (ns = [[]] ∨ ns = []) := by
      rintro (h' | h')
      · exact (h [] (by rw [h']; simp)).1 rfl
      · exact hn h'
    simp [Key.collapse, Key.isempty, h5]

theorem fullkey_ones (ps : List Seg) (h : Names ps) : fullkey (ones ps) = ps := by
  induction ps with
  | nil => rfl
  | cons p ps ih =>
    have hp : p ≠ [] := (h p (by simp)).1
    have := ih fun n hn => h n (by simp [hn])
    simp only [fullkey, ones, List.map_cons, List.foldr_cons] at this ⊢
    rw [this]
    simp [Key.prepend, Key.collapse, hp]

/-! ### Containers -/

/-- The lower-case key of a node. -/
def low (t : Tree) : Place := fold t.key

/-- No two nodes have the same key. -/
def Uniq (c : List Tree) : Prop := (c.map low).Nodup

/-- The node with the given name. -/
def lk (c : List Tree) (m : List Byte) : Option Tree := c.find? fun x => decide (low x = [m])

theorem lookup_eq (c : List Tree) (n : Seg) : lookup c [n] = lk c (n.map tolower) := by
  unfold lookup lk
  congr 1
  funext x
  rw [Bool.eq_iff_iff, Key.eq_iff, decide_eq_true_iff]
  simp [fold, low, eq_comm]

theorem lk_some (c : List Tree) (h : Uniq c) (m : List Byte) (x : Tree) : lk c m = some x ↔ x ∈ c ∧ low x = [m] := by
  induction c with
  | nil => simp [lk]
  | cons y c ih =>
    have hn := List.nodup_cons.mp (show (low y :: c.map low).Nodup from h)
    have ih := ih hn.2
    unfold lk at ih ⊢
    rw [List.find?_cons]
    by_cases hy : low y = [m]
    · simp only [hy, decide_true]
      constructor
      · rintro ⟨⟩; simp [hy]
      · rintro ⟨hx, hx'⟩
        rcases List.mem_cons.mp hx with rfl | hx
        · rfl
        · exact absurd (List.mem_map.mpr ⟨x, hx, hx'.trans hy.symm⟩) hn.1
    · simp only [hy, decide_false, ih, List.mem_cons]
      constructor
      · rintro ⟨h1, h2⟩; exact ⟨Or.inr h1, h2⟩
      · rintro ⟨rfl | h1, h2⟩
        · exact absurd h2 hy
        · exact ⟨h1, h2⟩

theorem lk_none (c : List Tree) (m : List Byte) : lk c m = none ↔ ∀ x ∈ c, low x ≠ [m] := by simp [lk]

theorem Uniq.perm {a b : List Tree} (h : Uniq a) (p : b.Perm a) : Uniq b := (p.map low).nodup_iff.mpr h

theorem lk_perm (a b : List Tree) (h : Uniq a) (p : b.Perm a) (m : List Byte) : lk b m = lk a m := by
  apply Option.ext
  intro x
  rw [lk_some _ (h.perm p), lk_some _ h, p.mem_iff]

theorem lk_append (c : List Tree) (t : Tree) (m : List Byte) (h : lk c m = none) (ht : low t = [m]) (m' : List Byte) :
    lk (c ++ [t]) m' = if m' = m then some t else lk c m' := by
  unfold lk at *
  rw [List.find?_append]
  by_cases hm : m' = m
  · subst hm; rw [h]; simp [ht]
  · have : ¬ (low t = [m']) := by rw [ht]; simpa using fun h => hm h.symm
    simp [hm, this]

theorem Uniq.append {c : List Tree} {t : Tree} {m : List Byte} (h : Uniq c) (hm : lk c m = none) (ht : low t = [m]) :
    Uniq (c ++ [t]) := by
  unfold Uniq at *
  rw [List.map_append]
  refine List.nodup_append.mpr ⟨h, by simp, ?_⟩
  intro a ha b hb
  simp only [List.map_cons, List.map_nil, List.mem_singleton] at hb
  obtain ⟨x, hx, rfl⟩ := List.mem_map.mp ha
  rw [hb, ht]
  exact (lk_none c m).mp hm x hx

theorem replace_low (c : List Tree) (n : Seg) (t : Tree) (ht : low t = [n.map tolower]) :
    (replace c [n] t).map low = c.map low := by
  induction c with
  | nil => rfl
  | cons x c ih =>
    rw [replace]
    by_cases h : Key.eq [n] x.key = true
    · rw [if_pos h]
      have := (Key.eq_iff _ _).mp h
      simp only [List.map_cons, List.cons.injEq, and_true]
      rw [ht]
      exact this
    · rw [if_neg h]; simp [ih]

theorem mem_replace (c : List Tree) (k : Key) (t x : Tree) (h : x ∈ replace c k t) : x = t ∨ x ∈ c := by
  induction c with
  | nil => simp [replace] at h
  | cons y c ih =>
    rw [replace] at h
    split at h
    · rcases List.mem_cons.mp h with h | h
      · exact Or.inl h
      · exact Or.inr (by simp [h])
    · rcases List.mem_cons.mp h with h | h
      · exact Or.inr (by simp [h])
      · rcases ih h with h | h
        · exact Or.inl h
        · exact Or.inr (by simp [h])

theorem lk_replace (c : List Tree) (n : Seg) (t : Tree) (ht : low t = [n.map tolower]) (hs : (lk c (n.map tolower)).isSome)
    (m : List Byte) : lk (replace c [n] t) m = if m = n.map tolower then some t else lk c m := by
  induction c with
  | nil => simp [lk] at hs
  | cons x c ih =>
    rw [replace]
    by_cases h : Key.eq [n] x.key = true
    · rw [if_pos h]
      have hx : low x = [n.map tolower] := ((Key.eq_iff _ _).mp h).symm
      unfold lk
      rw [List.find?_cons, List.find?_cons, ht, hx]
      by_cases hm : m = n.map tolower
      · subst hm; simp
      · have : ¬ (n.map tolower = m) := fun h => hm h.symm
        simp [hm, this]
    · rw [if_neg h]
      have hx : ¬ (low x = [n.map tolower]) := fun h' => h ((Key.eq_iff _ _).mpr h'.symm)
      have hs' : (lk c (n.map tolower)).isSome := by
        unfold lk at hs ⊢; rw [List.find?_cons] at hs; simpa [hx] using hs
      have ih := ih hs'
      unfold lk at ih ⊢
      rw [List.find?_cons, List.find?_cons]
      by_cases hm : m = n.map tolower
      · subst hm; simpa [hx] using ih
      · simp only [hm, if_false] at ih ⊢
        split <;> simp_all

theorem erase_sub (c : List Tree) (k : Key) : (c.eraseP fun x => Key.eq k x.key).Sublist c := List.eraseP_sublist

theorem Uniq.erase {c : List Tree} (h : Uniq c) (k : Key) : Uniq (c.eraseP fun x => Key.eq k x.key) :=
  List.Nodup.sublist ((erase_sub c k).map low) h

theorem lk_erase (c : List Tree) (h : Uniq c) (n : Seg) (m : List Byte) :
    lk (c.eraseP fun x => Key.eq [n] x.key) m = if m = n.map tolower then none else lk c m := by
  induction c with
  | nil => simp [lk]
  | cons x c ih =>
    have hn := List.nodup_cons.mp (show (low x :: c.map low).Nodup from h)
    have ih := ih hn.2
    rw [List.eraseP_cons]
    by_cases hx : Key.eq [n] x.key = true
    · have hl : low x = [n.map tolower] := ((Key.eq_iff _ _).mp hx).symm
      rw [hx]
      simp only [cond_true]
      by_cases hm : m = n.map tolower
      · rw [if_pos hm, lk_none]
        intro y hy h'
        exact hn.1 (List.mem_map.mpr ⟨y, hy, by rw [h', hl, hm]⟩)
      · rw [if_neg hm]
        unfold lk
        rw [List.find?_cons, hl]
        have : ¬ (n.map tolower = m) := fun h => hm h.symm
        simp [this]
    · have hl : ¬ (low x = [n.map tolower]) := fun h' => hx ((Key.eq_iff _ _).mpr h'.symm)
      rw [Bool.not_eq_true] at hx
      rw [hx]
      simp only [cond_false]
      unfold lk at ih ⊢
      rw [List.find?_cons, List.find?_cons, ih]
      by_cases hm : m = n.map tolower
      · subst hm; simp [hl]
      · simp [hm]

/-! ### Trees -/

/-- Children have different names as keys. -/
inductive Good : Tree → Prop
  | node (k : Key) (v : Value) (c : List Tree) (hk : ∀ x ∈ c, ∃ n : Seg, x.key = [n] ∧ n ≠ [] ∧ slash ∉ n) (hu : Uniq c)
    (hc : ∀ x ∈ c, Good x) : Good (.node k v c)

/-- The node at a place. -/
def findP (t : Tree) : Place → Option Tree
  | [] => some t
  | m :: q => (lk t.children m).bind fun x => findP x q

/-- The value at a place. -/
def look (t : Tree) (q : Place) : Option Value := (findP t q).map Tree.value

/-- The configuration that is stored. -/
def abs : Option Tree → State
  | none => empty
  | some t => look t

theorem look_nil (t : Tree) : look t [] = some t.value := rfl
theorem look_cons (t : Tree) (m : List Byte) (q : Place) : look t (m :: q) = (lk t.children m).bind fun x => look x q := by
  unfold look; rw [findP]; cases lk t.children m <;> rfl

theorem findLoop_ones (ns : List Seg) (d : Bool) : ∀ t, Names ns →
    findLoop t (ones ns ++ (if d then [[]] else [])) = findP t (fold ns) := by
  induction ns with
  | nil => intro t _; cases d <;> rfl
  | cons n ns ih =>
    intro t h
    simp only [ones, List.map_cons, List.cons_append, findLoop, fold, findP]
    have : findchild t [n] = lk t.children (n.map tolower) := by
      rw [findchild, lookup_eq]; simp [Key.isempty]
    rw [this]
    congr 1
    funext x
    exact ih x fun y hy => h y (by simp [hy])

theorem find_mk (t : Tree) (ns : List Seg) (d : Bool) (h : Names ns) : find t (Key.mk ns d) = findP t (fold ns) := by
  rw [find, segments_mk ns d h, findLoop_ones ns d t h]

theorem place_eq (s : Text) : place s = fold (Spec.Path.names s) := by rw [place, fold, Key.lower_eq]

theorem find_parse (t : Tree) (s : Text) : find t (Key.parse s) = findP t (place s) := by
  rw [Key.parse_eq, find_mk t _ _ (Key.names_ok s), place_eq]

/-- Notifications, by place. -/
def at_ (d : List Delta) : List (Place × Option Value) := d.map fun x => (fold x.1, x.2)

/-- The notifications are exactly the changes, below a place. -/
def Exact (P : Place) (m m' : State) (d : List Delta) : Prop :=
  ((at_ d).map Prod.fst).Nodup ∧ ∀ p w, (p, w) ∈ at_ d ↔ ∃ q, p = P ++ q ∧ m' q = w ∧ m q ≠ w

theorem at_append (a b : List Delta) : at_ (a ++ b) = at_ a ++ at_ b := by simp [at_]

mutual
theorem visit_spec (ps : List Seg) (hp : Names ps) : (t : Tree) → Good t →
    ((at_ (visit (ones ps) t)).map Prod.fst).Nodup ∧
    ∀ p w, (p, w) ∈ at_ (visit (ones ps) t) ↔ ∃ q, p = fold ps ++ q ∧ w = none ∧ look t q ≠ none
  | .node k v c, h => by
    obtain ⟨hk, hu, hc⟩ : (∀ x ∈ c, ∃ n : Seg, x.key = [n] ∧ n ≠ [] ∧ slash ∉ n) ∧ Uniq c ∧ ∀ x ∈ c, Good x := by
      cases h; exact ⟨‹_›, ‹_›, ‹_›⟩
    obtain ⟨h1, h2⟩ := visitAll_spec ps hp c hk hu hc
    rw [visit, at_append]
    have h3 : at_ [(fullkey (ones ps), none)] = [(fold ps, none)] := by simp [at_, fullkey_ones ps hp]
    rw [h3, List.map_append]
    constructor
    · refine List.nodup_append.mpr ⟨h1, by simp, ?_⟩
      intro a ha b hb
      simp only [List.map_cons, List.map_nil, List.mem_singleton] at hb
      obtain ⟨⟨p, w⟩, hm, rfl⟩ := List.mem_map.mp ha
      obtain ⟨m, x, q, rfl, _⟩ := (h2 p w).mp hm
      rw [hb]
      simp
    · intro p w
      rw [List.mem_append, h2]
      constructor
      · rintro (⟨m, x, q, rfl, rfl, hx, hq⟩ | h)
        · exact ⟨m :: q, rfl, rfl, by rw [look_cons]; simp [Tree.children, hx, hq]⟩
        · simp only [List.mem_singleton, Prod.mk.injEq] at h
          exact ⟨[], by simp [h.1], h.2, by simp [look_nil]⟩
      · rintro ⟨q, rfl, rfl, hq⟩
        cases q with
        | nil => right; simp
        | cons m q =>
          left
          rw [look_cons] at hq
          simp only [children_node] at hq
          cases hx : lk c m with
          | none => rw [hx] at hq; exact absurd rfl hq
          | some x => rw [hx] at hq; exact ⟨m, x, q, rfl, rfl, hx, hq⟩
theorem visitAll_spec (ps : List Seg) (hp : Names ps) : (c : List Tree) →
    (∀ x ∈ c, ∃ n : Seg, x.key = [n] ∧ n ≠ [] ∧ slash ∉ n) → Uniq c → (∀ x ∈ c, Good x) →
    ((at_ (visitAll (ones ps) c)).map Prod.fst).Nodup ∧
    ∀ p w, (p, w) ∈ at_ (visitAll (ones ps) c) ↔
      ∃ m x q, p = fold ps ++ m :: q ∧ w = none ∧ lk c m = some x ∧ look x q ≠ none
  | [], _, _, _ => by simp [visitAll, at_, lk]
  | .node k v c' :: r, hk, hu, hc => by
    obtain ⟨n, hn1, hn2, hn3⟩ := hk (.node k v c') (by simp)
    have hn1 : k = [n] := hn1
    subst hn1
    have hps : Names (ps ++ [n]) := hp.append (by intro x hx; simp only [List.mem_singleton] at hx; subst hx; exact ⟨hn2, hn3⟩)
    obtain ⟨a1, a2⟩ := visit_spec (ps ++ [n]) hps (.node [n] v c') (hc _ (by simp))
    have hu' := List.nodup_cons.mp (show (low (.node [n] v c') :: r.map low).Nodup from hu)
    obtain ⟨b1, b2⟩ := visitAll_spec ps hp r (fun x hx => hk x (by simp [hx])) hu'.2 (fun x hx => hc x (by simp [hx]))
    have hones : ones ps ++ [[n]] = ones (ps ++ [n]) := by simp [ones]
    have hlow : low (.node [n] v c') = [n.map tolower] := by simp [low, Tree.key, fold]
    rw [visitAll, at_append, hones, List.map_append]
    have hf : fold (ps ++ [n]) = fold ps ++ [n.map tolower] := by simp [fold]
    rw [hf] at a2
    constructor
    · refine List.nodup_append.mpr ⟨a1, b1, ?_⟩
      intro a ha b hb hab
      obtain ⟨⟨p, w⟩, hm, rfl⟩ := List.mem_map.mp ha
      obtain ⟨⟨p', w'⟩, hm', rfl⟩ := List.mem_map.mp hb
      obtain ⟨q, rfl, _⟩ := (a2 p w).mp hm
      obtain ⟨m, x, q', rfl, _, hx, _⟩ := (b2 p' w').mp hm'
      simp only [List.append_assoc, List.cons_append, List.nil_append, List.append_cancel_left_eq, List.cons.injEq] at hab
      have := ((lk_some r hu'.2 m x).mp hx)
      exact hu'.1 (List.mem_map.mpr ⟨x, this.1, by rw [this.2, hlow, hab.1]⟩)
    · intro p w
      rw [List.mem_append, a2, b2]
      constructor
      · rintro (⟨q, rfl, rfl, hq⟩ | ⟨m, x, q, rfl, rfl, hx, hq⟩)
        · exact ⟨n.map tolower, _, q, by simp, rfl, (lk_some _ hu _ _).mpr ⟨by simp, hlow⟩, hq⟩
        · have := ((lk_some r hu'.2 m x).mp hx)
          exact ⟨m, x, q, rfl, rfl, (lk_some _ hu _ _).mpr ⟨by simp [this.1], this.2⟩, hq⟩
      · rintro ⟨m, x, q, rfl, rfl, hx, hq⟩
        have := (lk_some _ hu _ _).mp hx
        rcases List.mem_cons.mp this.1 with rfl | hx'
        · left
          rw [hlow] at this
          have : m = n.map tolower := by have := this.2; simp at this; exact this.symm
          subst this
          exact ⟨q, by simp, rfl, hq⟩
        · right
          exact ⟨m, x, q, rfl, rfl, (lk_some r hu'.2 m x).mpr ⟨hx', this.2⟩, hq⟩
end

theorem Good.parts {t : Tree} (h : Good t) : (∀ x ∈ t.children, ∃ n : Seg, x.key = [n] ∧ n ≠ [] ∧ slash ∉ n) ∧ Uniq t.children ∧
    ∀ x ∈ t.children, Good x := by
  cases h; exact ⟨‹_›, ‹_›, ‹_›⟩

theorem Good.of {t : Tree} (h : (∀ x ∈ t.children, ∃ n : Seg, x.key = [n] ∧ n ≠ [] ∧ slash ∉ n) ∧ Uniq t.children ∧
    ∀ x ∈ t.children, Good x) : Good t := by
  cases t; exact .node _ _ _ h.1 h.2.1 h.2.2

/-- What a child's notifications are from its parent. -/
theorem Exact.child {P : Place} {m m' : State} {M M' : State} {x : List Byte} {d : List Delta} (h : Exact (P ++ [x]) m m' d)
    (h1 : ∀ q, M (x :: q) = m q) (h2 : ∀ q, M' (x :: q) = m' q) (h3 : ∀ q, (∀ r, q ≠ x :: r) → M q = M' q) : Exact P M M' d := by
  refine ⟨h.1, fun p w => ?_⟩
  rw [h.2]
  constructor
  · rintro ⟨q, rfl, a, b⟩; exact ⟨x :: q, by simp, by rw [h2]; exact a, by rw [h1]; exact b⟩
  · rintro ⟨q, rfl, a, b⟩
    by_cases hq : ∃ r, q = x :: r
    · obtain ⟨r, rfl⟩ := hq
      exact ⟨r, by simp, by rw [← h2]; exact a, by rw [← h1]; exact b⟩
    · exact absurd (by rw [h3 q (fun r hr => hq ⟨r, hr⟩)]; exact a) b

theorem prefix_cons_iff (x y : List Byte) (a b : Place) : (x :: a) <+: (y :: b) ↔ x = y ∧ a <+: b := List.cons_prefix_cons

theorem removeLoop_spec (ord : List Tree → List Tree) (hord : ∀ l, (ord l).Perm l) (ns : List Seg) (hn : Names ns) :
    ∀ (ps : List Seg) (t : Tree), Names ps → Good t →
    match removeLoop ord (ones ps) t (ones ns) with
    | none => look t (fold ns) = none
    | some (t', d) => (∀ x, t' = some x → Good x ∧ x.key = t.key) ∧
        (∀ q, abs t' q = if fold ns <+: q then none else look t q) ∧ Exact (fold ps) (look t) (abs t') d := by
  induction ns with
  | nil =>
    intro ps t hp ht
    simp only [ones, List.map_nil, removeLoop]
    refine ⟨by simp, ?_, ?_⟩
    · intro q; simp [fold, abs, Spec.Conf.empty]
    · obtain ⟨h1, h2⟩ := visit_spec ps hp t ht
      refine ⟨h1, fun p w => ?_⟩
      have := h2 p w
      simp only [ones] at this
      rw [this]
      constructor
      · rintro ⟨q, rfl, rfl, hq⟩; exact ⟨q, rfl, rfl, hq⟩
      · rintro ⟨q, rfl, rfl, hq⟩; exact ⟨q, rfl, rfl, hq⟩
  | cons n ns ih =>
    intro ps t hp ht
    have hn' : Names ns := fun x hx => hn x (by simp [hx])
    have hnn := hn n (by simp)
    obtain ⟨hk, hu, hc⟩ := ht.parts
    have e1 : ones (n :: ns) = [n] :: ones ns := rfl
    rw [e1, removeLoop]
    simp only [Key.isempty, List.length_cons, List.length_nil, beq_iff_eq, Nat.zero_add, Nat.one_ne_zero, if_false, lookup_eq]
    cases hl : lk t.children (n.map tolower) with
    | none =>
      simp only [fold, List.map_cons, look_cons, hl]; rfl
    | some c =>
      have hcm := (lk_some _ hu _ _).mp hl
      obtain ⟨k, hk1, hk2, hk3⟩ := hk c hcm.1
      have hkf : k.map tolower = n.map tolower := by
        have := hcm.2; rw [low, hk1] at this; simpa [fold] using this
      have hps : Names (ps ++ [k]) := hp.append (by intro x hx; simp only [List.mem_singleton] at hx; subst hx; exact ⟨hk2, hk3⟩)
      have ih := ih hn' (ps ++ [k]) c hps (hc c hcm.1)
      have e2 : ones ps ++ [c.key] = ones (ps ++ [k]) := by simp [ones, hk1]
      have e3 : fold (ps ++ [k]) = fold ps ++ [n.map tolower] := by simp [fold, hkf]
      simp only []
      rw [e2]
      cases hr : removeLoop ord (ones (ps ++ [k])) c (ones ns) with
      | none =>
        rw [hr] at ih
        simp only [fold, List.map_cons, look_cons, hl, Option.bind_some] at ih ⊢
        exact ih
      | some r =>
        obtain ⟨t', d⟩ := r
        rw [hr] at ih
        rw [e3] at ih
        obtain ⟨i1, i2, i3⟩ := ih
        cases t' with
        | none =>
          simp only []
          have hper := hord (t.children.eraseP fun x => Key.eq [n] x.key)
          have huq := hu.erase (k := [n])
          have hlook : ∀ q, look (.node t.key t.value (ord (t.children.eraseP fun x => Key.eq [n] x.key))) q =
              if fold (n :: ns) <+: q then none else look t q := by
            intro q
            cases q with
            | nil => simp [fold, look_nil, Tree.value]
            | cons m q =>
              rw [look_cons, look_cons]
              simp only [children_node, fold, List.map_cons, prefix_cons_iff]
              rw [lk_perm _ _ huq hper, lk_erase _ hu]
              by_cases hm : m = n.map tolower
              · subst hm
                rw [if_pos rfl, hl]
                have := i2 q
                simp only [abs, Spec.Conf.empty, fold] at this
                simp only [true_and, Option.bind_some, Option.bind_none]
                exact this
              · rw [if_neg hm]
                have : ¬ (n.map tolower = m) := fun h => hm h.symm
                simp [this]
          refine ⟨?_, hlook, ?_⟩
          · rintro x ⟨⟩
            refine ⟨.of ⟨?_, huq.perm hper, ?_⟩, rfl⟩
            · intro x hx; exact hk x ((erase_sub _ _).subset (hper.mem_iff.mp hx))
            · intro x hx; exact hc x ((erase_sub _ _).subset (hper.mem_iff.mp hx))
          · refine i3.child (fun q => by rw [look_cons, hl]; rfl) (fun q => ?_) (fun q hq => ?_)
            · show look _ _ = _
              rw [look_cons]
              simp only [children_node]
              rw [lk_perm _ _ huq hper, lk_erase _ hu, if_pos rfl]; rfl
            · show _ = look _ _
              rw [hlook, if_neg]
              rintro ⟨r, hr⟩
              exact hq (fold ns ++ r) (by rw [← hr]; simp [fold])
        | some c' =>
          simp only []
          obtain ⟨g1, g2⟩ := i1 c' rfl
          have hlc : low c' = [n.map tolower] := by rw [low, g2]; exact hcm.2
          have hlr := lk_replace t.children n c' hlc (by rw [hl]; rfl)
          have hlook : ∀ q, look (.node t.key t.value (replace t.children [n] c')) q =
              if fold (n :: ns) <+: q then none else look t q := by
            intro q
            cases q with
            | nil => simp [fold, look_nil, Tree.value]
            | cons m q =>
              rw [look_cons, look_cons]
              simp only [children_node, fold, List.map_cons, prefix_cons_iff]
              rw [hlr]
              by_cases hm : m = n.map tolower
              · subst hm
                rw [if_pos rfl, hl]
                have := i2 q
                simp only [abs, fold] at this
                simp only [true_and, Option.bind_some]
                exact this
              · rw [if_neg hm]
                have : ¬ (n.map tolower = m) := fun h => hm h.symm
                simp [this]
          refine ⟨?_, hlook, ?_⟩
          · rintro x ⟨⟩
            refine ⟨.of ⟨?_, ?_, ?_⟩, rfl⟩
            · intro x hx
              rcases mem_replace _ _ _ _ hx with rfl | hx
              · exact ⟨k, by rw [g2, hk1], hk2, hk3⟩
              · exact hk x hx
            · show (List.map low _).Nodup
              simp only [children_node]
              rw [replace_low _ _ _ hlc]; exact hu
            · intro x hx
              rcases mem_replace _ _ _ _ hx with rfl | hx
              · exact g1
              · exact hc x hx
          · refine i3.child (fun q => by rw [look_cons, hl]; rfl) (fun q => ?_) (fun q hq => ?_)
            · show look _ _ = _
              rw [look_cons]
              simp only [children_node]
              rw [hlr, if_pos rfl]; rfl
            · show _ = look _ _
              rw [hlook, if_neg]
              rintro ⟨r, hr⟩
              exact hq (fold ns ++ r) (by rw [← hr]; simp [fold])

/-- What `set` does below a node. -/
def setAt (m : State) (p : Place) (v : Value) : State :=
  fun q => if q = p then some v else if q <+: p then some ((m q).getD []) else m q

theorem setLoop_spec (ord : List Tree → List Tree) (hord : ∀ l, (ord l).Perm l) (v : Value) (ns : List Seg) (hn : Names ns) :
    ∀ (ps : List Seg) (t : Option Tree) (prev : Key), Names ps → (∀ x, t = some x → Good x) →
    Good (setLoop ord v (ones ps) t prev (ones ns)).1 ∧
    (setLoop ord v (ones ps) t prev (ones ns)).1.key = (t.map Tree.key).getD prev ∧
    (∀ q, look (setLoop ord v (ones ps) t prev (ones ns)).1 q = setAt (abs t) (fold ns) v q) ∧
    Exact (fold ps) (abs t) (look (setLoop ord v (ones ps) t prev (ones ns)).1) (setLoop ord v (ones ps) t prev (ones ns)).2 := by
  induction ns with
  | nil =>
    intro ps t prev hp ht
    have hlk : ∀ m, lk [] m = none := fun _ => rfl
    cases t with
    | none =>
      simp only [ones, List.map_nil, setLoop]
      have h4 : ∀ q, look (.node prev v []) q = if q = [] then some v else none := by
        intro q; cases q with
        | nil => rfl
        | cons m q => rw [look_cons]; simp [Tree.children, hlk]
      refine ⟨.of ⟨by simp [Tree.children], by simp [Tree.children, Uniq], by simp [Tree.children]⟩, rfl, ?_, ?_, ?_⟩
      · intro q
        rw [h4, setAt]
        cases q <;> simp [fold, abs, Spec.Conf.empty]
      · simp [at_]
      · intro p w
        have := fullkey_ones ps hp
        simp only [ones] at this
        simp only [at_, List.map_cons, List.map_nil, List.mem_singleton, Prod.mk.injEq, this]
        constructor
        · rintro ⟨rfl, rfl⟩; exact ⟨[], by simp, rfl, by simp [abs, Spec.Conf.empty]⟩
        · rintro ⟨q, rfl, h1, h2⟩
          rw [h4] at h1
          cases q with
          | nil => exact ⟨by simp, h1.symm⟩
          | cons m q => exact absurd h1 (by simpa [abs, Spec.Conf.empty] using h2)
    | some t =>
      obtain ⟨k, w, c⟩ := t
      have hg := ht _ rfl
      have h4 : ∀ q, look (.node k v c) q = setAt (look (.node k w c)) [] v q := by
        intro q; cases q with
        | nil => simp [setAt, look_nil, Tree.value]
        | cons m q => simp [setAt, look_cons, Tree.children]
      simp only [ones, List.map_nil, setLoop]
      by_cases hv : v = w
      · subst hv
        simp only [ne_eq, not_true_eq_false, if_false]
        refine ⟨hg, rfl, h4, by simp [at_], ?_⟩
        intro p w
        simp only [at_, List.map_nil, List.not_mem_nil, false_iff]
        rintro ⟨q, _, h1, h2⟩
        exact h2 h1
      · simp only [ne_eq, hv, not_false_eq_true, if_true]
        refine ⟨.of ?_, rfl, h4, by simp [at_], ?_⟩
        · exact hg.parts
        · intro p w'
          have := fullkey_ones ps hp
          simp only [ones] at this
          simp only [at_, List.map_cons, List.map_nil, List.mem_singleton, Prod.mk.injEq, this]
          constructor
          · rintro ⟨rfl, rfl⟩
            refine ⟨[], by simp, rfl, ?_⟩
            simp only [abs, look_nil, Tree.value]
            intro h; exact hv (Option.some.inj h).symm
          · rintro ⟨q, rfl, h1, h2⟩
            rw [h4] at h1
            cases q with
            | nil => exact ⟨by simp, by rw [← h1]; simp [setAt]⟩
            | cons m q => exact absurd h1 (by simpa [setAt, abs] using h2)
  | cons n ns ih =>
    intro ps t prev hp ht
    have hn' : Names ns := fun x hx => hn x (by simp [hx])
    have hnn := hn n (by simp)
    -- the node, created if needed
    obtain ⟨u, d0, hmade, hgu, hku, hau, hd0⟩ : ∃ (u : Tree) (d0 : List Delta),
        (match t with | none => (.node prev [] [], [(fullkey (ones ps), some [])]) | some t => ((t, []) : Tree × List Delta)) = (u, d0) ∧
        Good u ∧ u.key = (t.map Tree.key).getD prev ∧
        (∀ q, look u q = if q = [] then some ((abs t q).getD []) else abs t q) ∧
        Exact (fold ps) (abs t) (look u) d0 := by
      cases t with
      | none =>
        have h4 : ∀ q, look (.node prev [] []) q = if q = [] then some [] else none := by
          intro q; cases q with
          | nil => rfl
          | cons m q => rw [look_cons]; simp [Tree.children, lk]
        refine ⟨_, _, rfl, .of ⟨by simp [Tree.children], by simp [Tree.children, Uniq], by simp [Tree.children]⟩, rfl, ?_, ?_, ?_⟩
        · intro q; rw [h4]; simp [abs, Spec.Conf.empty]
        · simp [at_]
        · intro p w
          have := fullkey_ones ps hp
          simp only [at_, List.map_cons, List.map_nil, List.mem_singleton, Prod.mk.injEq, this]
          constructor
          · rintro ⟨rfl, rfl⟩; exact ⟨[], by simp, rfl, by simp [abs, Spec.Conf.empty]⟩
          · rintro ⟨q, rfl, h1, h2⟩
            rw [h4] at h1
            cases q with
            | nil => exact ⟨by simp, h1.symm⟩
            | cons m q => exact absurd h1 (by simpa [abs, Spec.Conf.empty] using h2)
      | some t =>
        refine ⟨t, [], rfl, ht t rfl, rfl, ?_, by simp [at_], ?_⟩
        · intro q; cases q with
          | nil => simp [abs, look_nil]
          | cons m q => simp [abs]
        · intro p w
          simp only [at_, List.map_nil, List.not_mem_nil, false_iff]
          rintro ⟨q, _, h1, h2⟩
          exact h2 h1
    obtain ⟨hk, hu, hc⟩ := hgu.parts
    -- what the child, existing or not, contributes
    have key : ∀ (co : Option Tree) (kk : Seg) (r : Tree × List Delta) (cs : List Tree),
        lk u.children (n.map tolower) = co → kk.map tolower = n.map tolower → kk ≠ [] ∧ slash ∉ kk →
        Good r.1 → r.1.key = [kk] → (∀ q, look r.1 q = setAt (abs co) (fold ns) v q) →
        Exact (fold ps ++ [n.map tolower]) (abs co) (look r.1) r.2 →
        Uniq cs → (∀ x ∈ cs, x = r.1 ∨ x ∈ u.children) →
        (∀ m, lk cs m = if m = n.map tolower then some r.1 else lk u.children m) →
        Good (.node u.key u.value cs) ∧ (Tree.node u.key u.value cs).key = (t.map Tree.key).getD prev ∧
        (∀ q, look (.node u.key u.value cs) q = setAt (abs t) (fold (n :: ns)) v q) ∧
        Exact (fold ps) (abs t) (look (.node u.key u.value cs)) (d0 ++ r.2) := by
      intro co kk r cs hco hkk hkn hg hrk hlook hex hucs hmem hlk
      have hall : ∀ q, look (.node u.key u.value cs) q = setAt (abs t) (fold (n :: ns)) v q := by
        intro q
        cases q with
        | nil =>
          have := hau []
          rw [look_nil] at this
          simp only [look_nil, value_node, setAt, fold, List.map_cons]
          simpa using this
        | cons m q =>
          rw [look_cons]
          simp only [children_node, hlk]
          have hum := hau (m :: q)
          rw [look_cons] at hum
          simp only [reduceCtorEq, if_false] at hum
          simp only [setAt, fold, List.map_cons, List.cons.injEq, prefix_cons_iff, ← hum]
          by_cases hm : m = n.map tolower
          · subst hm
            rw [if_pos rfl]
            simp only [Option.bind_some, hlook, setAt, true_and, fold, hco]
            cases co <;> rfl
          · rw [if_neg hm]
            simp [hm]
      refine ⟨.of ⟨?_, hucs, ?_⟩, hku, hall, ?_⟩
      · intro x hx
        rcases hmem x hx with rfl | hx
        · exact ⟨kk, hrk, hkn⟩
        · exact hk x hx
      · intro x hx
        rcases hmem x hx with rfl | hx
        · exact hg
        · exact hc x hx
      · -- the child's notifications, seen from here
        have hex' : Exact (fold ps) (look u) (look (.node u.key u.value cs)) r.2 := by
          refine hex.child (fun q => ?_) (fun q => ?_) (fun q hq => ?_)
          · rw [look_cons, hco]; cases co <;> rfl
          · rw [look_cons]; simp only [children_node]; rw [hlk, if_pos rfl]; rfl
          · cases q with
            | nil => rfl
            | cons m q =>
              have hm : m ≠ n.map tolower := fun h => hq q (by rw [h])
              rw [look_cons, look_cons]; simp only [children_node]; rw [hlk, if_neg hm]
        have hd0' : ∀ p w, (p, w) ∈ at_ d0 → p = fold ps := by
          intro p w h
          obtain ⟨q, rfl, h1, h2⟩ := (hd0.2 p w).mp h
          cases q with
          | nil => simp
          | cons m q =>
            rw [hau] at h1
            simp only [reduceCtorEq, if_false] at h1
            exact absurd h1 h2
        have hr2 : ∀ p w, (p, w) ∈ at_ r.2 → p ≠ fold ps := by
          intro p w h hp'
          obtain ⟨q, rfl, _⟩ := (hex.2 p w).mp h
          simp at hp'
        refine ⟨?_, fun p w => ?_⟩
        · rw [at_append, List.map_append]
          refine List.nodup_append.mpr ⟨hd0.1, hex.1, ?_⟩
          intro a ha b hb hab
          obtain ⟨⟨p, w⟩, hm, rfl⟩ := List.mem_map.mp ha
          obtain ⟨⟨p', w'⟩, hm', rfl⟩ := List.mem_map.mp hb
          exact hr2 p' w' hm' ((show p = p' from hab) ▸ hd0' p w hm)
        · rw [at_append, List.mem_append, hd0.2, hex'.2]
          constructor
          · rintro (⟨q, rfl, h1, h2⟩ | ⟨q, rfl, h1, h2⟩)
            · cases q with
              | nil => exact ⟨[], rfl, by rw [← h1]; rfl, h2⟩
              | cons m q =>
                rw [hau] at h1
                simp only [reduceCtorEq, if_false] at h1
                exact absurd h1 h2
            · cases q with
              | nil => exact absurd h1 h2
              | cons m q =>
                refine ⟨m :: q, rfl, h1, ?_⟩
                rw [hau] at h2
                simpa using h2
          · rintro ⟨q, rfl, h1, h2⟩
            cases q with
            | nil => exact Or.inl ⟨[], rfl, by rw [← h1]; rfl, h2⟩
            | cons m q => refine Or.inr ⟨m :: q, rfl, h1, ?_⟩; rw [hau]; simpa using h2
    have e1 : ones (n :: ns) = [n] :: ones ns := rfl
    have hie : Key.isempty [n] = false := rfl
    have hsl : setLoop ord v (ones ps) t prev (ones (n :: ns)) =
        match lk u.children (n.map tolower) with
        | some c => (.node u.key u.value (replace u.children [n] (setLoop ord v (ones ps ++ [c.key]) (some c) [n] (ones ns)).1),
            d0 ++ (setLoop ord v (ones ps ++ [c.key]) (some c) [n] (ones ns)).2)
        | none => (.node u.key u.value (ord (u.children ++ [(setLoop ord v (ones ps ++ [[n]]) none [n] (ones ns)).1])),
            d0 ++ (setLoop ord v (ones ps ++ [[n]]) none [n] (ones ns)).2) := by
      rw [e1]
      cases t with
      | none =>
        cases hmade
        rw [setLoop]
        simp only [hie, Bool.false_eq_true, if_false, lookup_eq]
        cases lk (Tree.node prev [] []).children (n.map tolower) <;> rfl
      | some t =>
        cases hmade
        rw [setLoop]
        simp only [hie, Bool.false_eq_true, if_false, lookup_eq]
        cases lk u.children (n.map tolower) <;> rfl
    rw [hsl]
    cases hl : lk u.children (n.map tolower) with
    | some c =>
      simp only []
      have hcm := (lk_some _ hu _ _).mp hl
      obtain ⟨k, hk1, hk2, hk3⟩ := hk c hcm.1
      have hkf : k.map tolower = n.map tolower := by
        have := hcm.2; rw [low, hk1] at this; simpa [fold] using this
      have hps : Names (ps ++ [k]) := hp.append (by intro x hx; simp only [List.mem_singleton] at hx; subst hx; exact ⟨hk2, hk3⟩)
      obtain ⟨i1, i2, i3, i4⟩ := ih hn' (ps ++ [k]) (some c) [n] hps (by rintro x ⟨⟩; exact hc c hcm.1)
      have e2 : ones ps ++ [c.key] = ones (ps ++ [k]) := by simp [ones, hk1]
      have e3 : fold (ps ++ [k]) = fold ps ++ [n.map tolower] := by simp [fold, hkf]
      rw [e2]
      rw [e3] at i4
      simp only [Option.map_some, Option.getD_some, hk1] at i2
      have hlc : low (setLoop ord v (ones (ps ++ [k])) (some c) [n] (ones ns)).1 = [n.map tolower] := by
        rw [low, i2]; simp [fold, hkf]
      refine key (some c) k _ _ hl hkf ⟨hk2, hk3⟩ i1 i2 i3 i4 ?_ (fun x hx => mem_replace _ _ _ _ hx)
        (lk_replace _ n _ hlc (by rw [hl]; rfl))
      show (List.map low _).Nodup
      rw [replace_low _ _ _ hlc]; exact hu
    | none =>
      simp only []
      have hps : Names (ps ++ [n]) := hp.append (by intro x hx; simp only [List.mem_singleton] at hx; subst hx; exact hnn)
      obtain ⟨i1, i2, i3, i4⟩ := ih hn' (ps ++ [n]) none [n] hps (by simp)
      have e2 : ones ps ++ [[n]] = ones (ps ++ [n]) := by simp [ones]
      have e3 : fold (ps ++ [n]) = fold ps ++ [n.map tolower] := by simp [fold]
      rw [e2]
      rw [e3] at i4
      simp only [Option.map_none, Option.getD_none] at i2
      have hlc : low (setLoop ord v (ones (ps ++ [n])) none [n] (ones ns)).1 = [n.map tolower] := by
        rw [low, i2]; simp [fold]
      have hper := hord (u.children ++ [(setLoop ord v (ones (ps ++ [n])) none [n] (ones ns)).1])
      have huq := Uniq.append hu hl hlc
      refine key none n _ _ hl rfl hnn i1 i2 i3 i4 (huq.perm hper) ?_ ?_
      · intro x hx
        have := hper.mem_iff.mp hx
        simp only [List.mem_append, List.mem_singleton] at this
        exact this.symm
      · intro m
        rw [lk_perm _ _ huq hper, lk_append _ _ _ hl hlc]

end Wv.TempGen
