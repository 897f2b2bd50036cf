import Verif.Lemmas.TransGen
/- Helper lemmas for C28: what is read through a tree of changes, and what committing it does. -/
namespace Tr
open Wv Wv.TempGen Wv.TransGen Spec.Conf
open Wv.Key (fold Names)
open Spec.Path (slash)
open Props.Gens (Reads Behaves)

/-! ### Keys -/

theorem nd (ps : List Seg) : (false = true → ps ≠ []) := by intro h; cases h

theorem mk_false (ps : List Seg) : Key.mk ps false = ps := by simp [Key.mk]

theorem names_parse (ps : List Seg) (h : Names ps) : ∃ k : Text, Key.parse k = ps ∧ place k = fold ps ∧ Spec.Path.dir k = false :=
  ⟨Spec.Path.write ps false, by rw [Key.parse_write ps false h (nd ps), mk_false],
    by rw [place_eq, Key.names_write ps false h], Key.dir_write ps false h (nd ps)⟩

theorem join_names (ps : List Seg) (n : Seg) (h : Names ps) (hn : n ≠ [] ∧ slash ∉ n) : Key.join ps [n] = ps ++ [n] ∧ Names (ps ++ [n]) := by
  have h1 : Names [n] := by intro x hx; simp only [List.mem_singleton] at hx; subst hx; exact hn
  have := Key.join_mk ps [n] false false h h1 (nd [n])
  rw [mk_false, mk_false] at this
  refine ⟨?_, h.append h1⟩
  rw [this]
  simp [Key.mk]

theorem set_eq (m : State) (k : Text) (h : Spec.Path.dir k = false) (v : Option Value) : Spec.Conf.set m k v = change m (place k) v := by
  cases v with
  | none => rfl
  | some v => simp only [Spec.Conf.set, h]; rfl

section
variable {σ : Type} (I : IGen σ) (Rep : σ → State → Prop) (B : Behaves I Rep)
include B

theorem bset (b : σ) (m : State) (h : Rep b m) (ps : List Seg) (hp : Names ps) (v : Option Value) :
    Rep (I.set b ps v) (change m (fold ps) v) := by
  obtain ⟨k, h1, h2, h3⟩ := names_parse ps hp
  have := B.set b m h k v
  rwa [h1, set_eq _ _ h3, h2] at this

theorem bget (b : σ) (m : State) (h : Rep b m) (ps : List Seg) (hp : Names ps) : I.get b ps = m (fold ps) := by
  obtain ⟨k, h1, h2, h3⟩ := names_parse ps hp
  have := (B.reads b m h).get k
  rw [h1] at this
  rw [this, Spec.Conf.get, h3, h2]
  rfl

theorem bexists (b : σ) (m : State) (h : Rep b m) (ps : List Seg) (hp : Names ps) : I.exists b ps = true ↔ m (fold ps) ≠ none := by
  obtain ⟨k, h1, h2, h3⟩ := names_parse ps hp
  have := (B.reads b m h).exists_ k
  rw [h1] at this
  rw [this, Spec.Conf.get, h3, h2]
  simp

end

/-- What an iterator should list: what is one below. -/
def Lists (r : Option (List (Key × Option Value))) (f : State) : Prop :=
  match r with
  | none => ∀ q, f q = none
  | some r => (r.map fun x => fold x.1).Nodup ∧
      (∀ x ∈ r, (∃ n : Seg, x.1 = [n] ∧ n ≠ [] ∧ slash ∉ n) ∧ x.2 ≠ none) ∧
      ∀ n v, f [n] = some v ↔ ∃ x ∈ r, fold x.1 = [n] ∧ x.2 = some v

theorem reads_lists {σ : Type} {I : IGen σ} {s : σ} {m : State} (h : Reads I s m) (k : Text) :
    Lists (I.iterator s (Key.parse k)) (fun q => m (place k ++ q)) := h.iterator k

/-- The segments of a key. -/
def segs (ns : List Seg) (d : Bool) : List Key := ones ns ++ (if d then [[]] else [])

theorem segments_parse (k : Text) : segments (Key.parse k) = segs (Spec.Path.names k) (Spec.Path.dir k) := by
  rw [Key.parse_eq, segments_mk _ _ (Key.names_ok k)]; rfl

theorem cfindchild_one (t : CTree) (n : Seg) : cfindchild t [n] = clk t.children (n.map tolower) := by
  rw [cfindchild, if_neg (by simp [Key.isempty]), clookup_eq]

/-! ### get -/

theorem getLoop_spec {σ : Type} (I : IGen σ) (b : σ) (key : Key) (ns : List Seg) (hn : Names ns) : ∀ (t : CTree) (s : State),
    I.get b key = s (fold ns) → getLoop I b key t (ones ns) = den t s (fold ns) := by
  induction ns with
  | nil =>
    intro t s h
    cases t with
    | node k m c =>
      have h' : I.get b key = s [] := h
      cases m with
      | newtree u =>
        rw [den_newtree]
        cases u <;> rfl
      | newvalue v => exact (den_nil k (.newvalue v) (by intro t h; cases h) c s).symm
      | newnode =>
        refine Eq.trans ?_ (den_nil k .newnode (by intro t h; cases h) c s).symm
        rw [← h']; rfl
      | blank =>
        refine Eq.trans ?_ (den_nil k .blank (by intro t h; cases h) c s).symm
        rw [← h']; rfl
  | cons n ns ih =>
    intro t s h
    have hn' : Names ns := fun x hx => hn x (by simp [hx])
    cases t with
    | node k m c =>
      by_cases hm : Part m
      · have e : getLoop I b key (.node k m c) (ones (n :: ns)) =
            match clk c (n.map tolower) with
            | none => I.get b key
            | some x => getLoop I b key x (ones ns) := by
          rw [ones_cons, getLoop]
          have := cfindchild_one (.node k m c) n
          cases m with
          | newtree t => exact absurd rfl (hm t)
          | _ => simp only [CTree.mode]; rw [this]; rfl
        rw [e, fold_cons, den_cons _ _ hm]
        cases hl : clk c (n.map tolower) with
        | none => exact h
        | some x => exact ih hn' x _ h
      · cases m with
        | newtree u =>
          rw [den_newtree, ones_cons, getLoop]
          simp only [CTree.mode]
          cases u with
          | none => rfl
          | some u =>
            have := findLoop_ones (n :: ns) false u hn
            simp only [Bool.false_eq_true, if_false, List.append_nil] at this
            rw [ones_cons] at this
            simp only [Option.bind_some]
            rw [this]; rfl
        | newvalue v => exact absurd (fun t h => by cases h) hm
        | newnode => exact absurd (fun t h => by cases h) hm
        | blank => exact absurd (fun t h => by cases h) hm

/-! ### Iterators -/

theorem listed_spec (u : Option Tree) (hg : ∀ t, u = some t → Good t) (ns : List Seg) :
    Lists (some (listed (u.bind fun u => findP u (fold ns)))) (fun q => TempGen.abs u (fold ns ++ q)) := by
  cases u with
  | none => exact ⟨by simp [listed], by simp [listed], by simp [listed, TempGen.abs, Spec.Conf.empty]⟩
  | some t =>
    simp only [Option.bind_some]
    cases hf : findP t (fold ns) with
    | none =>
      refine ⟨by simp [listed], by simp [listed], ?_⟩
      intro n v
      have : TempGen.abs (some t) (fold ns ++ [n]) = none := by
        show (findP t _).map _ = _
        rw [Props.Temp.findP_append, hf]; rfl
      show TempGen.abs (some t) (fold ns ++ [n]) = some v ↔ _
      rw [this]
      simp [listed]
    | some x =>
      have hx := Props.Temp.good_findP t (hg t rfl) _ x hf
      obtain ⟨hk, hu, hc⟩ := hx.parts
      refine ⟨?_, ?_, ?_⟩
      · simp only [listed, List.map_map]; exact hu
      · intro y hy
        obtain ⟨z, hz, rfl⟩ := List.mem_map.mp hy
        exact ⟨hk z hz, by simp⟩
      · intro n v
        have : TempGen.abs (some t) (fold ns ++ [n]) = look x [n] := by
          show (findP t _).map _ = _
          rw [Props.Temp.findP_append, hf]; rfl
        show TempGen.abs (some t) (fold ns ++ [n]) = some v ↔ _
        rw [this, look_cons]
        constructor
        · intro h
          obtain ⟨z, hz, hv⟩ := Option.bind_eq_some_iff.mp h
          obtain ⟨h1, h2⟩ := (lk_some _ hu _ _).mp hz
          exact ⟨_, List.mem_map.mpr ⟨z, h1, rfl⟩, h2, hv⟩
        · rintro ⟨y, hy, h1, h2⟩
          obtain ⟨z, hz, rfl⟩ := List.mem_map.mp hy
          exact Option.bind_eq_some_iff.mpr ⟨z, (lk_some _ hu _ _).mpr ⟨hz, h1⟩, h2⟩

/-- What a changed node shows. -/
def shown : Mode → Option Value → Option Value
  | .newvalue v, _ => some v
  | .newtree (some t), _ => some t.value
  | .newnode, o => some (o.getD [])
  | _, _ => none

theorem mem_changed {σ : Type} (I : IGen σ) (b : σ) (sec : Key) (c : List CTree) (y : Key × Option Value) :
    y ∈ changed I b sec c ↔ ∃ x ∈ c, x.key = y.1 ∧ y.2 ≠ none ∧ shown x.mode (I.get b (Key.join sec x.key)) = y.2 := by
  obtain ⟨k, o⟩ := y
  simp only [changed, List.mem_filterMap]
  constructor
  · rintro ⟨x, hx, h⟩
    refine ⟨x, hx, ?_⟩
    cases x with
    | node xk m xc =>
      cases m with
      | newtree t => cases t with
        | none => simp [CTree.mode] at h
        | some t => simp [CTree.mode, CTree.key] at h; simp [CTree.mode, CTree.key, shown, ← h.1, ← h.2]
      | newvalue v => simp [CTree.mode, CTree.key] at h; simp [CTree.mode, CTree.key, shown, ← h.1, ← h.2]
      | newnode => simp [CTree.mode, CTree.key] at h; simp [CTree.mode, CTree.key, shown, ← h.1, ← h.2]
      | blank => simp [CTree.mode] at h
  · rintro ⟨x, hx, h1, h2, h3⟩
    refine ⟨x, hx, ?_⟩
    cases x with
    | node xk m xc =>
      simp only [CTree.key] at h1 h3
      subst h1
      cases m with
      | newtree t => cases t with
        | none => exact absurd h3.symm h2
        | some t => simp only [CTree.mode, shown] at h3; simp [CTree.mode, CTree.key, h3]
      | newvalue v => simp only [CTree.mode, shown] at h3; simp [CTree.mode, CTree.key, h3]
      | newnode => simp only [CTree.mode, shown] at h3; simp [CTree.mode, CTree.key, h3]
      | blank => exact absurd h3.symm h2

theorem changed_sub {σ : Type} (I : IGen σ) (b : σ) (sec : Key) (c : List CTree) :
    ((changed I b sec c).map fun x => fold x.1).Sublist (c.map clow) := by
  induction c with
  | nil => exact List.Sublist.slnil
  | cons x c ih =>
    have e : changed I b sec (x :: c) = changed I b sec [x] ++ changed I b sec c := by
      unfold changed
      rw [← List.filterMap_append]; rfl
    rw [e, List.map_append, List.map_cons]
    refine List.Sublist.append (l₂ := [clow x]) ?_ ih
    cases x with
    | node xk m xc =>
      cases m with
      | newtree t => cases t <;> simp [changed, CTree.mode, CTree.key, clow]
      | _ => simp [changed, CTree.mode, CTree.key, clow]

theorem iterEnd_spec {σ : Type} (I : IGen σ) (b : σ) (key : Key) (t : CTree) (hg : CGood t) (hm : Part t.mode) (s : State)
    (hi : Lists (I.iterator b key) s)
    (hget : ∀ n : Seg, n ≠ [] ∧ slash ∉ n → I.get b (Key.join key [n]) = s [n.map tolower]) :
    Lists (some (changed I b key t.children ++ (match I.iterator b key with
        | none => []
        | some l => l.filter fun x => untouched t x.1))) (den t s) := by
  obtain ⟨hk, hu, hc, -, -⟩ := hg.parts
  -- what the base shows
  obtain ⟨l, hl, hlist⟩ : ∃ l, (match I.iterator b key with | none => [] | some l => l.filter fun x => untouched t x.1) =
      l.filter (fun x => untouched t x.1) ∧ Lists (some l) s := by
    cases hb : I.iterator b key with
    | none =>
      rw [hb] at hi
      have hi : ∀ q, s q = none := hi
      exact ⟨[], rfl, by simp, by simp, by simp [hi]⟩
    | some l => rw [hb] at hi; exact ⟨l, rfl, hi⟩
  rw [hl]
  obtain ⟨l1, l2, l3⟩ := hlist
  have hun : ∀ n : Seg, untouched t [n] = true ↔ ∀ x, clk t.children (n.map tolower) = some x → x.mode = .blank := by
    intro n
    rw [untouched, cfindchild_one]
    cases clk t.children (n.map tolower) with
    | none => simp
    | some x => cases hm : x.mode <;> simp [hm]
  refine ⟨?_, ?_, ?_⟩
  · rw [List.map_append]
    refine List.nodup_append.mpr ⟨hu.sublist (changed_sub I b key t.children), l1.sublist (List.filter_sublist.map _), ?_⟩
    rintro a ha a' hb rfl
    obtain ⟨y, hy, rfl⟩ := List.mem_map.mp ha
    obtain ⟨z, hz, hzy⟩ := List.mem_map.mp hb
    obtain ⟨x, hx, h1, h2, h3⟩ := (mem_changed I b key t.children y).mp hy
    obtain ⟨hz1, hz2⟩ := List.mem_filter.mp hz
    obtain ⟨⟨n, hn, -⟩, -⟩ := l2 z hz1
    rw [hn, hun] at hz2
    have hxl : clk t.children (n.map tolower) = some x := by
      refine (clk_some _ hu _ _).mpr ⟨hx, ?_⟩
      rw [clow, h1, ← hzy, hn]; rfl
    rw [hz2 x hxl] at h3
    exact h2 h3.symm
  · intro y hy
    rcases List.mem_append.mp hy with hy | hy
    · obtain ⟨x, hx, h1, h2, h3⟩ := (mem_changed I b key t.children y).mp hy
      exact ⟨by rw [← h1]; exact hk x hx, h2⟩
    · exact l2 y (List.mem_filter.mp hy).1
  · intro n v
    cases t with
    | node tk tm tc =>
      simp only [CTree.children] at hk hu hc hun ⊢
      rw [den_cons tk tm hm]
      cases hx : clk tc n with
      | none =>
        simp only []
        rw [l3]
        constructor
        · rintro ⟨x, hx1, hx2, hx3⟩
          refine ⟨x, List.mem_append.mpr (Or.inr (List.mem_filter.mpr ⟨hx1, ?_⟩)), hx2, hx3⟩
          obtain ⟨⟨n', hn', -⟩, -⟩ := l2 x hx1
          rw [hn'] at hx2 ⊢
          rw [hun]
          have : n'.map tolower = n := by simpa [fold] using hx2
          rw [this, hx]
          simp
        · rintro ⟨x, hx1, hx2, hx3⟩
          rcases List.mem_append.mp hx1 with h | h
          · obtain ⟨y, hy, h1, h2, h3⟩ := (mem_changed I b key tc x).mp h
            exact absurd (show clow y = [n] by rw [clow, h1, hx2]) ((clk_none tc n).mp hx y hy)
          · exact ⟨x, (List.mem_filter.mp h).1, hx2, hx3⟩
      | some x =>
        simp only []
        obtain ⟨hx1, hx2⟩ := (clk_some _ hu _ _).mp hx
        obtain ⟨nn, hnk, hnn⟩ := hk x hx1
        have hnn' : nn.map tolower = n := by have := hx2; rw [clow, hnk] at this; simpa [fold] using this
        have hgx : I.get b (Key.join key x.key) = s [n] := by rw [hnk, hget nn hnn, hnn']
        -- what changes show
        have hch : ∀ w, (∃ y ∈ changed I b key tc, fold y.1 = [n] ∧ y.2 = some w) ↔ shown x.mode (s [n]) = some w := by
          intro w
          constructor
          · rintro ⟨y, hy, h1, h2⟩
            obtain ⟨z, hz, h3, h4, h5⟩ := (mem_changed I b key tc y).mp hy
            have : clk tc n = some z := (clk_some _ hu _ _).mpr ⟨hz, by rw [clow, h3]; exact h1⟩
            rw [hx] at this
            cases this
            rw [← hgx, h5, h2]
          · intro h
            exact ⟨(x.key, some w), (mem_changed I b key tc _).mpr ⟨x, hx1, rfl, by simp, by rw [hgx]; exact h⟩, hx2, rfl⟩
        have hbase : (∃ y ∈ l.filter (fun y => untouched (.node tk tm tc) y.1), fold y.1 = [n] ∧ y.2 = some v) ↔
            x.mode = .blank ∧ s [n] = some v := by
          constructor
          · rintro ⟨y, hy, h1, h2⟩
            obtain ⟨y1, y2⟩ := List.mem_filter.mp hy
            obtain ⟨⟨n', hn', -⟩, -⟩ := l2 y y1
            refine ⟨?_, (l3 n v).mpr ⟨y, y1, h1, h2⟩⟩
            rw [hn'] at h1 y2
            have : n'.map tolower = n := by simpa [fold] using h1
            rw [hun, this] at y2
            exact y2 x hx
          · rintro ⟨h1, h2⟩
            obtain ⟨y, y1, y2, y3⟩ := (l3 n v).mp h2
            refine ⟨y, List.mem_filter.mpr ⟨y1, ?_⟩, y2, y3⟩
            obtain ⟨⟨n', hn', -⟩, -⟩ := l2 y y1
            rw [hn'] at y2 ⊢
            have : n'.map tolower = n := by simpa [fold] using y2
            rw [hun, this, hx]
            rintro _ ⟨⟩
            exact h1
        have hor : (∃ y ∈ changed I b key tc ++ l.filter (fun y => untouched (.node tk tm tc) y.1), fold y.1 = [n] ∧ y.2 = some v) ↔
            (shown x.mode (s [n]) = some v ∨ (x.mode = .blank ∧ s [n] = some v)) := by
          rw [← hch, ← hbase]
          simp only [List.mem_append, or_and_right, exists_or]
        rw [hor]
        cases x with
        | node xk xm xc =>
          simp only [CTree.mode]
          have hp : Part xm → den (.node xk xm xc) (sub s n) [] = top xm (s [n]) := fun h => den_nil _ _ h _ _
          cases xm with
          | newtree u =>
            rw [den_newtree]
            cases u <;> simp [shown, TempGen.abs, Spec.Conf.empty, look_nil]
          | newvalue w => rw [hp (by intro t h; cases h)]; simp [shown, top]
          | newnode => rw [hp (by intro t h; cases h)]; simp [shown, top]
          | blank => rw [hp (by intro t h; cases h)]; simp [shown, top]

theorem iterLoop_spec {σ : Type} (I : IGen σ) (b : σ) (key : Key) (ns : List Seg) (d : Bool) (hn : Names ns) :
    ∀ (t : CTree) (s : State), CGood t → Lists (I.iterator b key) (fun q => s (fold ns ++ q)) →
    (∀ n : Seg, n ≠ [] ∧ slash ∉ n → I.get b (Key.join key [n]) = s (fold ns ++ [n.map tolower])) →
    Lists (iterLoop I b key t (segs ns d)) (fun q => den t s (fold ns ++ q)) := by
  induction ns with
  | nil =>
    intro t s hg hi hget
    by_cases hm : Part t.mode
    · have e : iterLoop I b key t (segs [] d) = some (changed I b key t.children ++ (match I.iterator b key with
          | none => []
          | some l => l.filter fun x => untouched t x.1)) := by
        have e0 : iterLoop I b key t [] = some (changed I b key t.children ++ (match I.iterator b key with
            | none => []
            | some l => l.filter fun x => untouched t x.1)) := by
          rw [iterLoop]
          cases h : t.mode with
          | newtree u => exact absurd h (hm u)
          | _ => rfl
        cases d with
        | false => exact e0
        | true =>
          refine Eq.trans ?_ e0
          cases t with
          | node k m c =>
            cases m with
            | newtree u => exact absurd rfl (hm u)
            | _ => rfl
      rw [e]
      exact iterEnd_spec I b key t hg hm s hi hget
    · cases t with
      | node k m c =>
        cases m with
        | newtree u =>
          have := listed_spec u (fun t ht => hg.parts.2.2.2.1 t (by rw [ht]; rfl)) []
          have e : iterLoop I b key (.node k (.newtree u) c) (segs [] d) = some (listed (u.bind fun u => findP u (fold []))) := by
            cases d <;> cases u <;> rfl
          rw [e]
          simp only [den_newtree]
          exact this
        | newvalue v => exact absurd (fun t h => by cases h) hm
        | newnode => exact absurd (fun t h => by cases h) hm
        | blank => exact absurd (fun t h => by cases h) hm
  | cons n ns ih =>
    intro t s hg hi hget
    have hn' : Names ns := fun x hx => hn x (by simp [hx])
    have es : segs (n :: ns) d = [n] :: segs ns d := rfl
    cases t with
    | node k m c =>
      by_cases hm : Part m
      · have e : iterLoop I b key (.node k m c) (segs (n :: ns) d) =
            match clk c (n.map tolower) with
            | none => I.iterator b key
            | some x => iterLoop I b key x (segs ns d) := by
          rw [es, iterLoop]
          have := cfindchild_one (.node k m c) n
          cases m with
          | newtree t => exact absurd rfl (hm t)
          | _ => simp only [CTree.mode]; rw [this]; rfl
        rw [e]
        simp only [fold_cons, List.cons_append, den_cons _ _ hm]
        obtain ⟨-, hu, hc, -, -⟩ := hg.parts
        cases hl : clk c (n.map tolower) with
        | none => exact hi
        | some x => exact ih hn' x _ (hc x ((clk_some _ hu _ _).mp hl).1) hi hget
      · cases m with
        | newtree u =>
          have := listed_spec u (fun t ht => hg.parts.2.2.2.1 t (by rw [ht]; rfl)) (n :: ns)
          have e : iterLoop I b key (.node k (.newtree u) c) (segs (n :: ns) d) = some (listed (u.bind fun u => findP u (fold (n :: ns)))) := by
            rw [es, iterLoop]
            simp only [CTree.mode]
            cases u with
            | none => rfl
            | some u =>
              simp only [Option.bind_some]
              rw [← es, segs, findLoop_ones _ _ _ hn]
          rw [e]
          simp only [den_newtree]
          exact this
        | newvalue v => exact absurd (fun t h => by cases h) hm
        | newnode => exact absurd (fun t h => by cases h) hm
        | blank => exact absurd (fun t h => by cases h) hm

end Tr
