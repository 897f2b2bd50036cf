import Verif.Lemmas.Gen
import Verif.Model.TransGen
/- Helper lemmas for C28: what a tree of changes means. -/
namespace Tr
open Wv Wv.TempGen Wv.TransGen Spec.Conf
open Wv.Key (fold Names)
open Spec.Path (slash)

/-! ### Children -/

def clow (t : CTree) : Place := fold t.key
def CUniq (c : List CTree) : Prop := (c.map clow).Nodup
def clk (c : List CTree) (m : List Byte) : Option CTree := c.find? fun x => decide (clow x = [m])

theorem clookup_eq (c : List CTree) (n : Seg) : clookup c [n] = clk c (n.map tolower) := by
  unfold clookup clk
  congr 1
  funext x
  rw [Bool.eq_iff_iff, Key.eq_iff, decide_eq_true_iff]
  simp [fold, clow, eq_comm]

theorem clk_some (c : List CTree) (h : CUniq c) (m : List Byte) (x : CTree) : clk c m = some x ↔ x ∈ c ∧ clow x = [m] := by
  induction c with
  | nil => simp [clk]
  | cons y c ih =>
    have hn := List.nodup_cons.mp (show (clow y :: c.map clow).Nodup from h)
    have ih := ih hn.2
    unfold clk at ih ⊢
    rw [List.find?_cons]
    by_cases hy : clow y = [m]
    · simp only [hy, decide_true]
      constructor
      · rintro ⟨⟩; simp [hy]
      · rintro ⟨hx, hx'⟩
        rcases List.mem_cons.mp hx with rfl | hx
        · rfl
        · exact absurd (List.mem_map.mpr ⟨x, hx, hx'.trans hy.symm⟩) hn.1
    · simp only [hy, decide_false, ih, List.mem_cons]
      constructor
      · rintro ⟨h1, h2⟩; exact ⟨Or.inr h1, h2⟩
      · rintro ⟨rfl | h1, h2⟩
        · exact absurd h2 hy
        · exact ⟨h1, h2⟩

theorem clk_none (c : List CTree) (m : List Byte) : clk c m = none ↔ ∀ x ∈ c, clow x ≠ [m] := by simp [clk]

theorem CUniq.perm {a b : List CTree} (h : CUniq a) (p : b.Perm a) : CUniq b := (p.map clow).nodup_iff.mpr h

theorem clk_perm (a b : List CTree) (h : CUniq a) (p : b.Perm a) (m : List Byte) : clk b m = clk a m := by
  apply Option.ext
  intro x
  rw [clk_some _ (h.perm p), clk_some _ h, p.mem_iff]

theorem clk_append (c : List CTree) (t : CTree) (m : List Byte) (h : clk c m = none) (ht : clow t = [m]) (m' : List Byte) :
    clk (c ++ [t]) m' = if m' = m then some t else clk c m' := by
  unfold clk at *
  rw [List.find?_append]
  by_cases hm : m' = m
  · subst hm; rw [h]; simp [ht]
  · have : ¬ (clow t = [m']) := by rw [ht]; simpa using fun h => hm h.symm
    simp [hm, this]

theorem CUniq.append {c : List CTree} {t : CTree} {m : List Byte} (h : CUniq c) (hm : clk c m = none) (ht : clow t = [m]) :
    CUniq (c ++ [t]) := by
  unfold CUniq at *
  rw [List.map_append]
  refine List.nodup_append.mpr ⟨h, by simp, ?_⟩
  intro a ha b hb
  simp only [List.map_cons, List.map_nil, List.mem_singleton] at hb
  obtain ⟨x, hx, rfl⟩ := List.mem_map.mp ha
  rw [hb, ht]
  exact (clk_none c m).mp hm x hx

theorem creplace_low (c : List CTree) (n : Seg) (t : CTree) (ht : clow t = [n.map tolower]) :
    (creplace c [n] t).map clow = c.map clow := by
  induction c with
  | nil => rfl
  | cons x c ih =>
    rw [creplace]
    by_cases h : Key.eq [n] x.key = true
    · rw [if_pos h]
      have := (Key.eq_iff _ _).mp h
      simp only [List.map_cons, List.cons.injEq, and_true]
      rw [ht]
      exact this
    · rw [if_neg h]; simp [ih]

theorem mem_creplace (c : List CTree) (k : Key) (t x : CTree) (h : x ∈ creplace c k t) : x = t ∨ x ∈ c := by
  induction c with
  | nil => simp [creplace] at h
  | cons y c ih =>
    rw [creplace] at h
    split at h
    · rcases List.mem_cons.mp h with h | h
      · exact Or.inl h
      · exact Or.inr (by simp [h])
    · rcases List.mem_cons.mp h with h | h
      · exact Or.inr (by simp [h])
      · rcases ih h with h | h
        · exact Or.inl h
        · exact Or.inr (by simp [h])

theorem clk_creplace (c : List CTree) (n : Seg) (t : CTree) (ht : clow t = [n.map tolower]) (hs : (clk c (n.map tolower)).isSome)
    (m : List Byte) : clk (creplace c [n] t) m = if m = n.map tolower then some t else clk c m := by
  induction c with
  | nil => simp [clk] at hs
  | cons x c ih =>
    rw [creplace]
    by_cases h : Key.eq [n] x.key = true
    · rw [if_pos h]
      have hx : clow x = [n.map tolower] := ((Key.eq_iff _ _).mp h).symm
      unfold clk
      rw [List.find?_cons, List.find?_cons, ht, hx]
      by_cases hm : m = n.map tolower
      · subst hm; simp
      · have : ¬ (n.map tolower = m) := fun h => hm h.symm
        simp [hm, this]
    · rw [if_neg h]
      have hx : ¬ (clow x = [n.map tolower]) := fun h' => h ((Key.eq_iff _ _).mpr h'.symm)
      have hs' : (clk c (n.map tolower)).isSome := by
        unfold clk at hs ⊢; rw [List.find?_cons] at hs; simpa [hx] using hs
      have ih := ih hs'
      unfold clk at ih ⊢
      rw [List.find?_cons, List.find?_cons]
      by_cases hm : m = n.map tolower
      · subst hm; simpa [hx] using ih
      · simp only [hm, if_false] at ih ⊢
        split <;> simp_all

/-! ### What is changed -/

/-- A call of `set` at a place. -/
def change (m : State) (p : Place) : Option Value → State
  | some v => setAt m p v
  | none => fun q => if p <+: q then none else m q

/-- What is below a name. -/
def sub (m : State) (n : List Byte) : State := fun q => m (n :: q)

theorem change_nil_cons (m : State) (v : Value) (n : List Byte) (q : Place) : change m [] (some v) (n :: q) = m (n :: q) := by
  simp [change, setAt]

theorem change_cons (m : State) (n : List Byte) (p : Place) (v : Option Value) (n' : List Byte) (q : Place) :
    change m (n :: p) v (n' :: q) = if n' = n then change (sub m n) p v q else m (n' :: q) := by
  cases v with
  | none =>
    simp only [change, prefix_cons_iff, sub]
    by_cases h : n' = n
    · subst h; simp
    · have : ¬ n = n' := fun e => h e.symm
      simp [h, this]
  | some v =>
    simp only [change, setAt, List.cons.injEq, prefix_cons_iff, sub]
    by_cases h : n' = n
    · subst h; simp
    · simp [h]

theorem change_cons_nil (m : State) (n : List Byte) (p : Place) (v : Option Value) :
    change m (n :: p) v [] = if v.isSome then some ((m []).getD []) else m [] := by
  cases v <;> simp [change, setAt]

/-- The value of a node with changes. -/
def top : Mode → Option Value → Option Value
  | .newvalue v, _ => some v
  | .newnode, o => some (o.getD [])
  | _, o => o

mutual
/-- What a tree of changes makes of a configuration. -/
def den : CTree → State → State
  | .node _ (.newtree t) _, _ => TempGen.abs t
  | .node _ m c, σ => fun q => match q with
    | [] => top m (σ [])
    | n :: q => denAll c n (sub σ n) q
def denAll : List CTree → List Byte → State → State
  | [], _, σ => σ
  | .node k m c :: r, n, σ => if fold k = [n] then den (.node k m c) σ else denAll r n σ
end

theorem denAll_eq (c : List CTree) (n : List Byte) (σ : State) :
    denAll c n σ = match clk c n with | none => σ | some x => den x σ := by
  induction c with
  | nil => rw [denAll]; rfl
  | cons x c ih =>
    cases x with
    | node k m c' =>
      rw [denAll]
      unfold clk at ih ⊢
      rw [List.find?_cons]
      by_cases h : fold k = [n]
      · have : decide (clow (.node k m c') = [n]) = true := decide_eq_true h
        rw [if_pos h, this]
      · have : decide (clow (.node k m c') = [n]) = false := decide_eq_false h
        rw [if_neg h, this]
        exact ih

theorem den_newtree (k : Key) (t : Option Tree) (c : List CTree) (σ : State) : den (.node k (.newtree t) c) σ = TempGen.abs t := by
  rw [den]

/-- A mode that is not a whole tree. -/
def Part (m : Mode) : Prop := ∀ t, m ≠ .newtree t

theorem den_nil (k : Key) (m : Mode) (hm : Part m) (c : List CTree) (σ : State) : den (.node k m c) σ [] = top m (σ []) := by
  cases m with
  | newtree t => exact absurd rfl (hm t)
  | _ => rw [den]; intro t h; cases h

theorem den_cons (k : Key) (m : Mode) (hm : Part m) (c : List CTree) (σ : State) (n : List Byte) (q : Place) :
    den (.node k m c) σ (n :: q) = match clk c n with | none => σ (n :: q) | some x => den x (sub σ n) q := by
  have h : den (.node k m c) σ (n :: q) = denAll c n (sub σ n) q := by
    cases m with
    | newtree t => exact absurd rfl (hm t)
    | _ => rw [den]; intro t h; cases h
  rw [h, denAll_eq]
  cases clk c n <;> rfl

/-! ### Trees of changes -/

/-- A node that changes nothing itself or deletes all. -/
def Quiet : Mode → Prop
  | .newtree none => True
  | .blank => True
  | _ => False

inductive CGood : CTree → Prop
  | node (k : Key) (m : Mode) (c : List CTree) (hk : ∀ x ∈ c, ∃ n : Seg, x.key = [n] ∧ n ≠ [] ∧ slash ∉ n) (hu : CUniq c)
    (hc : ∀ x ∈ c, CGood x) (ht : ∀ t, m = .newtree (some t) → Good t) (hb : m = .blank → ∀ x ∈ c, Quiet x.mode) :
    CGood (.node k m c)

theorem CGood.parts {t : CTree} (h : CGood t) : (∀ x ∈ t.children, ∃ n : Seg, x.key = [n] ∧ n ≠ [] ∧ slash ∉ n) ∧
    CUniq t.children ∧ (∀ x ∈ t.children, CGood x) ∧ (∀ u, t.mode = .newtree (some u) → Good u) ∧
    (t.mode = .blank → ∀ x ∈ t.children, Quiet x.mode) := by
  cases h; exact ⟨‹_›, ‹_›, ‹_›, ‹_›, ‹_›⟩

theorem ones_cons (n : Seg) (ns : List Seg) : ones (n :: ns) = [n] :: ones ns := rfl
theorem fold_cons (n : Seg) (ns : List Seg) : fold (n :: ns) = n.map tolower :: fold ns := rfl

/-! ### Whole trees -/

theorem createValue_spec (v : Value) (ns : List Seg) (hn : Names ns) : ∀ prev : Key,
    Good (createValue v prev (ones ns)) ∧ (createValue v prev (ones ns)).key = prev ∧
    ∀ q, look (createValue v prev (ones ns)) q = setAt Spec.Conf.empty (fold ns) v q := by
  induction ns with
  | nil =>
    intro prev
    refine ⟨.of ⟨by simp [ones, createValue, Tree.children], by simp [ones, createValue, Tree.children, Uniq], by simp [ones, createValue, Tree.children]⟩, rfl, ?_⟩
    intro q
    cases q with
    | nil => rfl
    | cons m q =>
      rw [look_cons]
      simp [ones, createValue, Tree.children, lk, setAt, fold, Spec.Conf.empty]
  | cons n ns ih =>
    intro prev
    have hnn := hn n (by simp)
    obtain ⟨h1, h2, h3⟩ := ih (fun x hx => hn x (by simp [hx])) [n]
    rw [ones_cons, createValue]
    have hlow : low (createValue v [n] (ones ns)) = [n.map tolower] := by rw [low, h2]; rfl
    refine ⟨.of ⟨?_, by simp [Tree.children, Uniq], ?_⟩, rfl, ?_⟩
    · intro x hx
      simp only [children_node, List.mem_singleton] at hx
      subst hx
      exact ⟨n, h2, hnn.1, hnn.2⟩
    · intro x hx
      simp only [children_node, List.mem_singleton] at hx
      subst hx
      exact h1
    · intro q
      cases q with
      | nil => simp [look_nil, Tree.value, setAt, fold, Spec.Conf.empty]
      | cons m q =>
        rw [look_cons, fold_cons]
        have := change_cons Spec.Conf.empty (n.map tolower) (fold ns) (some v) m q
        simp only [change] at this
        rw [this]
        simp only [children_node]
        by_cases hm : m = n.map tolower
        · subst hm
          have : lk [createValue v [n] (ones ns)] (n.map tolower) = some (createValue v [n] (ones ns)) := by simp [lk, hlow]
          rw [this, if_pos rfl]
          simp only [Option.bind_some, h3]
          rfl
        · have : lk [createValue v [n] (ones ns)] m = none := by
            rw [lk_none]
            intro x hx
            simp only [List.mem_singleton] at hx
            subst hx
            rw [hlow]
            simpa using fun h => hm h.symm
          rw [this, if_neg hm]
          rfl

theorem setExisting_spec (ordv : List Tree → List Tree) (ho : ∀ l, (ordv l).Perm l) (v : Value) (ns : List Seg) (hn : Names ns) :
    ∀ t : Tree, Good t → Good (setExisting ordv v t (ones ns)) ∧ (setExisting ordv v t (ones ns)).key = t.key ∧
    ∀ q, look (setExisting ordv v t (ones ns)) q = setAt (look t) (fold ns) v q := by
  induction ns with
  | nil =>
    intro t ht
    refine ⟨.of ht.parts, rfl, ?_⟩
    intro q
    cases q with
    | nil => rfl
    | cons m q =>
      simp [ones, setExisting, look_cons, Tree.children, setAt, fold]
  | cons n ns ih =>
    intro t ht
    have hn' : Names ns := fun x hx => hn x (by simp [hx])
    have hnn := hn n (by simp)
    obtain ⟨hk, hu, hc⟩ := ht.parts
    rw [ones_cons, setExisting, if_neg (by simp [Key.isempty]), lookup_eq]
    -- given the children afterwards
    have key : ∀ (co : Option Tree) (r : Tree) (cs : List Tree), lk t.children (n.map tolower) = co →
        (∀ q, look r q = setAt (TempGen.abs co) (fold ns) v q) →
        (∀ m, lk cs m = if m = n.map tolower then some r else lk t.children m) →
        ∀ q, look (.node t.key t.value cs) q = setAt (look t) (fold (n :: ns)) v q := by
      intro co r cs hco hr hlk q
      cases q with
      | nil => simp [look_nil, Tree.value, setAt, fold]
      | cons m q =>
        have := change_cons (look t) (n.map tolower) (fold ns) (some v) m q
        simp only [change] at this
        rw [fold_cons, this, look_cons]
        simp only [children_node, hlk]
        by_cases hm : m = n.map tolower
        · subst hm
          rw [if_pos rfl, if_pos rfl]
          simp only [Option.bind_some, hr]
          have e : TempGen.abs co = sub (look t) (n.map tolower) := by
            funext q
            rw [sub, look_cons, hco]
            cases co <;> rfl
          rw [e]
        · rw [if_neg hm, if_neg hm, look_cons]
    cases hl : lk t.children (n.map tolower) with
    | none =>
      obtain ⟨c1, c2, c3⟩ := createValue_spec v ns hn' [n]
      have hlow : low (createValue v [n] (ones ns)) = [n.map tolower] := by rw [low, c2]; rfl
      have hu2 := hu.append hl hlow
      refine ⟨.of ⟨?_, hu2.perm (ho _), ?_⟩, rfl, key _ (createValue v [n] (ones ns)) _ hl c3 ?_⟩
      · intro x hx
        have hx := (ho _).mem_iff.mp (show x ∈ ordv _ from hx)
        rcases List.mem_append.mp hx with hx | hx
        · exact hk x hx
        · simp only [List.mem_singleton] at hx
          subst hx
          exact ⟨n, c2, hnn.1, hnn.2⟩
      · intro x hx
        have hx := (ho _).mem_iff.mp (show x ∈ ordv _ from hx)
        rcases List.mem_append.mp hx with hx | hx
        · exact hc x hx
        · simp only [List.mem_singleton] at hx
          subst hx
          exact c1
      · intro m
        rw [lk_perm _ _ hu2 (ho _), lk_append _ _ _ hl hlow]
    | some x =>
      obtain ⟨hx1, hx2⟩ := (lk_some _ hu _ _).mp hl
      obtain ⟨s1, s2, s3⟩ := ih hn' x (hc x hx1)
      have hlow : low (setExisting ordv v x (ones ns)) = [n.map tolower] := by rw [low, s2]; exact hx2
      refine ⟨.of ⟨?_, ?_, ?_⟩, rfl, key _ (setExisting ordv v x (ones ns)) _ hl s3 ?_⟩
      · intro y hy
        rcases mem_replace _ _ _ _ hy with rfl | hy
        · obtain ⟨n', h⟩ := hk x hx1
          exact ⟨n', by rw [s2]; exact h.1, h.2⟩
        · exact hk y hy
      · show (List.map low (replace t.children [n] _)).Nodup
        rw [replace_low _ _ _ hlow]
        exact hu
      · intro y hy
        rcases mem_replace _ _ _ _ hy with rfl | hy
        · exact s1
        · exact hc y hy
      · intro m
        exact lk_replace _ _ _ hlow (by rw [hl]; rfl) m

theorem setValue_spec (ordv : List Tree → List Tree) (ho : ∀ l, (ordv l).Perm l) (value : Option Value) (prev : Key)
    (t : Option Tree) (ns : List Seg) (hn : Names ns) (ht : ∀ u, t = some u → Good u) :
    (∀ u, setValue ordv value prev t (ones ns) = some u → Good u) ∧
    (∀ q, TempGen.abs (setValue ordv value prev t (ones ns)) q = change (TempGen.abs t) (fold ns) value q) ∧
    (value = none → t = none → setValue ordv value prev t (ones ns) = none) := by
  cases value with
  | none =>
    cases t with
    | none =>
      refine ⟨by simp [setValue], ?_, fun _ _ => rfl⟩
      intro q
      simp [setValue, TempGen.abs, change, Spec.Conf.empty]
    | some t =>
      have hs := removeLoop_spec ordv ho ns hn [] t (by simp [Names]) (ht t rfl)
      have e : ones ([] : List Seg) = [] := rfl
      rw [e] at hs
      simp only [setValue]
      cases hr : removeLoop ordv [] t (ones ns) with
      | none =>
        rw [hr] at hs
        refine ⟨fun u hu => ht u hu, ?_, fun _ h => by cases h⟩
        intro q
        simp only [change]
        split
        · rename_i hp
          exact Props.Temp.look_prefix t _ q hs hp
        · rfl
      | some r =>
        obtain ⟨t', d⟩ := r
        rw [hr] at hs
        exact ⟨fun u hu => (hs.1 u hu).1, hs.2.1, fun _ h => by cases h⟩
  | some v =>
    cases t with
    | none =>
      obtain ⟨h1, h2, h3⟩ := createValue_spec v ns hn prev
      refine ⟨?_, h3, fun h => by cases h⟩
      rintro u ⟨⟩
      exact h1
    | some t =>
      obtain ⟨h1, h2, h3⟩ := setExisting_spec ordv ho v ns hn t (ht t rfl)
      refine ⟨?_, h3, fun h => by cases h⟩
      rintro u ⟨⟩
      exact h1

/-! ### Changes -/

theorem createChange_spec (value : Option Value) (ns : List Seg) (hn : Names ns) : ∀ prev : Key,
    CGood (createChange value prev (ones ns)) ∧ (createChange value prev (ones ns)).key = prev ∧
    (value = none → Quiet (createChange value prev (ones ns)).mode) ∧
    ∀ σ q, den (createChange value prev (ones ns)) σ q = change σ (fold ns) value q := by
  induction ns with
  | nil =>
    intro prev
    cases value with
    | none =>
      refine ⟨?_, rfl, fun _ => trivial, ?_⟩
      · exact .node _ _ _ (by simp) (by simp [CUniq]) (by simp) (by simp) (by simp)
      · intro σ q
        show den (.node prev (.newtree none) []) σ q = _
        rw [den_newtree]
        simp [TempGen.abs, change, fold, Spec.Conf.empty]
    | some v =>
      refine ⟨?_, rfl, (fun h => by cases h), ?_⟩
      · exact .node _ _ _ (by simp) (by simp [CUniq]) (by simp) (by simp) (by simp)
      · intro σ q
        show den (.node prev (.newvalue v) []) σ q = _
        have hp : Part (.newvalue v) := by intro t h; cases h
        cases q with
        | nil => rw [den_nil _ _ hp]; rfl
        | cons m q => rw [den_cons _ _ hp]; simp [clk, change, setAt, fold]
  | cons n ns ih =>
    intro prev
    have hnn := hn n (by simp)
    obtain ⟨h1, h2, h3, h4⟩ := ih (fun x hx => hn x (by simp [hx])) [n]
    rw [ones_cons, createChange]
    have hlow : clow (createChange value [n] (ones ns)) = [n.map tolower] := by rw [clow, h2]; rfl
    have hp : Part (if value.isSome then Mode.newnode else Mode.blank) := by intro t; split <;> simp
    refine ⟨.node _ _ _ ?_ (by simp [CUniq]) ?_ ?_ ?_, rfl, ?_, ?_⟩
    · intro x hx
      simp only [List.mem_singleton] at hx
      subst hx
      exact ⟨n, h2, hnn.1, hnn.2⟩
    · intro x hx
      simp only [List.mem_singleton] at hx
      subst hx
      exact h1
    · intro t h
      exact absurd h (hp _)
    · intro h x hx
      simp only [List.mem_singleton] at hx
      subst hx
      cases value with
      | none => exact h3 rfl
      | some v => simp at h
    · rintro rfl
      trivial
    · intro σ q
      cases q with
      | nil =>
        rw [den_nil _ _ hp, fold_cons, change_cons_nil]
        cases value <;> rfl
      | cons m q =>
        rw [den_cons _ _ hp, fold_cons, change_cons]
        by_cases hm : m = n.map tolower
        · subst hm
          have : clk [createChange value [n] (ones ns)] (n.map tolower) = some (createChange value [n] (ones ns)) := by
            simp [clk, hlow]
          rw [this, if_pos rfl]
          exact h4 _ q
        · have : clk [createChange value [n] (ones ns)] m = none := by
            rw [clk_none]
            intro x hx
            simp only [List.mem_singleton] at hx
            subst hx
            rw [hlow]
            simpa using fun h => hm h.symm
          rw [this, if_neg hm]

/-- The mode of a node on the way. -/
def pass (m : Mode) (value : Option Value) : Mode := match m, value with | .blank, some _ => .newnode | m, _ => m

theorem top_pass (m : Mode) (hm : Part m) (value : Option Value) (o : Option Value) :
    top (pass m value) o = if value.isSome then some ((top m o).getD []) else top m o := by
  cases m with
  | newtree t => exact absurd rfl (hm t)
  | _ => cases value <;> simp [pass, top]

theorem setChange_nil (ord : List CTree → List CTree) (ordv : List Tree → List Tree) (value : Option Value) (prev k : Key)
    (m : Mode) (hm : Part m) (c : List CTree) : setChange ord ordv false value prev (.node k m c) (ones []) =
      match value with | none => .node k (.newtree none) [] | some v => .node k (.newvalue v) c := by
  cases m with
  | newtree t => exact absurd rfl (hm t)
  | _ => rfl

theorem setChange_spec (ord : List CTree → List CTree) (ordv : List Tree → List Tree) (ho : ∀ l, (ord l).Perm l)
    (hov : ∀ l, (ordv l).Perm l) (value : Option Value) (ns : List Seg) (hn : Names ns) : ∀ (prev : Key) (t : CTree), CGood t →
    CGood (setChange ord ordv false value prev t (ones ns)) ∧ (setChange ord ordv false value prev t (ones ns)).key = t.key ∧
    (value = none → Quiet t.mode → Quiet (setChange ord ordv false value prev t (ones ns)).mode) ∧
    ∀ σ q, den (setChange ord ordv false value prev t (ones ns)) σ q = change (den t σ) (fold ns) value q := by
  -- whole trees
  have whole : ∀ (ns : List Seg), Names ns → ∀ (prev k : Key) (u : Option Tree) (c : List CTree), CGood (.node k (.newtree u) c) →
      CGood (.node k (.newtree (setValue ordv value prev u (ones ns))) c) ∧
      (value = none → Quiet (.newtree u) → Quiet (.newtree (setValue ordv value prev u (ones ns)))) ∧
      ∀ σ q, den (.node k (.newtree (setValue ordv value prev u (ones ns))) c) σ q =
        change (den (.node k (.newtree u) c) σ) (fold ns) value q := by
    intro ns hn prev k u c hg
    obtain ⟨h1, h2, h3, h4, h5⟩ := hg.parts
    obtain ⟨s1, s2, s3⟩ := setValue_spec ordv hov value prev u ns hn (by rintro x rfl; exact h4 x rfl)
    refine ⟨.node _ _ _ h1 h2 h3 ?_ (by intro h; cases h), ?_, ?_⟩
    · intro t ht
      simp only [Mode.newtree.injEq] at ht
      exact s1 t ht
    · intro hv hq
      cases u with
      | none => rw [s3 hv rfl]; trivial
      | some u => exact absurd hq (by simp [Quiet])
    · intro σ q
      rw [den_newtree, den_newtree]
      exact s2 q
  induction ns with
  | nil =>
    intro prev t hg
    cases t with
    | node k m c =>
      obtain ⟨h1, h2, h3, h4, h5⟩ := hg.parts
      by_cases hm : Part m
      · rw [setChange_nil ord ordv value prev k m hm c]
        clear whole
        cases value with
        | none =>
          refine ⟨.node _ _ _ (by simp) (by simp [CUniq]) (by simp) (by simp) (by simp), rfl, fun _ _ => trivial, ?_⟩
          intro σ q
          rw [den_newtree]
          simp [change, fold, TempGen.abs, Spec.Conf.empty]
        | some v =>
          refine ⟨.node _ _ _ h1 h2 h3 (by simp) (by simp), rfl, (fun h => by cases h), ?_⟩
          intro σ q
          have hp : Part (.newvalue v) := by intro t h; cases h
          cases q with
          | nil => rw [den_nil _ _ hp]; rfl
          | cons n q =>
            rw [den_cons _ _ hp]
            show _ = change _ [] _ _
            rw [change_nil_cons, den_cons _ _ hm]
      · cases m with
        | newtree u =>
          obtain ⟨w1, w2, w3⟩ := whole [] hn prev k u c hg
          exact ⟨w1, rfl, w2, w3⟩
        | newvalue v => exact absurd (fun t h => by cases h) hm
        | newnode => exact absurd (fun t h => by cases h) hm
        | blank => exact absurd (fun t h => by cases h) hm
  | cons n ns ih =>
    intro prev t hg
    have hn' : Names ns := fun x hx => hn x (by simp [hx])
    have hnn := hn n (by simp)
    cases t with
    | node k m c =>
      obtain ⟨h1, h2, h3, h4, h5⟩ := hg.parts
      by_cases hm : Part m
      · have hpp : Part (pass m value) := by
          intro t
          cases m with
          | newtree u => exact absurd rfl (hm u)
          | _ => cases value <;> simp [pass]
        have e : setChange ord ordv false value prev (.node k m c) (ones (n :: ns)) =
            match clk c (n.map tolower) with
            | none => .node k (pass m value) (ord (c ++ [createChange value [n] (ones ns)]))
            | some x => .node k (pass m value) (creplace c [n] (setChange ord ordv false value [n] x (ones ns))) := by
          rw [← clookup_eq, ones_cons, setChange]
          have hi : Key.isempty [n] = false := rfl
          cases m with
          | newtree t => exact absurd rfl (hm t)
          | _ => simp only [CTree.mode, CTree.children, CTree.key, hi, Bool.false_and, Bool.false_eq_true, if_false]; rfl
        have key : ∀ (r : CTree) (cs : List CTree), (∀ σ q, den r σ q = change (match clk c (n.map tolower) with | none => σ | some x => den x σ) (fold ns) value q) →
            (∀ m', clk cs m' = if m' = n.map tolower then some r else clk c m') →
            ∀ σ q, den (.node k (pass m value) cs) σ q = change (den (.node k m c) σ) (fold (n :: ns)) value q := by
          intro r cs hr hlk σ q
          cases q with
          | nil =>
            rw [den_nil _ _ hpp, fold_cons, change_cons_nil, den_nil _ _ hm, top_pass m hm]
          | cons m' q =>
            rw [den_cons _ _ hpp, fold_cons, change_cons, hlk]
            by_cases hmm : m' = n.map tolower
            · subst hmm
              rw [if_pos rfl, if_pos rfl]
              simp only [hr]
              have e : (match clk c (n.map tolower) with | none => sub σ (n.map tolower) | some x => den x (sub σ (n.map tolower))) =
                  sub (den (.node k m c) σ) (n.map tolower) := by
                funext q
                rw [sub, den_cons _ _ hm]
                cases clk c (n.map tolower) <;> rfl
              rw [e]
            · rw [if_neg hmm, if_neg hmm, den_cons _ _ hm]
        have hquiet : value = none → Quiet m → Quiet (pass m value) := by
          rintro rfl h
          cases m <;> exact h
        have hblank : pass m value = .blank → m = .blank ∧ value = none := by
          intro h
          cases m <;> cases value <;> simp [pass] at h ⊢
        rw [e]
        cases hl : clk c (n.map tolower) with
        | none =>
          obtain ⟨c1, c2, c3, c4⟩ := createChange_spec value ns hn' [n]
          have hlow : clow (createChange value [n] (ones ns)) = [n.map tolower] := by rw [clow, c2]; rfl
          have hu2 := CUniq.append h2 hl hlow
          refine ⟨.node _ _ _ ?_ (hu2.perm (ho _)) ?_ ?_ ?_, rfl, hquiet, key (createChange value [n] (ones ns)) _ ?_ ?_⟩
          · intro x hx
            have hx := (ho _).mem_iff.mp hx
            rcases List.mem_append.mp hx with hx | hx
            · exact h1 x hx
            · simp only [List.mem_singleton] at hx
              subst hx
              exact ⟨n, c2, hnn.1, hnn.2⟩
          · intro x hx
            have hx := (ho _).mem_iff.mp hx
            rcases List.mem_append.mp hx with hx | hx
            · exact h3 x hx
            · simp only [List.mem_singleton] at hx
              subst hx
              exact c1
          · intro t ht
            exact absurd ht (hpp _)
          · intro hb x hx
            obtain ⟨b1, b2⟩ := hblank hb
            have hx := (ho _).mem_iff.mp hx
            rcases List.mem_append.mp hx with hx | hx
            · exact h5 b1 x hx
            · simp only [List.mem_singleton] at hx
              subst hx
              exact c3 b2
          · intro σ q
            rw [hl]
            exact c4 σ q
          · intro m'
            rw [clk_perm (c ++ [createChange value [n] (ones ns)]) _ hu2 (ho _), clk_append _ _ _ hl hlow]
        | some x =>
          obtain ⟨hx1, hx2⟩ := (clk_some _ h2 _ _).mp hl
          obtain ⟨s1, s2, s3, s4⟩ := ih hn' [n] x (h3 x hx1)
          have hlow : clow (setChange ord ordv false value [n] x (ones ns)) = [n.map tolower] := by rw [clow, s2]; exact hx2
          refine ⟨.node _ _ _ ?_ ?_ ?_ ?_ ?_, rfl, hquiet, key (setChange ord ordv false value [n] x (ones ns)) _ ?_ ?_⟩
          · intro y hy
            rcases mem_creplace _ _ _ _ hy with rfl | hy
            · obtain ⟨n', h⟩ := h1 x hx1
              exact ⟨n', by rw [s2]; exact h.1, h.2⟩
            · exact h1 y hy
          · unfold CUniq
            rw [creplace_low _ _ _ hlow]
            exact h2
          · intro y hy
            rcases mem_creplace _ _ _ _ hy with rfl | hy
            · exact s1
            · exact h3 y hy
          · intro t ht
            exact absurd ht (hpp _)
          · intro hb y hy
            obtain ⟨b1, b2⟩ := hblank hb
            rcases mem_creplace _ _ _ _ hy with rfl | hy
            · exact s3 b2 (h5 b1 x hx1)
            · exact h5 b1 y hy
          · intro σ q
            rw [hl]
            exact s4 σ q
          · intro m'
            exact clk_creplace _ _ _ hlow (by rw [hl]; rfl) m'
      · cases m with
        | newtree u =>
          obtain ⟨w1, w2, w3⟩ := whole (n :: ns) hn prev k u c hg
          exact ⟨w1, rfl, w2, w3⟩
        | newvalue v => exact absurd (fun t h => by cases h) hm
        | newnode => exact absurd (fun t h => by cases h) hm
        | blank => exact absurd (fun t h => by cases h) hm

end Tr
