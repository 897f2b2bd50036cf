import Verif.Lemmas.Notify
/- Lemmas for the generator that remembers what it was asked. -/
namespace Props.Rgt
open Wv Wv.Reget Spec.Conf Spec.Walk
open Wv.Key (fold Names mk)
open Wv.TempGen (Value Delta ones)

/-- The node with the given name. -/
def lk (c : List Tree) (m : List Byte) : Option Tree := c.find? fun x => decide (fold x.key = [m])

/-- What is remembered at a place: nothing, or a value, which may be null. -/
def look : Tree → Place → Option (Option Value)
  | t, [] => some t.value
  | t, n :: q => match lk t.children n with
    | none => none
    | some c => look c q

theorem lookup_eq (c : List Tree) (n : Seg) : lookup c [n] = lk c (n.map tolower) := by
  unfold lookup lk
  congr 1
  funext x
  rw [Bool.eq_iff_iff, Key.eq_iff, decide_eq_true_iff]
  simp [fold, eq_comm]

theorem look_cons (t : Tree) (n : List Byte) (q : Place) : look t (n :: q) = (lk t.children n).bind fun c => look c q := by
  rw [look]; cases lk t.children n <;> rfl

theorem look_nil (t : Tree) : look t [] = some t.value := by rw [look]

theorem findLoop_look (ns : List Seg) (h : Names ns) : ∀ t : Tree, (findLoop t (ones ns)).map Tree.value = look t (fold ns) := by
  induction ns with
  | nil => intro t; simp [ones, findLoop, fold, look]
  | cons n ns ih =>
    intro t
    have eo : ones (n :: ns) = [n] :: ones ns := rfl
    have ef : fold (n :: ns) = n.map tolower :: fold ns := rfl
    have he : Key.isempty [n] = false := rfl
    rw [eo, ef, look_cons, ← lookup_eq, findLoop, findchild, he]
    cases hl : lookup t.children [n] with
    | none => simp
    | some c => simpa using ih (fun x hx => h x (by simp [hx])) c

theorem segments_names (ns : List Seg) (h : Names ns) : TempGen.segments ns = ones ns := by
  have := TempGen.segments_mk ns false h; simpa [mk] using this

theorem find_look (ns : List Seg) (h : Names ns) (t : Tree) : (find t ns).map Tree.value = look t (fold ns) := by
  rw [find, segments_names ns h]; exact findLoop_look ns h t

theorem lk_replace (c : List Tree) (n : Seg) (t : Tree) (ht : fold t.key = [n.map tolower]) (hs : (lk c (n.map tolower)).isSome)
    (m : List Byte) : lk (replace c [n] t) m = if m = n.map tolower then some t else lk c m := by
  induction c with
  | nil => simp [lk] at hs
  | cons x c ih =>
    rw [replace]
    by_cases h : Key.eq [n] x.key = true
    · rw [if_pos h]
      have hx : fold x.key = [n.map tolower] := ((Key.eq_iff _ _).mp h).symm
      unfold lk
      rw [List.find?_cons, List.find?_cons, ht, hx]
      by_cases hm : m = n.map tolower
      · subst hm; simp
      · have : ¬ (n.map tolower = m) := fun h => hm h.symm
        simp [hm, this]
    · rw [if_neg h]
      have hx : ¬ (fold x.key = [n.map tolower]) := fun h' => h ((Key.eq_iff _ _).mpr h'.symm)
      have hs' : (lk c (n.map tolower)).isSome := by
        unfold lk at hs ⊢; rw [List.find?_cons] at hs; simpa [hx] using hs
      have ih := ih hs'
      unfold lk at ih ⊢
      rw [List.find?_cons, List.find?_cons]
      by_cases hm : m = n.map tolower
      · subst hm; simpa [hx] using ih
      · simp only [hm, if_false] at ih ⊢
        split <;> simp_all

theorem lk_key {c : List Tree} {m : List Byte} {x : Tree} (h : lk c m = some x) : fold x.key = [m] := by
  simpa using List.find?_some (p := fun x : Tree => decide (fold x.key = [m])) h

/-- Changing a node changes what is at and below its place. -/
theorem change_look (f : Tree → Tree) (hf : ∀ t, (f t).key = t.key) (ns : List Seg) (h : Names ns) : ∀ (t : Tree),
    (changeLoop f t (ones ns)).key = t.key ∧
    (∀ q, ¬ fold ns <+: q → look (changeLoop f t (ones ns)) q = look t q) ∧
    ∀ r, look (changeLoop f t (ones ns)) (fold ns ++ r) = (findLoop t (ones ns)).bind fun u => look (f u) r := by
  induction ns with
  | nil =>
    intro t
    exact ⟨hf t, fun q hq => absurd (List.nil_prefix) hq, fun r => by simp [ones, changeLoop, fold, findLoop]⟩
  | cons n ns ih =>
    intro t
    obtain ⟨k0, v0, cs⟩ := t
    have eo : ones (n :: ns) = [n] :: ones ns := rfl
    have ef : fold (n :: ns) = n.map tolower :: fold ns := rfl
    have he : Key.isempty [n] = false := rfl
    rw [eo, ef]
    simp only [changeLoop, he, Bool.false_eq_true, if_false, findLoop, findchild, Tree.children]
    cases hl : lookup cs [n] with
    | none =>
      refine ⟨rfl, fun _ _ => rfl, fun r => ?_⟩
      rw [List.cons_append, look_cons, ← lookup_eq]
      simp [Tree.children, hl]
    | some c =>
      obtain ⟨i1, i2, i3⟩ := ih (fun x hx => h x (by simp [hx])) c
      have hlk : lk cs (n.map tolower) = some c := by rw [← lookup_eq]; exact hl
      have hrep := lk_replace cs n (changeLoop f c (ones ns)) (by rw [i1]; exact lk_key hlk) (by rw [hlk]; rfl)
      refine ⟨rfl, ?_, ?_⟩
      · intro q hq
        cases q with
        | nil => simp [look_nil, Tree.value]
        | cons m q =>
          rw [look_cons, look_cons]
          simp only [Tree.children, hrep]
          by_cases hm : m = n.map tolower
          · subst hm
            simp only [if_true, Option.bind_some, hlk]
            exact i2 q (fun hp => hq (List.cons_prefix_cons.mpr ⟨rfl, hp⟩))
          · simp [hm]
      · intro r
        rw [List.cons_append, look_cons]
        simp only [Tree.children, hrep, if_true, Option.bind_some]
        exact i3 r

theorem look_bind : ∀ (ns : List Seg), Names ns → ∀ (t : Tree) r, look t (fold ns ++ r) = (findLoop t (ones ns)).bind fun u => look u r := by
  intro ns
  induction ns with
  | nil => intro _ t r; simp [ones, fold, findLoop]
  | cons n ns ih =>
    intro h t r
    have eo : ones (n :: ns) = [n] :: ones ns := rfl
    have ef : fold (n :: ns) = n.map tolower :: fold ns := rfl
    have he : Key.isempty [n] = false := rfl
    rw [eo, ef, List.cons_append, look_cons, ← lookup_eq, findLoop, findchild, he]
    cases lookup t.children [n] with
    | none => simp
    | some c => simpa using ih (fun x hx => h x (by simp [hx])) c r

theorem setvalue_look (ns : List Seg) (h : Names ns) (v : Option Value) (t : Tree) (q : Place) :
    look (change (setvalue v) t ns) q = if q = fold ns ∧ (look t q).isSome then some v else look t q := by
  obtain ⟨-, h2, h3⟩ := change_look (setvalue v) (fun t => by cases t; rfl) ns h t
  rw [change, segments_names ns h]
  by_cases hp : fold ns <+: q
  · obtain ⟨r, rfl⟩ := hp
    rw [h3 r, look_bind ns h t r]
    cases hf : findLoop t (ones ns) with
    | none => simp
    | some u =>
      obtain ⟨k, w, c⟩ := u
      simp only [Option.bind_some]
      cases r with
      | nil => simp [look_nil, setvalue, Tree.value]
      | cons m r => simp [look_cons, setvalue, Tree.children]
  · rw [h2 q hp, if_neg]
    rintro ⟨rfl, -⟩
    exact hp (List.prefix_refl _)

theorem addchild_look (ps : List Seg) (n : Seg) (h : Names ps) (hn : n ≠ [] ∧ Spec.Path.slash ∉ n) (v : Option Value) (t : Tree)
    (hp : (look t (fold ps)).isSome) (hq : look t (fold (ps ++ [n])) = none) (q : Place) :
    look (change (addchild [n] v) t ps) q = if q = fold (ps ++ [n]) then some v else look t q := by
  obtain ⟨-, h2, h3⟩ := change_look (addchild [n] v) (fun t => by cases t; rfl) ps h t
  rw [change, segments_names ps h]
  have ef : fold (ps ++ [n]) = fold ps ++ [n.map tolower] := by simp [fold]
  rw [ef] at hq ⊢
  rw [look_bind ps h] at hq
  have hp' : (findLoop t (ones ps)).isSome := by rw [← findLoop_look ps h] at hp; simpa using hp
  obtain ⟨u, hu⟩ := Option.isSome_iff_exists.mp hp'
  rw [hu] at hq
  obtain ⟨k, w, c⟩ := u
  have hq' : lk c (n.map tolower) = none := by
    simp only [Option.bind_some, look_cons, Tree.children] at hq
    cases hl : lk c (n.map tolower) with
    | none => rfl
    | some x => rw [hl] at hq; simp [look_nil] at hq
  by_cases hpre : fold ps <+: q
  · obtain ⟨r, rfl⟩ := hpre
    rw [h3 r, look_bind ps h, hu]
    simp only [Option.bind_some, addchild]
    cases r with
    | nil => simp [look_nil, Tree.value]
    | cons m r =>
      rw [look_cons, look_cons]
      simp only [Tree.children]
      have hap : lk (c ++ [.node [n] v []]) m = if m = n.map tolower then some (.node [n] v []) else lk c m := by
        unfold lk at hq' ⊢
        rw [List.find?_append]
        by_cases hm : m = n.map tolower
        · subst hm; rw [hq']; simp [fold, Tree.key]
        · have : ¬ (n.map tolower = m) := fun h => hm h.symm
          simp [hm, fold, Tree.key, this]
      rw [hap]
      by_cases hm : m = n.map tolower
      · subst hm
        rw [hq']
        simp only [if_true, Option.bind_some, Option.bind_none]
        cases r with
        | nil => simp [look_nil, Tree.value]
        | cons m' r => rw [look_cons]; simp [Tree.children, lk]
      · simp [hm]
  · rw [h2 q hpre, if_neg]
    rintro rfl
    exact hpre (List.prefix_append _ _)

end Props.Rgt
