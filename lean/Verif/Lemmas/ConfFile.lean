import Verif.Spec.ConfFile
import Verif.Model.ConfFile
import Verif.Lemmas.KeyOrder
/-! Names, values and the search along "Inherits" in a `WvConf` (C72). -/
namespace Wv.ConfFile
open Spec.ConfFile (same Values Op chain Finds Lacks Trimmed)

/-! ## Names -/

theorem ci_iff (a b : Text) : ci a b = true ↔ same a b := by
  unfold ci same
  rw [beq_iff_eq]
  exact (Key.strcasecmp_lt a b).2.1

/-- In lower case. -/
def low (a : Text) : Text := a.map tolower

theorem ci_eq (a b : Text) : ci a b = decide (low a = low b) := by
  rw [Bool.eq_iff_iff, ci_iff, decide_eq_true_iff]; rfl

theorem same_iff (a b : Text) : same a b ↔ low a = low b := Iff.rfl

/-! ## Lists with names -/
section lists
variable {α : Type} (key : α → Text)

theorem find_eraseP (l : List α) (x y : Text) (h : l.Pairwise fun a b => key a ≠ key b) :
    (l.eraseP fun a => decide (key a = x)).find? (fun a => decide (key a = y)) = if y = x then none else l.find? fun a => decide (key a = y) := by
  induction l with
  | nil => simp
  | cons a l ih =>
    rw [List.pairwise_cons] at h
    by_cases hx : key a = x
    · rw [List.eraseP_cons_of_pos (by simpa using hx)]
      by_cases hy : y = x
      · rw [if_pos hy, List.find?_eq_none]
        intro b hb; simp
        rw [hy, ← hx]; exact fun e => h.1 b hb e.symm
      · rw [if_neg hy, List.find?_cons_of_neg (by simp; rw [hx]; exact fun e => hy e.symm)]
    · rw [List.eraseP_cons_of_neg (by simpa using hx)]
      by_cases hy : key a = y
      · rw [List.find?_cons_of_pos (by simpa using hy), List.find?_cons_of_pos (by simpa using hy), if_neg (fun e => hx (hy.trans e))]
      · rw [List.find?_cons_of_neg (by simpa using hy), List.find?_cons_of_neg (by simpa using hy), ih h.2]

theorem find_snoc (l : List α) (z : α) (y : Text) (h : l.find? (fun a => decide (key a = key z)) = none) :
    (l ++ [z]).find? (fun a => decide (key a = y)) = if y = key z then some z else l.find? fun a => decide (key a = y) := by
  rw [List.find?_append]
  by_cases hy : y = key z
  · rw [hy, h, if_pos rfl]; simp
  · rw [if_neg hy]
    have : ([z].find? fun a => decide (key a = y)) = none := by
      rw [List.find?_cons_of_neg (by simp; exact fun e => hy e.symm)]; rfl
    rw [this, Option.or_none]

end lists

theorem fun_ci {α : Type} (nm : α → Text) (s : Text) : (fun x => ci (nm x) s) = fun x => decide (low (nm x) = low s) := by
  funext x; exact ci_eq _ _

/-! ## Entries -/

/-- No two entries have the same name, and none has an empty value. -/
structure TidyE (es : List Entry) : Prop where
  names : es.Pairwise fun a b => low a.name ≠ low b.name
  values : ∀ e ∈ es, e.value ≠ []

theorem entGet_low (es : List Entry) {a b : Text} (h : low a = low b) : entGet es a = entGet es b := by
  unfold entGet; rw [fun_ci Entry.name a, fun_ci Entry.name b, h]

theorem replace_get (es : List Entry) (e v y : Text) :
    (entGet (replace e v es) y) = if low y = low e then (entGet es y).map (fun _ => v) else entGet es y := by
  unfold entGet
  rw [fun_ci Entry.name y]
  induction es with
  | nil => simp [replace]
  | cons x es ih =>
    unfold replace
    by_cases hx : ci x.name e = true
    · rw [if_pos hx]
      rw [ci_eq, decide_eq_true_iff] at hx
      by_cases hy : low y = low e
      · rw [if_pos hy, List.find?_cons_of_pos (by simp [hx, hy]), List.find?_cons_of_pos (by simp [hx, hy])]; rfl
      · rw [if_neg hy, List.find?_cons_of_neg (by simp [hx]; exact fun e => hy e.symm), List.find?_cons_of_neg (by simp [hx]; exact fun e => hy e.symm)]
    · rw [if_neg hx]
      by_cases hy : low x.name = low y
      · rw [List.find?_cons_of_pos (by simpa using hy), List.find?_cons_of_pos (by simpa using hy)]
        rw [if_neg]
        intro e; rw [ci_eq, decide_eq_true_iff] at hx; exact hx (hy.trans e)
      · rw [List.find?_cons_of_neg (by simpa using hy), List.find?_cons_of_neg (by simpa using hy), ih]

theorem any_get (es : List Entry) (e : Text) : (es.any fun x => ci x.name e) = (entGet es e).isSome := by
  unfold entGet
  rw [Option.isSome_map, Bool.eq_iff_iff, List.any_eq_true, List.find?_isSome]

theorem mem_replace {es : List Entry} {e v : Text} {x : Entry} (h : x ∈ replace e v es) : ∃ y ∈ es, x.name = y.name ∧ (x = y ∨ x.value = v) := by
  induction es with
  | nil => cases h
  | cons a es ih =>
    unfold replace at h
    split at h
    · rcases List.mem_cons.mp h with h | h
      · exact ⟨a, by simp, by rw [h], Or.inr (by rw [h])⟩
      · exact ⟨x, by simp [h], rfl, Or.inl rfl⟩
    · rcases List.mem_cons.mp h with h | h
      · exact ⟨a, by simp, by rw [h], Or.inl h⟩
      · obtain ⟨y, h1, h2⟩ := ih h
        exact ⟨y, by simp [h1], h2⟩

theorem replace_names (es : List Entry) (e v : Text) : (replace e v es).map (·.name) = es.map (·.name) := by
  induction es with
  | nil => rfl
  | cons a es ih =>
    unfold replace
    split
    · rfl
    · rw [List.map_cons, List.map_cons, ih]

theorem pairwise_names {es : List Entry} : (es.Pairwise fun a b => low a.name ≠ low b.name) ↔ (es.map (·.name)).Pairwise fun a b => low a ≠ low b := by
  rw [List.pairwise_map]

/-- `WvConfigSection::set`, on entries that have different names if one is removed. -/
theorem entSet_get0 {es : List Entry} (e v y : Text) (h : v = [] → es.Pairwise fun a b => low a.name ≠ low b.name) (ht : trimString e = e) :
    entGet (entSet es e v) y = if low y = low e then (if v = [] then none else some v) else entGet es y := by
  unfold entSet
  rw [ht]
  dsimp only
  by_cases hv : v = []
  · rw [if_pos hv, if_pos hv]
    unfold entGet
    rw [fun_ci Entry.name e, fun_ci Entry.name y, find_eraseP (fun x : Entry => low x.name) es (low e) (low y) (h hv)]
    split <;> rfl
  · rw [if_neg hv, if_neg hv]
    split
    · next ha =>
      rw [any_get] at ha
      rw [replace_get]
      split
      · next hy =>
        rw [entGet_low es hy]
        cases hg : entGet es e with
        | none => rw [hg] at ha; cases ha
        | some _ => rfl
      · rfl
    · next ha =>
      rw [any_get] at ha
      unfold entGet at ha ⊢
      rw [fun_ci Entry.name e] at ha
      rw [fun_ci Entry.name y]
      have := find_snoc (fun x : Entry => low x.name) es ⟨e, v⟩ (low y) (by simpa using ha)
      dsimp only at this
      rw [this]
      split <;> rfl

/-- `WvConfigSection::set` on entries that have different names. -/
theorem entSet_get {es : List Entry} (h : es.Pairwise fun a b => low a.name ≠ low b.name) (e v y : Text) (ht : trimString e = e) :
    entGet (entSet es e v) y = if low y = low e then (if v = [] then none else some v) else entGet es y :=
  entSet_get0 e v y (fun _ => h) ht

theorem pairwise_snoc {es : List Entry} (h : es.Pairwise fun a b => low a.name ≠ low b.name) (z : Entry) (hz : entGet es z.name = none) :
    (es ++ [z]).Pairwise fun a b => low a.name ≠ low b.name := by
  rw [List.pairwise_append]
  refine ⟨h, by simp, fun a ha b hb => ?_⟩
  rw [List.mem_singleton.mp hb]
  unfold entGet at hz
  rw [fun_ci Entry.name z.name, Option.map_eq_none_iff, List.find?_eq_none] at hz
  simpa using hz a ha

theorem entSet_tidy {es : List Entry} (h : TidyE es) (e v : Text) : TidyE (entSet es e v) := by
  unfold entSet
  dsimp only
  split
  · exact ⟨h.names.sublist List.eraseP_sublist, fun x hx => h.values x (List.eraseP_sublist.subset hx)⟩
  · next hv =>
    split
    · refine ⟨?_, fun x hx => ?_⟩
      · rw [pairwise_names, replace_names, ← pairwise_names]; exact h.names
      · obtain ⟨y, h1, _, h2⟩ := mem_replace hx
        rcases h2 with h2 | h2
        · rw [h2]; exact h.values y h1
        · rw [h2]; exact hv
    · next ha =>
      rw [any_get] at ha
      refine ⟨pairwise_snoc h.names _ (by simpa using ha), fun x hx => ?_⟩
      rcases List.mem_append.mp hx with hx | hx
      · exact h.values x hx
      · rw [List.mem_singleton.mp hx]; exact hv

/-! ## Sections -/

/-- No two sections have the same name, and the same for their entries. -/
structure Tidy (c : Conf) : Prop where
  names : c.sections.Pairwise fun a b => low a.name ≠ low b.name
  entries : ∀ s ∈ c.sections, TidyE s.entries

def findS (l : List Section) (s : Text) : Option Section := l.find? fun x => ci x.name s

theorem findS_low (l : List Section) {a b : Text} (h : low a = low b) : findS l a = findS l b := by
  unfold findS; rw [fun_ci Section.name a, fun_ci Section.name b, h]

theorem findS_name {l : List Section} {s : Text} {x : Section} (h : findS l s = some x) : low x.name = low s := by
  have := List.find?_some h
  rwa [ci_eq, decide_eq_true_iff] at this

theorem onSection_find (l : List Section) (s y : Text) (f : List Entry → List Entry) :
    findS (onSection s f l) y = if low y = low s then (findS l y).map (fun x => { x with entries := f x.entries }) else findS l y := by
  unfold findS
  rw [fun_ci Section.name y]
  induction l with
  | nil => simp [onSection]
  | cons x l ih =>
    unfold onSection
    by_cases hx : ci x.name s = true
    · rw [if_pos hx]
      rw [ci_eq, decide_eq_true_iff] at hx
      by_cases hy : low y = low s
      · rw [if_pos hy, List.find?_cons_of_pos (by simp [hx, hy]), List.find?_cons_of_pos (by simp [hx, hy])]; rfl
      · rw [if_neg hy, List.find?_cons_of_neg (by simp [hx]; exact fun e => hy e.symm), List.find?_cons_of_neg (by simp [hx]; exact fun e => hy e.symm)]
    · rw [if_neg hx]
      by_cases hy : low x.name = low y
      · rw [List.find?_cons_of_pos (by simpa using hy), List.find?_cons_of_pos (by simpa using hy)]
        rw [if_neg]
        intro e; rw [ci_eq, decide_eq_true_iff] at hx; exact hx (hy.trans e)
      · rw [List.find?_cons_of_neg (by simpa using hy), List.find?_cons_of_neg (by simpa using hy), ih]

theorem mem_onSection {l : List Section} {s : Text} {f : List Entry → List Entry} {x : Section} (h : x ∈ onSection s f l) :
    ∃ y ∈ l, x.name = y.name ∧ (x.entries = y.entries ∨ x.entries = f y.entries) := by
  induction l with
  | nil => cases h
  | cons a l ih =>
    unfold onSection at h
    split at h
    · rcases List.mem_cons.mp h with h | h
      · exact ⟨a, by simp, by rw [h], Or.inr (by rw [h])⟩
      · exact ⟨x, by simp [h], rfl, Or.inl rfl⟩
    · rcases List.mem_cons.mp h with h | h
      · exact ⟨a, by simp, by rw [h], Or.inl (by rw [h])⟩
      · obtain ⟨y, h1, h2⟩ := ih h
        exact ⟨y, by simp [h1], h2⟩

theorem onSection_names (l : List Section) (s : Text) (f : List Entry → List Entry) : (onSection s f l).map (·.name) = l.map (·.name) := by
  induction l with
  | nil => rfl
  | cons a l ih =>
    unfold onSection
    split
    · rfl
    · rw [List.map_cons, List.map_cons, ih]

theorem pairwise_sects {l : List Section} : (l.Pairwise fun a b => low a.name ≠ low b.name) ↔ (l.map (·.name)).Pairwise fun a b => low a ≠ low b := by
  rw [List.pairwise_map]

theorem sects_snoc {l : List Section} (h : l.Pairwise fun a b => low a.name ≠ low b.name) (z : Section) (hz : findS l z.name = none) :
    (l ++ [z]).Pairwise fun a b => low a.name ≠ low b.name := by
  rw [List.pairwise_append]
  refine ⟨h, by simp, fun a ha b hb => ?_⟩
  rw [List.mem_singleton.mp hb]
  unfold findS at hz
  rw [fun_ci Section.name z.name, List.find?_eq_none] at hz
  simpa using hz a ha

theorem findS_snoc (l : List Section) (s y : Text) (h : findS l s = none) :
    findS (l ++ [⟨s, []⟩]) y = if low y = low s then some ⟨s, []⟩ else findS l y := by
  unfold findS at h ⊢
  rw [fun_ci Section.name s] at h
  rw [fun_ci Section.name y]
  exact find_snoc (fun x : Section => low x.name) l ⟨s, []⟩ (low y) h

/-- The sections when `set` looks for the old value. -/
def opened (c : Conf) (s : Text) : List Section := if find c s = none then c.sections ++ [⟨s, []⟩] else c.sections

theorem set_eq (c : Conf) (s e : Text) (v : Option Text) :
    ((val c s e).getD [] = v.getD [] ∧ set c s e v = c) ∨
    ((val c s e).getD [] ≠ v.getD [] ∧
      set c s e v = { c with
        sections := onSection s (fun es => entSet es e (v.getD [])) (opened c s), dirty := true,
        calls := c.calls ++ (c.callbacks.filter fun b => (b.sect = [] || ci b.sect s) && (b.entry = [] || ci b.entry e)).map fun b =>
          ⟨b.cookie, s, e, (val c s e).getD [], v.getD []⟩ }) := by
  unfold set val
  by_cases hf : find c s = none
  · by_cases hv : v = none ∨ v = some []
    · rw [if_pos ⟨hf, hv⟩, hf]
      refine Or.inl ⟨?_, rfl⟩
      rcases hv with h | h <;> rw [h] <;> rfl
    · rw [if_neg (fun h => hv h.2), if_pos hf, hf]
      have hnew : find { c with sections := c.sections ++ [⟨s, []⟩] } s = some ⟨s, []⟩ := by
        have := findS_snoc c.sections s s hf
        rw [if_pos rfl] at this; exact this
      dsimp only
      rw [hnew]
      have hold : ((some (⟨s, []⟩ : Section)).bind fun x => entGet x.entries e).getD [] = [] := rfl
      rw [hold]
      have hn : ([] : Text) ≠ v.getD [] := by
        intro h
        cases v with
        | none => exact hv (Or.inl rfl)
        | some v => exact hv (Or.inr (by rw [show v = [] from h.symm]))
      rw [if_pos hn]
      refine Or.inr ⟨hn, ?_⟩
      unfold runCallbacks opened
      rw [if_pos hf]; rfl
  · rw [if_neg (fun h => hf h.1), if_neg hf]
    dsimp only
    by_cases ho : ((find c s).bind fun x => entGet x.entries e).getD [] = v.getD []
    · rw [if_neg (fun h => h ho)]; exact Or.inl ⟨ho, rfl⟩
    · rw [if_pos ho]
      refine Or.inr ⟨ho, ?_⟩
      unfold runCallbacks opened
      rw [if_neg hf]

theorem opened_tidy {c : Conf} (h : Tidy c) (s : Text) : (opened c s).Pairwise (fun a b => low a.name ≠ low b.name)
    ∧ ∀ x ∈ opened c s, TidyE x.entries := by
  unfold opened
  split
  · next hf =>
    refine ⟨sects_snoc h.names _ hf, fun x hx => ?_⟩
    rcases List.mem_append.mp hx with hx | hx
    · exact h.entries x hx
    · rw [List.mem_singleton.mp hx]; exact ⟨by simp, by simp⟩
  · exact ⟨h.names, h.entries⟩

theorem opened_find (c : Conf) (s y : Text) : findS (opened c s) y = if low y = low s ∧ find c s = none then some ⟨s, []⟩ else findS c.sections y := by
  unfold opened
  split
  · next hf =>
    rw [findS_snoc _ _ _ hf]
    by_cases hy : low y = low s
    · rw [if_pos hy, if_pos ⟨hy, hf⟩]
    · rw [if_neg hy, if_neg (fun h => hy h.1)]
  · next hf => rw [if_neg (fun h => hf h.2)]

theorem set_tidy {c : Conf} (h : Tidy c) (s e : Text) (v : Option Text) : Tidy (set c s e v) := by
  rcases set_eq c s e v with ⟨_, he⟩ | ⟨_, he⟩
  · rw [he]; exact h
  · rw [he]
    obtain ⟨h1, h2⟩ := opened_tidy h s
    refine ⟨?_, fun x hx => ?_⟩
    · rw [pairwise_sects]
      dsimp only
      rw [onSection_names, ← pairwise_sects]; exact h1
    · obtain ⟨y, h3, _, h4⟩ := mem_onSection hx
      rcases h4 with h4 | h4
      · rw [h4]; exact h2 y h3
      · rw [h4]; exact entSet_tidy (h2 y h3) e _

theorem val_ne_nil {c : Conf} (h : Tidy c) (s e : Text) : val c s e ≠ some [] := by
  unfold val
  cases hf : find c s with
  | none => simp
  | some x =>
    simp only [Option.bind_some]
    intro he
    unfold entGet at he
    obtain ⟨y, h1, h2⟩ := Option.map_eq_some_iff.mp he
    exact (h.entries x (List.mem_of_find?_eq_some hf)).values y (List.mem_of_find?_eq_some h1) h2

theorem val_low (c : Conf) {s s' e e' : Text} (hs : low s = low s') (he : low e = low e') : val c s e = val c s' e' := by
  unfold val
  rw [show find c s = find c s' from findS_low _ hs]
  congr 1
  funext x
  exact entGet_low _ he

/-- What `set` does to the values. -/
theorem set_val {c : Conf} (h : Tidy c) (s e : Text) (v : Option Text) (ht : trimString e = e) (s' e' : Text) :
    val (set c s e v) s' e' = if low s' = low s ∧ low e' = low e then (if v = some [] then none else v) else val c s' e' := by
  rcases set_eq c s e v with ⟨ho, he⟩ | ⟨ho, he⟩
  · rw [he]
    split
    · next hk =>
      rw [val_low c hk.1 hk.2]
      have hn := val_ne_nil h s e
      cases hv : val c s e with
      | none =>
        rw [hv] at ho
        cases v with
        | none => rfl
        | some v => rw [if_pos]; rw [show v = [] from ho.symm]
      | some w =>
        rw [hv] at ho hn
        cases v with
        | none => exact absurd (by rw [show w = [] from ho]) hn
        | some v =>
          have : w = v := ho
          rw [← this, if_neg hn]
    · rfl
  · rw [he]
    unfold val
    have hfind : ∀ y, find { c with
        sections := onSection s (fun es => entSet es e (v.getD [])) (opened c s), dirty := true,
        calls := c.calls ++ (c.callbacks.filter fun b => (b.sect = [] || ci b.sect s) && (b.entry = [] || ci b.entry e)).map fun b =>
          ⟨b.cookie, s, e, (val c s e).getD [], v.getD []⟩ } y = findS (onSection s (fun es => entSet es e (v.getD [])) (opened c s)) y := fun y => rfl
    unfold val at hfind
    rw [hfind, onSection_find, opened_find]
    by_cases hs : low s' = low s
    · rw [if_pos hs]
      have hx : ∀ x : Section, TidyE x.entries →
          (((some x).map fun x : Section => { x with entries := entSet x.entries e (v.getD []) }).bind fun x => entGet x.entries e')
          = if low e' = low e then (if v = some [] then none else v) else entGet x.entries e' := by
        intro x htx
        simp only [Option.map_some, Option.bind_some]
        rw [entSet_get htx.names e _ e' ht]
        split
        · cases v with
          | none => rfl
          | some v =>
            by_cases hv : v = []
            · rw [if_pos (by exact hv), if_pos (by rw [hv])]
            · rw [if_neg (by exact hv), if_neg (by simpa using hv)]; rfl
        · rfl
      by_cases hf : find c s = none
      · rw [if_pos ⟨hs, hf⟩, hx ⟨s, []⟩ ⟨by simp, by simp⟩, show find c s' = none from (findS_low _ hs).trans hf]
        by_cases he' : low e' = low e
        · simp only [if_pos he', if_pos (And.intro hs he')]
        · rw [if_neg he', if_neg (fun h => he' h.2)]; rfl
      · rw [if_neg (fun h => hf h.2)]
        cases hg : findS c.sections s' with
        | none => exact absurd ((findS_low _ hs).symm.trans hg) hf
        | some x =>
          rw [hx x (h.entries x (List.mem_of_find?_eq_some hg)), show find c s' = some x from hg]
          by_cases he' : low e' = low e
          · simp only [if_pos he', if_pos (And.intro hs he')]
          · rw [if_neg he', if_neg (fun h => he' h.2)]; rfl
    · rw [if_neg hs, if_neg (fun h => hs h.1), if_neg (fun h => hs h.1)]; rfl

theorem delete_tidy {c : Conf} (h : Tidy c) (s : Text) : Tidy (deleteSection c s) := by
  unfold deleteSection
  split
  · exact h
  · exact ⟨h.names.sublist List.eraseP_sublist, fun x hx => h.entries x (List.eraseP_sublist.subset hx)⟩

theorem delete_val {c : Conf} (h : Tidy c) (s s' e' : Text) :
    val (deleteSection c s) s' e' = if low s' = low s then none else val c s' e' := by
  unfold deleteSection
  split
  · next hf =>
    split
    · next hs => unfold val; rw [show find c s' = none from (findS_low _ hs).trans hf]; rfl
    · rfl
  · unfold val find
    dsimp only
    rw [fun_ci Section.name s, fun_ci Section.name s', find_eraseP (fun x : Section => low x.name) c.sections (low s) (low s') h.names]
    split <;> rfl

end Wv.ConfFile
