import Verif.Lemmas.ConfFile
/-! The search along "Inherits" (C72). -/
namespace Wv.ConfFile
open Spec.ConfFile (same Values Op chain Finds Lacks)

theorem find_canon {c : Conf} {s : Text} {x : Section} (h : find c s = some x) : find c x.name = some x :=
  (findS_low c.sections (findS_name h)).trans h

theorem next_canon {c : Conf} {x y : Section} (h : next c x = some y) : find c y.name = some y := by
  unfold next at h
  obtain ⟨t, _, h2⟩ := Option.bind_eq_some_iff.mp h
  exact find_canon h2

/-- The sections one after the other. -/
def it (c : Conf) : Option Section → Nat → Option Section
  | cur, 0 => cur
  | cur, n + 1 => it c (cur.bind (next c)) n

theorem it_none (c : Conf) (n : Nat) : it c none n = none := by
  induction n with
  | zero => rfl
  | succ n ih => exact ih

/-- Sections that do not have the entry, and from which one comes to others of them only. -/
def Closed (c : Conf) (e : Text) (cache : List Text) (cur : Option Section) : Prop :=
  ∀ t ∈ cache, ∃ x, find c t = some x ∧ x.name = t ∧ entGet x.entries e = none ∧ ∀ y, next c x = some y → y.name ∈ cache ∨ cur = some y

theorem closed_lacks {c : Conf} {e : Text} {cache : List Text} (h : Closed c e cache none) (n : Nat) :
    ∀ (x : Section), find c x.name = some x → x.name ∈ cache → ∀ y, it c (some x) n = some y → entGet y.entries e = none := by
  induction n with
  | zero =>
    intro x hx hm y hy
    obtain ⟨x', h1, _, h3, _⟩ := h x.name hm
    rw [hx] at h1; cases h1
    cases hy; exact h3
  | succ n ih =>
    intro x hx hm y hy
    obtain ⟨x', h1, _, h3, h4⟩ := h x.name hm
    rw [hx] at h1; cases h1
    unfold it at hy
    simp only [Option.bind_some] at hy
    cases hn : next c x with
    | none => rw [hn, it_none] at hy; cases hy
    | some z =>
      rw [hn] at hy
      rcases h4 z hn with h | h
      · exact ih z (next_canon hn) h y hy
      · cases h

theorem nodup_length {l m : List Text} (hn : l.Nodup) (hs : ∀ x ∈ l, x ∈ m) : l.length ≤ m.length := by
  induction l generalizing m with
  | nil => simp
  | cons a l ih =>
    rw [List.nodup_cons] at hn
    have hm : a ∈ m := hs a (by simp)
    have := ih (m := m.erase a) hn.2 (fun x hx => by
      rw [List.mem_erase_of_ne (fun e => hn.1 (by rw [← e]; exact hx))]
      exact hs x (by simp [hx]))
    rw [List.length_erase_of_mem hm] at this
    have : 0 < m.length := List.length_pos_of_mem hm
    simp only [List.length_cons]
    omega

theorem getLoop_spec (c : Conf) (e : Text) (n : Nat) : ∀ (cache : List Text) (cur : Option Section), Closed c e cache cur → cache.Nodup →
    c.sections.length < n + cache.length → (∀ x, cur = some x → find c x.name = some x) →
    (∃ v cache', getLoop c e n cache cur = (some v, cache') ∧
        ∃ k x, it c cur k = some x ∧ entGet x.entries e = some v ∧ ∀ m y, m < k → it c cur m = some y → entGet y.entries e = none)
    ∨ (∃ cache', getLoop c e n cache cur = (none, cache') ∧ Closed c e cache' none ∧ cache'.Nodup ∧
        ∀ m y, it c cur m = some y → entGet y.entries e = none) := by
  induction n with
  | zero =>
    intro cache cur hc hn hl _
    exfalso
    have := nodup_length hn (m := c.sections.map (·.name)) (fun t ht => by
      obtain ⟨x, h1, h2, _⟩ := hc t ht
      rw [← h2]
      exact List.mem_map_of_mem (List.mem_of_find?_eq_some h1))
    rw [List.length_map] at this
    omega
  | succ n ih =>
    intro cache cur hc hn hl hcur
    cases cur with
    | none =>
      exact Or.inr ⟨cache, rfl, hc, hn, fun m y hy => by rw [it_none] at hy; cases hy⟩
    | some s =>
      unfold getLoop
      have hs := hcur s rfl
      by_cases hm : cache.contains s.name = true
      · rw [if_pos hm]
        rw [List.contains_iff_mem] at hm
        have hc' : Closed c e cache none := by
          intro t ht
          obtain ⟨x, h1, h2, h3, h4⟩ := hc t ht
          refine ⟨x, h1, h2, h3, fun y hy => Or.inl ?_⟩
          rcases h4 y hy with h | h
          · exact h
          · cases h; exact hm
        exact Or.inr ⟨cache, rfl, hc', hn, fun m y hy => closed_lacks hc' m s hs hm y hy⟩
      · rw [if_neg hm]
        rw [List.contains_iff_mem] at hm
        cases hg : entGet s.entries e with
        | some v =>
          exact Or.inl ⟨v, cache, rfl, 0, s, rfl, hg, fun m y hm _ => by omega⟩
        | none =>
          dsimp only
          have hc' : Closed c e (s.name :: cache) (next c s) := by
            intro t ht
            rcases List.mem_cons.mp ht with h | h
            · rw [h]
              exact ⟨s, hs, rfl, hg, fun y hy => Or.inr hy⟩
            · obtain ⟨x, h1, h2, h3, h4⟩ := hc t h
              refine ⟨x, h1, h2, h3, fun y hy => Or.inl ?_⟩
              rcases h4 y hy with h | h
              · simp [h]
              · cases h; simp
          rcases ih (s.name :: cache) (next c s) hc' (by rw [List.nodup_cons]; exact ⟨hm, hn⟩)
              (by simp only [List.length_cons]; omega) (fun x hx => next_canon hx) with
            ⟨v, cache', h1, k, x, h2, h3, h4⟩ | ⟨cache', h1, h2, h3, h4⟩
          · refine Or.inl ⟨v, cache', h1, k + 1, x, h2, h3, fun m y hm hy => ?_⟩
            cases m with
            | zero => cases hy; exact hg
            | succ m => exact h4 m y (by omega) hy
          · refine Or.inr ⟨cache', h1, h2, h3, fun m y hy => ?_⟩
            cases m with
            | zero => cases hy; exact hg
            | succ m => exact h4 m y hy

/-! ## The chain of names -/

theorem chain_front (M : Values) (s : Text) (n : Nat) : chain M s (n + 1) = (M s Spec.ConfFile.inherits).bind fun t => chain M t n := by
  induction n generalizing s with
  | zero =>
    show (some s).bind _ = _
    simp only [Option.bind_some]
    cases M s Spec.ConfFile.inherits <;> rfl
  | succ n ih =>
    show (chain M s (n + 1)).bind _ = _
    rw [ih]
    cases M s Spec.ConfFile.inherits <;> rfl

theorem chain_it (c : Conf) (n : Nat) : ∀ s, it c (find c s) n = (chain (val c) s n).bind (find c) := by
  induction n with
  | zero => intro s; rfl
  | succ n ih =>
    intro s
    rw [chain_front]
    show it c ((find c s).bind (next c)) n = _
    unfold val next
    cases hf : find c s with
    | none => simp only [Option.bind_none, it_none]
    | some x =>
      simp only [Option.bind_some]
      show it c ((entGet x.entries inherits).bind (find c)) n = ((entGet x.entries inherits).bind _).bind _
      cases hg : entGet x.entries inherits with
      | none => simp only [Option.bind_none, it_none]
      | some t =>
        simp only [Option.bind_some]
        exact ih t

theorem finds_it {c : Conf} {s e v : Text} {k : Nat} {x : Section} (h1 : it c (find c s) k = some x) (h2 : entGet x.entries e = some v)
    (h3 : ∀ m y, m < k → it c (find c s) m = some y → entGet y.entries e = none) : Finds (val c) s e v := by
  rw [chain_it] at h1
  obtain ⟨t, h4, h5⟩ := Option.bind_eq_some_iff.mp h1
  refine ⟨k, t, h4, by unfold val; rw [h5]; exact h2, fun m t' hm ht' => ?_⟩
  unfold val
  cases hf : find c t' with
  | none => rfl
  | some y => exact h3 m y hm (by rw [chain_it, ht']; exact hf)

theorem lacks_it {c : Conf} {s e : Text} (h : ∀ m y, it c (find c s) m = some y → entGet y.entries e = none) : Lacks (val c) s e := by
  intro n t ht
  unfold val
  cases hf : find c t with
  | none => rfl
  | some y => exact h n y (by rw [chain_it, ht]; exact hf)

theorem loop_spec (c : Conf) (s e : Text) (cache : List Text) (hc : Closed c e cache none) (hn : cache.Nodup) :
    (∃ v cache', getLoop c e (c.sections.length + 1) cache (find c s) = (some v, cache') ∧ Finds (val c) s e v)
    ∨ (∃ cache', getLoop c e (c.sections.length + 1) cache (find c s) = (none, cache') ∧ Closed c e cache' none ∧ cache'.Nodup ∧ Lacks (val c) s e) := by
  have hc' : Closed c e cache (find c s) := by
    intro t ht
    obtain ⟨x, h1, h2, h3, h4⟩ := hc t ht
    exact ⟨x, h1, h2, h3, fun y hy => Or.inl ((h4 y hy).resolve_right (by simp))⟩
  rcases getLoop_spec c e (c.sections.length + 1) cache (find c s) hc' hn (by omega) (fun x hx => find_canon hx) with
    ⟨v, cache', h1, k, x, h2, h3, h4⟩ | ⟨cache', h1, h2, h3, h4⟩
  · exact Or.inl ⟨v, cache', h1, finds_it h2 h3 h4⟩
  · exact Or.inr ⟨cache', h1, h2, h3, lacks_it h4⟩

/-- `get`: what is found along the chain, or else the global section, or else the default. -/
theorem get_spec (c : Conf) (s e : Text) (d : Option Text) :
    (∃ v, Finds (val c) s e v ∧ get c s e d = some v) ∨ (Lacks (val c) s e ∧ get c s e d = (entGet c.global e).or d) := by
  unfold get
  rcases loop_spec c s e [] (by intro t ht; cases ht) (by simp) with ⟨v, cache', h1, h2⟩ | ⟨cache', h1, _, _, h2⟩
  · rw [h1]; exact Or.inl ⟨v, h2, rfl⟩
  · rw [h1]; exact Or.inr ⟨h2, rfl⟩

/-- `fuzzy_get` for one entry: the first section with something in its chain. -/
theorem fuzzy_spec (c : Conf) (e : Text) (d : Option Text) (ss : List Text) : ∀ cache, Closed c e cache none → cache.Nodup →
    (∃ a s b v, ss = a ++ s :: b ∧ (∀ t ∈ a, Lacks (val c) t e) ∧ Finds (val c) s e v ∧ fuzzyGet1 c e d cache ss = some v)
    ∨ ((∀ t ∈ ss, Lacks (val c) t e) ∧ fuzzyGet1 c e d cache ss = d) := by
  induction ss with
  | nil => intro cache _ _; exact Or.inr ⟨by simp, rfl⟩
  | cons s ss ih =>
    intro cache hc hn
    unfold fuzzyGet1
    rcases loop_spec c s e cache hc hn with ⟨v, cache', h1, h2⟩ | ⟨cache', h1, h2, h3, h4⟩
    · rw [h1]; exact Or.inl ⟨[], s, ss, v, rfl, by simp, h2, rfl⟩
    · rw [h1]
      dsimp only
      rcases ih cache' h2 h3 with ⟨a, s', b, v, e1, e2, e3, e4⟩ | ⟨e1, e2⟩
      · refine Or.inl ⟨s :: a, s', b, v, by rw [e1]; rfl, fun t ht => ?_, e3, e4⟩
        rcases List.mem_cons.mp ht with h | h
        · rw [h]; exact h4
        · exact e2 t h
      · refine Or.inr ⟨fun t ht => ?_, e2⟩
        rcases List.mem_cons.mp ht with h | h
        · rw [h]; exact h4
        · exact e1 t h

end Wv.ConfFile
