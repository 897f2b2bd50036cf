import Verif.Model.ConfEmu
import Verif.Spec.ConfEmu
import Verif.Lemmas.Gen
import Verif.Lemmas.ConfGet
import Verif.Props.Key
import Verif.Props.Num
import Verif.Spec.Walk
/- Lemmas for C81. -/
namespace Props.Emu
open Wv Wv.Key Spec.ConfEmu Gens Spec.Walk
open Spec.Conf (place Text)
open Wv.ConfEmu hiding Text chain
open Spec.ConfFile (Values same chain Finds Lacks)

theorem key2_eq (s e : Text) : key2 s e = Key.parse (s ++ Spec.Path.slash :: e) := C19_join_text s e

theorem place_append (s e : Text) : place (s ++ Spec.Path.slash :: e) = place s ++ place e := by
  unfold place
  rw [Key.names_append, List.map_append]

theorem place_plain {n : Text} (h : Plain n) : place n = [n.map Spec.Path.lower] := by
  unfold place
  rw [Key.names_one n h]; rfl

theorem last_plain {n : Text} (h : Plain n) : n.getLast? ≠ some Spec.Path.slash := by
  intro hl
  exact h.2 (List.mem_of_getLast? hl)

theorem dir_plain (s : Text) {e : Text} (h : Plain e) : Spec.Path.dir (s ++ Spec.Path.slash :: e) = false := by
  unfold Spec.Path.dir
  have : (s ++ Spec.Path.slash :: e).getLast? = e.getLast? := by
    obtain ⟨c, r, rfl⟩ := List.exists_cons_of_ne_nil h.1
    simp only [List.getLast?_append, List.getLast?_cons_cons]
    rw [List.getLast?_eq_some_getLast (List.cons_ne_nil c r)]; rfl
  rw [this]
  have := last_plain h
  simp [this]

theorem one_plain {n : Text} (h : Plain n) : One n := by
  constructor
  · rw [Key.names_one n h]; rfl
  · unfold Spec.Path.dir
    have := last_plain h
    simp [this]

theorem view_plain (m : Spec.Conf.State) {s e : Text} (hs : Plain s) (he : Plain e) :
    view m s e = m [s.map Spec.Path.lower, e.map Spec.Path.lower] := by
  unfold view
  rw [if_pos ⟨one_plain hs, he.1⟩, Spec.Conf.get, dir_plain s he, place_append, place_plain hs, place_plain he]
  rfl

theorem same_iff (a b : Text) : same a b ↔ a.map Spec.Path.lower = b.map Spec.Path.lower := by
  rw [Key.lower_eq]; rfl

/-- Setting a value of an entry. -/
theorem set_value (m : Spec.Conf.State) {s e : Text} (hs : Plain s) (he : Plain e) (v : Text) {s' e' : Text} (hs' : Plain s') (he' : Plain e') :
    view (Spec.Conf.set m (s ++ Spec.Path.slash :: e) (some v)) s' e' = if same s' s ∧ same e' e then some v else view m s' e' := by
  rw [view_plain _ hs' he', view_plain m hs' he']
  simp only [Spec.Conf.set, dir_plain s he, place_append, place_plain hs, place_plain he, same_iff, Bool.false_eq_true, if_false]
  generalize s.map Spec.Path.lower = a
  generalize e.map Spec.Path.lower = b
  generalize s'.map Spec.Path.lower = a'
  generalize e'.map Spec.Path.lower = b'
  by_cases h : a' = a ∧ b' = b
  · rw [if_pos h, h.1, h.2]; simp
  · have h1 : [a', b'] ≠ [a] ++ [b] := by
      intro e
      simp at e
      exact h e
    have h2 : ¬ [a', b'] <+: [a] ++ [b] := by
      intro ⟨t, e⟩
      cases t with
      | nil => exact h1 (by simpa using e)
      | cons _ _ => simp at e
    rw [if_neg h, if_neg h1, if_neg h2]

/-- Removing an entry. -/
theorem set_none (m : Spec.Conf.State) {s e : Text} (hs : Plain s) (he : Plain e) {s' e' : Text} (hs' : Plain s') (he' : Plain e') :
    view (Spec.Conf.set m (s ++ Spec.Path.slash :: e) none) s' e' = if same s' s ∧ same e' e then none else view m s' e' := by
  rw [view_plain _ hs' he', view_plain m hs' he']
  simp only [Spec.Conf.set, place_append, place_plain hs, place_plain he, same_iff]
  generalize s.map Spec.Path.lower = a
  generalize e.map Spec.Path.lower = b
  generalize s'.map Spec.Path.lower = a'
  generalize e'.map Spec.Path.lower = b'
  by_cases h : a' = a ∧ b' = b
  · rw [if_pos h, h.1, h.2]; simp
  · have h2 : ¬ [a] ++ [b] <+: [a', b'] := by
      intro ⟨t, e⟩
      simp at e
      exact h ⟨e.1.symm, e.2.1.symm⟩
    rw [if_neg h, if_neg h2]

/-- Removing a section. -/
theorem set_section (m : Spec.Conf.State) {s : Text} (hs : Plain s) {s' e' : Text} (hs' : Plain s') (he' : Plain e') :
    view (Spec.Conf.set m s none) s' e' = if same s' s then none else view m s' e' := by
  rw [view_plain _ hs' he', view_plain m hs' he']
  simp only [Spec.Conf.set, place_plain hs, same_iff]
  generalize s.map Spec.Path.lower = a
  generalize s'.map Spec.Path.lower = a'
  by_cases h : a' = a
  · rw [if_pos h, h]; simp
  · have h2 : ¬ [a] <+: [a', e'.map Spec.Path.lower] := by
      intro ⟨t, e⟩
      simp at e
      exact h e.1.symm
    rw [if_neg h, if_neg h2]

/-- Doing it. -/
def exec {σ : Type} (I : IGen σ) (c : Emu σ) : Act → Option (Emu σ)
  | .set s e v => some (ConfEmu.set I c s e v)
  | .setint s e i => ConfEmu.setint I c s e i
  | .maybeset s e v => some (ConfEmu.maybeset I c s e v)
  | .sectset s e v => some (ConfEmu.secSet I c s e v)
  | .delete s => some (ConfEmu.deleteSection I c s)

def execs {σ : Type} (I : IGen σ) (c : Emu σ) : List Act → Option (Emu σ)
  | [] => some c
  | a :: l => (exec I c a).bind fun c => execs I c l

section
variable {σ : Type} (I : IGen σ) (Rep : σ → Spec.Conf.State → Prop) (hI : Behaves I Rep)
include hI

theorem get_view (c : Emu σ) (m : Spec.Conf.State) (h : Rep c.gen m) (s e : Text) (hs : One s) (d : Option Text) :
    ConfEmu.get I c s e d = (view m s e).or d := by
  have hs0 : s ≠ [] := by
    intro h0; rw [h0] at hs; exact absurd hs (by decide +kernel)
  unfold ConfEmu.get view
  by_cases he : e = []
  · rw [if_pos (Or.inr he), if_neg (fun h => h.2 he)]; rfl
  · rw [if_neg (by rintro (h | h); exact hs0 h; exact he h), if_pos ⟨hs, he⟩, key2_eq, (hI.reads _ _ h).get]
    cases Spec.Conf.get m (s ++ Spec.Path.slash :: e) <;> rfl

theorem set_step (c : Emu σ) (m : Spec.Conf.State) (h : Rep c.gen m) (s e : Text) (v : Option Text) (hs : Plain s) (he : Plain e) :
    ∃ m', Rep (ConfEmu.set I c s e v).gen m' ∧ ∀ s' e', Plain s' → Plain e' →
      view m' s' e' = if same s' s ∧ same e' e then (if v = some [] then none else v) else view m s' e' := by
  unfold ConfEmu.set
  rw [if_neg he.1]
  simp only
  rw [key2_eq]
  refine ⟨_, hI.set _ _ h _ _, fun s' e' hs' he' => ?_⟩
  match v with
  | none => simp only; rw [set_none m hs he hs' he']; simp
  | some [] => simp only; rw [set_none m hs he hs' he']; simp
  | some (x :: r) => simp only; rw [set_value m hs he (x :: r) hs' he']; simp

theorem exec_step (c : Emu σ) (m : Spec.Conf.State) (M : Values) (h : Rep c.gen m)
    (hM : ∀ s e, Plain s → Plain e → view m s e = M s e) (a : Act) (ha : a.Plain) :
    ∃ c' m', exec I c a = some c' ∧ Rep c'.gen m' ∧ ∀ s e, Plain s → Plain e → view m' s e = act M a s e := by
  have hset : ∀ s e v, Plain s → Plain e → ∃ m', Rep (ConfEmu.set I c s e v).gen m' ∧ ∀ s' e', Plain s' → Plain e' →
      view m' s' e' = Spec.ConfFile.apply M (.set s e v) s' e' := by
    intro s e v hs he
    obtain ⟨m', h1, h2⟩ := set_step I Rep hI c m h s e v hs he
    refine ⟨m', h1, fun s' e' hs' he' => ?_⟩
    rw [h2 s' e' hs' he', hM s' e' hs' he']
    rfl
  cases a with
  | set s e v =>
    obtain ⟨m', h1, h2⟩ := hset s e v ha.1 ha.2
    exact ⟨_, m', rfl, h1, h2⟩
  | setint s e i =>
    obtain ⟨hs, he, i1, i2⟩ := ha
    have hp := C32_print_signed_partial 32 i (by constructor <;> simp <;> omega) (by simp; omega)
    have hne : Spec.Num.decimal i ≠ [] := by
      unfold Spec.Num.decimal
      split
      · simp
      · have := Num.dec_ne_nil i.natAbs; simpa using this
    refine ⟨{ c with gen := I.set c.gen (key2 s e) (some (Spec.Num.decimal i)) }, _, ?_, by rw [key2_eq]; exact hI.set _ _ h _ _, ?_⟩
    · show ConfEmu.setint I c s e i = _
      unfold ConfEmu.setint IntText.setmeint
      rw [if_neg he.1, hp]; rfl
    · intro s' e' hs' he'
      rw [set_value m hs he _ hs' he', hM s' e' hs' he']
      simp [act, Spec.ConfFile.apply, hne]
  | maybeset s e v =>
    obtain ⟨hs, he⟩ := ha
    have hg := get_view I Rep hI c m h s e (one_plain hs) none
    rw [Option.or_none, hM s e hs he] at hg
    by_cases hn : M s e = none
    · obtain ⟨m', h1, h2⟩ := hset s e v hs he
      refine ⟨_, m', ?_, h1, ?_⟩
      · show some (ConfEmu.maybeset I c s e v) = _
        unfold ConfEmu.maybeset
        rw [if_pos ⟨he.1, by rw [hg, hn]⟩]
      · intro s' e' hs' he'
        rw [h2 s' e' hs' he']
        simp [act, hn]
    · refine ⟨c, m, ?_, h, ?_⟩
      · show some (ConfEmu.maybeset I c s e v) = _
        unfold ConfEmu.maybeset
        rw [if_neg (fun h => hn (by rw [← hg]; exact h.2))]
      · intro s' e' hs' he'
        rw [hM s' e' hs' he']
        simp [act, hn]
  | sectset s e v =>
    obtain ⟨hs, he⟩ := ha
    refine ⟨{ c with gen := I.set c.gen (key2 s e) (if v = [] then none else some v) }, _, ?_, by rw [key2_eq]; exact hI.set _ _ h _ _, ?_⟩
    · show some (ConfEmu.secSet I c s e v) = _
      unfold ConfEmu.secSet
      rw [if_neg he.1]
    · intro s' e' hs' he'
      by_cases hv : v = []
      · rw [if_pos hv, set_none m hs he hs' he', hM s' e' hs' he']
        simp [act, Spec.ConfFile.apply, hv]
      · rw [if_neg hv, set_value m hs he _ hs' he', hM s' e' hs' he']
        simp [act, Spec.ConfFile.apply, hv]
  | delete s =>
    refine ⟨_, _, rfl, hI.set _ _ h s none, ?_⟩
    intro s' e' hs' he'
    rw [set_section m ha hs' he', hM s' e' hs' he']
    rfl

theorem execs_spec (l : List Act) : ∀ (c : Emu σ) (m : Spec.Conf.State) (M : Values), Rep c.gen m →
    (∀ s e, Plain s → Plain e → view m s e = M s e) → (∀ a ∈ l, a.Plain) →
    ∃ c' m', execs I c l = some c' ∧ Rep c'.gen m' ∧ ∀ s e, Plain s → Plain e → view m' s e = l.foldl act M s e := by
  induction l with
  | nil => intro c m M h hM _; exact ⟨c, m, rfl, h, hM⟩
  | cons a l ih =>
    intro c m M h hM ha
    obtain ⟨c1, m1, h1, h2, h3⟩ := exec_step I Rep hI c m M h hM a (ha a (by simp))
    obtain ⟨c2, m2, h4, h5, h6⟩ := ih c1 m1 (act M a) h2 h3 (fun b hb => ha b (by simp [hb]))
    refine ⟨c2, m2, ?_, h5, h6⟩
    unfold execs
    rw [h1]
    exact h4

end

/-! ## Sections that inherit -/

theorem one_iff (s : Text) : Key.numsegments (Key.parse s) = 1 ↔ One s := by
  rw [Key.parse_eq]
  unfold Key.numsegments Spec.ConfEmu.One
  rw [Key.mk_length]
  have := Key.dir_names s
  cases hd : Spec.Path.dir s with
  | false => simp; omega
  | true =>
    have := this hd
    have : 0 < (Spec.Path.names s).length := List.length_pos_iff.2 this
    simp; omega

theorem inherits_plain : Plain ConfEmu.inherits := by
  unfold Plain; decide +kernel

section
variable {σ : Type} (I : IGen σ) (g : σ) (m : Spec.Conf.State) (hr : Reads I g m) (hc : Closed m)
include hr

theorem secGet_view (c : Emu σ) (hg : c.gen = g) (s e : Text) (hs : One s) : secGet I c s e = view m s e := by
  unfold secGet view
  by_cases he : e = []
  · rw [if_pos he, if_neg (fun h => h.2 he)]
  · rw [if_neg he, if_pos ⟨hs, he⟩, key2_eq, hg, hr.get]

/-- A section that is not there, or whose name is not one. -/
def Dead (m : Spec.Conf.State) (t : Text) : Prop := ∀ e, view m t e = none

include hc in
theorem section_spec (c : Emu σ) (hg : c.gen = g) (t : Text) :
    (sectionOf I c t).1.gen = g ∧ (((sectionOf I c t).2 = some t ∧ One t) ∨ ((sectionOf I c t).2 = none ∧ Dead m t)) := by
  unfold sectionOf
  by_cases h1 : Key.numsegments (Key.parse t) = 1
  · have ho := (one_iff t).1 h1
    rw [if_neg (by simpa using h1)]
    by_cases h2 : t ∈ c.sections
    · rw [if_pos h2]; exact ⟨hg, Or.inl ⟨rfl, ho⟩⟩
    · rw [if_neg h2]
      by_cases h3 : I.exists c.gen (Key.parse t) = true
      · rw [if_pos h3]; exact ⟨hg, Or.inl ⟨rfl, ho⟩⟩
      · rw [if_neg h3]
        refine ⟨hg, Or.inr ⟨rfl, fun e => ?_⟩⟩
        rw [hg, hr.exists_ t, Spec.Conf.get, ho.2] at h3
        have h3 : m (place t) = none := by simpa using h3
        unfold view
        split
        · unfold Spec.Conf.get
          split
          · rfl
          · rw [place_append]
            cases hm : m (place t ++ place e) with
            | none => rfl
            | some v => exact absurd h3 (hc _ (place e) (by rw [hm]; simp))
        · rfl
  · rw [if_pos (by simpa using h1)]
    refine ⟨hg, Or.inr ⟨rfl, fun e => ?_⟩⟩
    unfold view
    rw [if_neg (fun h => h1 ((one_iff t).2 h.1))]

include hc in
theorem next_spec (c : Emu σ) (hg : c.gen = g) (s : Text) (hs : One s) :
    (nextSection I c s).1.gen = g ∧
    ((∃ t, view m s ConfEmu.inherits = some t ∧ (((nextSection I c s).2 = some t ∧ One t) ∨ ((nextSection I c s).2 = none ∧ Dead m t))) ∨
     (view m s ConfEmu.inherits = none ∧ (nextSection I c s).2 = none)) := by
  have hv : view m s ConfEmu.inherits = Spec.Conf.get m (s ++ Spec.Path.slash :: ConfEmu.inherits) := by
    unfold view; rw [if_pos ⟨hs, inherits_plain.1⟩]
  unfold nextSection
  rw [key2_eq, hg]
  by_cases h : I.exists g (Key.parse (s ++ Spec.Path.slash :: ConfEmu.inherits)) = true
  · rw [if_pos h]
    rw [hr.exists_] at h
    obtain ⟨t, ht⟩ := Option.ne_none_iff_exists'.mp h
    rw [hr.get, ht]
    obtain ⟨h1, h2⟩ := section_spec I g m hr hc c hg t
    exact ⟨h1, Or.inl ⟨t, by rw [hv, ht], h2⟩⟩
  · rw [if_neg h]
    rw [hr.exists_] at h
    exact ⟨hg, Or.inr ⟨by rw [hv]; simpa using h, rfl⟩⟩

/-- Sections that do not have the entry, and from which one comes to others of them only. -/
def Shut (e : Text) (cache : List Text) (cur : Option Text) : Prop :=
  ∀ s ∈ cache, view m s e = none ∧ ∀ t, view m s ConfEmu.inherits = some t → t ∈ cache ∨ cur = some t ∨ Dead m t

omit hr in
theorem dead_lacks (e t : Text) (h : Dead m t) : Lacks (view m) t e := by
  intro n u hn
  cases n with
  | zero =>
    have : u = t := by simp only [chain] at hn; exact (Option.some.inj hn).symm
    rw [this]; exact h e
  | succ n =>
    have hi : view m t Spec.ConfFile.inherits = none := h _
    rw [ConfFile.chain_front, hi] at hn
    simp at hn

omit hr in
theorem shut_lacks (e : Text) (cache : List Text) (h : Shut m e cache none) : ∀ s ∈ cache, Lacks (view m) s e := by
  intro s hs n
  induction n generalizing s with
  | zero =>
    intro t hn
    have : t = s := by simp only [chain] at hn; exact (Option.some.inj hn).symm
    rw [this]; exact (h s hs).1
  | succ n ih =>
    intro t hn
    rw [ConfFile.chain_front] at hn
    cases hi : view m s Spec.ConfFile.inherits with
    | none => rw [hi] at hn; simp at hn
    | some u =>
      rw [hi] at hn
      simp only [Option.bind_some] at hn
      rcases (h s hs).2 u hi with h1 | h1 | h1
      · exact ih u h1 t hn
      · cases h1
      · exact dead_lacks m e u h1 n t hn

omit hr in
theorem lacks_step (e s : Text) (h0 : view m s e = none) (h : ∀ t, view m s ConfEmu.inherits = some t → Lacks (view m) t e) :
    Lacks (view m) s e := by
  intro n t hn
  cases n with
  | zero =>
    have : t = s := by simp only [chain] at hn; exact (Option.some.inj hn).symm
    rw [this]; exact h0
  | succ n =>
    rw [ConfFile.chain_front] at hn
    cases hi : view m s Spec.ConfFile.inherits with
    | none => rw [hi] at hn; simp at hn
    | some u =>
      rw [hi] at hn
      simp only [Option.bind_some] at hn
      exact h u hi n t hn

omit hr in
theorem finds_step (e s t v : Text) (h0 : view m s e = none) (hi : view m s ConfEmu.inherits = some t) (h : Finds (view m) t e v) :
    Finds (view m) s e v := by
  obtain ⟨n, u, h1, h2, h3⟩ := h
  have hi : view m s Spec.ConfFile.inherits = some t := hi
  refine ⟨n + 1, u, ?_, h2, ?_⟩
  · rw [ConfFile.chain_front, hi]; exact h1
  · intro k w hk hw
    cases k with
    | zero =>
      have : w = s := by simp only [chain] at hw; exact (Option.some.inj hw).symm
      rw [this]; exact h0
    | succ k =>
      rw [ConfFile.chain_front, hi] at hw
      exact h3 k w (by omega) hw

include hc in
theorem chain_spec (e : Text) (W : List Text) (hW : ∀ s t, view m s ConfEmu.inherits = some t → t ∈ W) :
    ∀ (n : Nat) (c : Emu σ) (cache : List Text) (cur : Option Text), c.gen = g → Shut m e cache cur → cache.Nodup → (∀ x ∈ cache, x ∈ W) →
    (∀ t, cur = some t → One t ∧ t ∈ W) → W.length < n + cache.length →
    (∃ v s, cur = some s ∧ Finds (view m) s e v ∧ (ConfEmu.chain I e n c cache cur).1 = .value v) ∨
    ((ConfEmu.chain I e n c cache cur).1 = .none ∧ (ConfEmu.chain I e n c cache cur).2.1.gen = g ∧
      Shut m e (ConfEmu.chain I e n c cache cur).2.2 none ∧ (ConfEmu.chain I e n c cache cur).2.2.Nodup ∧
      (∀ x ∈ (ConfEmu.chain I e n c cache cur).2.2, x ∈ W) ∧ ∀ s, cur = some s → Lacks (view m) s e) := by
  intro n
  induction n with
  | zero =>
    intro c cache cur _ _ hn hs _ hl
    have := ConfFile.nodup_length hn hs
    omega
  | succ n ih =>
    intro c cache cur hg hcl hn hs hcur hl
    cases cur with
    | none => exact Or.inr ⟨rfl, hg, hcl, hn, hs, fun s h => by cases h⟩
    | some s =>
      obtain ⟨ho, hw⟩ := hcur s rfl
      unfold ConfEmu.chain
      by_cases hm : s ∈ cache
      · rw [if_pos hm]
        have hcl' : Shut m e cache none := by
          intro t ht
          refine ⟨(hcl t ht).1, fun u hu => ?_⟩
          rcases (hcl t ht).2 u hu with h | h | h
          · exact Or.inl h
          · cases h; exact Or.inl hm
          · exact Or.inr (Or.inr h)
        exact Or.inr ⟨rfl, hg, hcl', hn, hs, fun t h => by cases h; exact shut_lacks m e cache hcl' s hm⟩
      · rw [if_neg hm, secGet_view I g m hr c hg s e ho]
        cases hv : view m s e with
        | some v =>
          exact Or.inl ⟨v, s, rfl, ⟨0, s, rfl, hv, fun k t hk => by omega⟩, rfl⟩
        | none =>
          simp only
          obtain ⟨n1, n2⟩ := next_spec I g m hr hc c hg s ho
          generalize nextSection I c s = f at n1 n2
          obtain ⟨c', cur'⟩ := f
          simp only at n1 n2 ⊢
          have hshut : Shut m e (s :: cache) cur' := by
            intro t ht
            rcases List.mem_cons.1 ht with rfl | ht
            · refine ⟨hv, fun u hu => ?_⟩
              rcases n2 with ⟨w, w1, w2 | w2⟩ | w2
              · rw [hu] at w1; cases w1
                exact Or.inr (Or.inl w2.1)
              · rw [hu] at w1; cases w1
                exact Or.inr (Or.inr w2.2)
              · rw [hu] at w2; cases w2.1
            · refine ⟨(hcl t ht).1, fun u hu => ?_⟩
              rcases (hcl t ht).2 u hu with h | h | h
              · exact Or.inl (by simp [h])
              · cases h; exact Or.inl (by simp)
              · exact Or.inr (Or.inr h)
          have hcur' : ∀ t, cur' = some t → One t ∧ t ∈ W := by
            intro t ht
            rcases n2 with ⟨w, w1, w2 | w2⟩ | w2
            · rw [ht] at w2
              have := Option.some.inj w2.1
              rw [this]
              exact ⟨w2.2, hW s w w1⟩
            · rw [ht] at w2; cases w2.1
            · rw [ht] at w2; cases w2.2
          rcases ih c' (s :: cache) cur' n1 hshut (List.nodup_cons.2 ⟨hm, hn⟩)
              (fun x hx => by rcases List.mem_cons.1 hx with rfl | hx; exact hw; exact hs x hx) hcur'
              (by simp only [List.length_cons]; omega) with ⟨v, t, t1, t2, t3⟩ | ⟨t1, t2, t3, t4, t5, t6⟩
          · refine Or.inl ⟨v, s, rfl, ?_, t3⟩
            rcases n2 with ⟨w, w1, w2 | w2⟩ | w2
            · rw [t1] at w2
              have := Option.some.inj w2.1
              rw [this] at t2
              exact finds_step m e s w v hv w1 t2
            · rw [t1] at w2; cases w2.1
            · rw [t1] at w2; cases w2.2
          · refine Or.inr ⟨t1, t2, t3, t4, t5, fun u hu => ?_⟩
            cases hu
            apply lacks_step m e s hv
            intro u hu
            rcases n2 with ⟨w, w1, w2 | w2⟩ | w2
            · rw [hu] at w1; cases w1
              exact t6 u w2.1
            · rw [hu] at w1; cases w1
              exact dead_lacks m e u w2.2
            · rw [hu] at w2; cases w2.1

include hc in
theorem loop_spec (e : Text) (W : List Text) (hW : ∀ s t, view m s ConfEmu.inherits = some t → t ∈ W) (n : Nat) (hl : W.length < n) :
    ∀ (ss : List Text) (c : Emu σ) (cache : List Text), c.gen = g → Shut m e cache none → cache.Nodup → (∀ x ∈ cache, x ∈ W) →
    (∀ s ∈ ss, s ∈ W) →
    (∃ a s b v, ss = a ++ s :: b ∧ (∀ t ∈ a, Lacks (view m) t e) ∧ Finds (view m) s e v ∧ (fuzzyLoop I e n c cache ss).1 = .value v) ∨
    ((∀ t ∈ ss, Lacks (view m) t e) ∧ (fuzzyLoop I e n c cache ss).1 = .none) := by
  intro ss
  induction ss with
  | nil => intro c cache _ _ _ _ _; exact Or.inr ⟨by simp, rfl⟩
  | cons s ss ih =>
    intro c cache hg hcl hn hs hss
    unfold fuzzyLoop
    obtain ⟨n1, n2⟩ := section_spec I g m hr hc c hg s
    simp only
    generalize sectionOf I c s = f at n1 n2
    obtain ⟨c', cur⟩ := f
    simp only at n1 n2 ⊢
    have hcur : ∀ t, cur = some t → t = s ∧ One t := by
      intro t ht
      rcases n2 with w | w
      · rw [ht] at w
        have := Option.some.inj w.1
        rw [this]; exact ⟨rfl, w.2⟩
      · rw [ht] at w; cases w.1
    have := chain_spec I g m hr hc e W hW n c' cache cur n1 (by
        intro t ht
        refine ⟨(hcl t ht).1, fun u hu => ?_⟩
        rcases (hcl t ht).2 u hu with h | h | h
        · exact Or.inl h
        · cases h
        · exact Or.inr (Or.inr h)) hn hs
      (fun t ht => by rw [(hcur t ht).1]; exact ⟨(hcur t ht).1 ▸ (hcur t ht).2, hss s (by simp)⟩) (by omega)
    generalize ConfEmu.chain I e n c' cache cur = r at this
    obtain ⟨r1, r2, r3⟩ := r
    simp only at this
    rcases this with ⟨v, t, t1, t2, rfl⟩ | ⟨rfl, t2, t3, t4, t5, t6⟩
    · refine Or.inl ⟨[], s, ss, v, rfl, by simp, ?_, rfl⟩
      rw [← (hcur t t1).1]; exact t2
    · have hlack : Lacks (view m) s e := by
        rcases n2 with w | w
        · exact t6 s w.1
        · exact dead_lacks m e s w.2
      rcases ih r2 r3 t2 t3 t4 t5 (fun x hx => hss x (by simp [hx])) with ⟨a, t, b, v, rfl, h2, h3, h4⟩ | ⟨h1, h2⟩
      · refine Or.inl ⟨s :: a, t, b, v, rfl, ?_, h3, h4⟩
        intro u hu
        rcases List.mem_cons.1 hu with rfl | hu
        · exact hlack
        · exact h2 u hu
      · refine Or.inr ⟨?_, h2⟩
        intro u hu
        rcases List.mem_cons.1 hu with rfl | hu
        · exact hlack
        · exact h1 u hu

include hc in
/-- There are finitely many sections that inherit. -/
theorem finite_inherits : ∃ W : List Text, ∀ s t, view m s ConfEmu.inherits = some t → t ∈ W := by
  have := hr.iterator []
  have hp : place ([] : Text) = [] := rfl
  cases hi : I.iterator g (Key.parse []) with
  | none =>
    rw [hi] at this
    refine ⟨[], fun s t h => ?_⟩
    exfalso
    unfold view at h
    split at h
    · unfold Spec.Conf.get at h
      split at h
      · cases h
      · have h0 := this (place (s ++ Spec.Path.slash :: ConfEmu.inherits))
        rw [hp, List.nil_append] at h0
        rw [h0] at h; cases h
    · cases h
  | some r =>
    rw [hi] at this
    obtain ⟨_, _, h3⟩ := this
    refine ⟨r.map fun x => (m (fold x.1 ++ place ConfEmu.inherits)).getD [], fun s t h => ?_⟩
    unfold view at h
    split at h
    · rename_i hs
      unfold Spec.Conf.get at h
      split at h
      · cases h
      · rw [place_append] at h
        have hlen : (place s).length = 1 := by unfold place; rw [List.length_map]; exact hs.1.1
        obtain ⟨x, hx⟩ : ∃ x, place s = [x] := by
          match hps : place s, hlen with
          | [x], _ => exact ⟨x, rfl⟩
        have hex : m [x] ≠ none := hx ▸ hc _ _ (by rw [h]; simp)
        obtain ⟨v, hv⟩ := Option.ne_none_iff_exists'.mp hex
        obtain ⟨y, hy, hy1, _⟩ := (h3 x v).1 (by rw [hp]; exact hv)
        refine List.mem_map.2 ⟨y, hy, ?_⟩
        rw [hy1, ← hx, h]; rfl
    · cases h

end

end Props.Emu
