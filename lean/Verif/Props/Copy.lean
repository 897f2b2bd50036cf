import Verif.Lemmas.Copy
import Verif.Props.TempGen
/- C79: copying and moving a part of a configuration. -/
namespace Props
open Wv Wv.Key Spec.Conf Spec.Copy Spec.Walk Gens Cpy

namespace Cpy

theorem copied_congr (m d d' : Spec.Conf.State) (S D : Place) (force : Bool)
    (h : ∀ q, q ≠ D → d q = d' q) (hD : force = true ∨ d D = none ∧ d' D = none) (hS : m S ≠ none) :
    copied m d S D force = copied m d' S D force := by
  funext q
  unfold copied
  by_cases hq : q = D
  · subst hq
    obtain ⟨v, hv⟩ := Option.ne_none_iff_exists'.mp hS
    rw [if_pos (List.prefix_refl _), if_pos (List.prefix_refl _), List.drop_length, List.append_nil, hv]
    simp only
    rcases hD with h1 | ⟨h1, h2⟩
    · simp [h1]
    · rw [h1, h2]
  · rw [h q hq]

theorem one_root {σ : Type} (I : IGen σ) (Rep : σ → Spec.Conf.State → Prop) (hI : Behaves I Rep) (s : σ)
    (m : Spec.Conf.State) (h : Rep s m) (hc : Closed m) (hb : Bounded m) (src dst : Text)
    (hs : Spec.Path.dir src = false) (hd : Spec.Path.dir dst = false) (hsep : Separate (place src) (place dst)) (force : Bool) :
    ∃ N, ∀ n, N < n → (Copy.copy I I n s (Key.parse src) (Key.parse dst) force).2 = true ∧
      Rep (Copy.copy I I n s (Key.parse src) (Key.parse dst) force).1
        (if m (place src) = none then removed m (place dst)
         else copied m (fun q => if q = place dst then none else m q) (place src) (place dst) force) := by
  obtain ⟨N, hN⟩ := copy_spec I I m hb hc src dst hs hd force
    (fun s d => Rep s d ∧ ∀ q, d (place src ++ q) = m (place src ++ q))
    (fun s d ⟨h1, h2⟩ => below_of I s d m (hI.reads s d h1) src h2)
    (fun s d ⟨h1, h2⟩ => by
      rw [(hI.reads s d h1).get src, Spec.Conf.get, hs]
      have := h2 []
      simpa using this)
    (fun s d ⟨h1, _⟩ t => (hI.reads s d h1).get t)
    (fun s d ⟨h1, h2⟩ t v hp => by
      refine ⟨hI.set s d h1 t v, fun q => ?_⟩
      obtain ⟨r, hr⟩ := hp
      obtain ⟨n1, n2⟩ := separate_under hsep q r
      rw [hr] at n1 n2
      have n3 : place src ++ q ≠ place t := fun e => n1 (by rw [e]; exact List.prefix_refl _)
      rw [← h2 q]
      cases v with
      | none => simp [Spec.Conf.set, n2]
      | some v =>
        simp only [Spec.Conf.set]
        by_cases hdt : Spec.Path.dir t = true
        · rw [if_pos hdt]
        · rw [if_neg hdt, if_neg n3, if_neg n1])
    s m ⟨h, fun _ => rfl⟩ hc
  exact ⟨N, fun n hn => ⟨(hN n hn).1, (hN n hn).2.1⟩⟩

theorem two_roots {σ τ : Type} (I : IGen σ) (J : IGen τ) (RepI : σ → Spec.Conf.State → Prop) (RepJ : τ → Spec.Conf.State → Prop)
    (hI : Behaves I RepI) (hJ : Behaves J RepJ) (s : σ) (t : τ) (m d : Spec.Conf.State) (hm : RepI s m) (hd : RepJ t d)
    (hmc : Closed m) (hmb : Bounded m) (hdc : Closed d) (src dst : Text)
    (hs : Spec.Path.dir src = false) (hdd : Spec.Path.dir dst = false) (force : Bool) :
    ∃ N, ∀ n, N < n → (Copy.copy (Copy.left I) (Copy.right J) n (s, t) (Key.parse src) (Key.parse dst) force).2 = true ∧
      RepI (Copy.copy (Copy.left I) (Copy.right J) n (s, t) (Key.parse src) (Key.parse dst) force).1.1 m ∧
      RepJ (Copy.copy (Copy.left I) (Copy.right J) n (s, t) (Key.parse src) (Key.parse dst) force).1.2
        (if m (place src) = none then removed d (place dst)
         else copied m (fun q => if q = place dst then none else d q) (place src) (place dst) force) := by
  refine copy_spec (Copy.left I) (Copy.right J) m hmb hmc src dst hs hdd force
    (fun s d => RepI s.1 m ∧ RepJ s.2 d)
    (fun s d ⟨h1, _⟩ => ?_)
    (fun s d ⟨h1, _⟩ => ?_)
    (fun s d ⟨_, h2⟩ k => (hJ.reads s.2 d h2).get k)
    (fun s d ⟨h1, h2⟩ k v _ => ⟨h1, hJ.set s.2 d h2 k v⟩)
    (s, t) d ⟨hm, hd⟩ hdc
  · have := below_of I s.1 m m (hI.reads s.1 m h1) src (fun _ => rfl)
    exact ⟨this.get, this.top, this.iter⟩
  · show I.get s.1 (Key.parse src) = _
    rw [(hI.reads s.1 m h1).get src, Spec.Conf.get, hs]
    simp

end Cpy

/-- C79: what `copy` does, with the source and the destination in the same root, neither of them below the other, on any
    generator that behaves as a configuration: if what is copied exists, and the destination does not or `force` is given, all of it
    is at the destination afterwards, with what was there before kept or, with `force`, overwritten; nothing else changes. The
    loop ends. What is missing: without `force`, if the destination exists itself, see C79_copy_keep and C79_copy_keep_fails; and
    if what is copied does not exist, see C79_copy_missing. -/
theorem C79_copy_partial {σ : Type} (I : IGen σ) (Rep : σ → Spec.Conf.State → Prop) (hI : Behaves I Rep) (s : σ)
    (m : Spec.Conf.State) (h : Rep s m) (hc : Closed m) (hb : Bounded m) (src dst : Text)
    (hs : Spec.Path.dir src = false) (hd : Spec.Path.dir dst = false) (hsep : Separate (place src) (place dst)) (force : Bool)
    (hex : m (place src) ≠ none) (hf : force = true ∨ m (place dst) = none) :
    ∃ N, ∀ n, N < n → (Copy.copy I I n s (Key.parse src) (Key.parse dst) force).2 = true ∧
      Rep (Copy.copy I I n s (Key.parse src) (Key.parse dst) force).1 (copied m m (place src) (place dst) force) := by
  have := one_root I Rep hI s m h hc hb src dst hs hd hsep force
  rw [if_neg hex, copied_congr m _ m (place src) (place dst) force (fun q hq => if_neg hq)
    (by rcases hf with h | h
        · exact Or.inl h
        · exact Or.inr ⟨if_pos rfl, h⟩) hex] at this
  exact this

/-- C79: in any case: as if the destination itself, not what is below it, had not been there. -/
theorem C79_copy_keep {σ : Type} (I : IGen σ) (Rep : σ → Spec.Conf.State → Prop) (hI : Behaves I Rep) (s : σ)
    (m : Spec.Conf.State) (h : Rep s m) (hc : Closed m) (hb : Bounded m) (src dst : Text)
    (hs : Spec.Path.dir src = false) (hd : Spec.Path.dir dst = false) (hsep : Separate (place src) (place dst)) (force : Bool)
    (hex : m (place src) ≠ none) :
    ∃ N, ∀ n, N < n → (Copy.copy I I n s (Key.parse src) (Key.parse dst) force).2 = true ∧
      Rep (Copy.copy I I n s (Key.parse src) (Key.parse dst) force).1
        (copied m (fun q => if q = place dst then none else m q) (place src) (place dst) force) := by
  have := one_root I Rep hI s m h hc hb src dst hs hd hsep force
  rw [if_neg hex] at this
  exact this

/-- C79: if what is copied does not exist, the destination is removed, with or without `force`. -/
theorem C79_copy_missing {σ : Type} (I : IGen σ) (Rep : σ → Spec.Conf.State → Prop) (hI : Behaves I Rep) (s : σ)
    (m : Spec.Conf.State) (h : Rep s m) (hc : Closed m) (hb : Bounded m) (src dst : Text)
    (hs : Spec.Path.dir src = false) (hd : Spec.Path.dir dst = false) (hsep : Separate (place src) (place dst)) (force : Bool)
    (hex : m (place src) = none) :
    ∃ N, ∀ n, N < n → (Copy.copy I I n s (Key.parse src) (Key.parse dst) force).2 = true ∧
      Rep (Copy.copy I I n s (Key.parse src) (Key.parse dst) force).1 (removed m (place dst)) := by
  have := one_root I Rep hI s m h hc hb src dst hs hd hsep force
  rw [if_pos hex] at this
  exact this

/-- C79: the same with the destination in another root; then any two keys may be given, also the whole of either. What is
    copied from does not change. -/
theorem C79_copy_two_partial {σ τ : Type} (I : IGen σ) (J : IGen τ) (RepI : σ → Spec.Conf.State → Prop)
    (RepJ : τ → Spec.Conf.State → Prop) (hI : Behaves I RepI) (hJ : Behaves J RepJ) (s : σ) (t : τ) (m d : Spec.Conf.State)
    (hm : RepI s m) (hd : RepJ t d) (hmc : Closed m) (hmb : Bounded m) (hdc : Closed d) (src dst : Text)
    (hs : Spec.Path.dir src = false) (hdd : Spec.Path.dir dst = false) (force : Bool)
    (hex : m (place src) ≠ none) (hf : force = true ∨ d (place dst) = none) :
    ∃ N, ∀ n, N < n → (Copy.copy (Copy.left I) (Copy.right J) n (s, t) (Key.parse src) (Key.parse dst) force).2 = true ∧
      RepI (Copy.copy (Copy.left I) (Copy.right J) n (s, t) (Key.parse src) (Key.parse dst) force).1.1 m ∧
      RepJ (Copy.copy (Copy.left I) (Copy.right J) n (s, t) (Key.parse src) (Key.parse dst) force).1.2
        (copied m d (place src) (place dst) force) := by
  have := two_roots I J RepI RepJ hI hJ s t m d hm hd hmc hmb hdc src dst hs hdd force
  rw [if_neg hex, copied_congr m _ d (place src) (place dst) force (fun q hq => if_neg hq)
    (by rcases hf with h | h
        · exact Or.inl h
        · exact Or.inr ⟨if_pos rfl, h⟩) hex] at this
  exact this

namespace Cpy

theorem removed_closed (m : Spec.Conf.State) (h : Closed m) (D : Place) : Closed (removed m D) := by
  intro q r hq
  unfold removed at hq ⊢
  by_cases h1 : D <+: q ++ r
  · rw [if_pos h1] at hq; exact absurd rfl hq
  · rw [if_neg h1] at hq
    rw [if_neg (fun h2 => h1 (h2.trans (List.prefix_append _ _)))]
    exact h q r hq

theorem removed_bounded (m : Spec.Conf.State) (h : Bounded m) (D : Place) : Bounded (removed m D) := by
  obtain ⟨d, hd⟩ := h
  refine ⟨d, fun q hq => hd q ?_⟩
  unfold removed at hq
  by_cases h1 : D <+: q
  · rw [if_pos h1] at hq; exact absurd rfl hq
  · rw [if_neg h1] at hq; exact hq

theorem copied_source (m m' d : Spec.Conf.State) (S D : Place) (force : Bool) (h : ∀ r, m (S ++ r) = m' (S ++ r)) :
    copied m d S D force = copied m' d S D force := by
  funext q; unfold copied; rw [h]

end Cpy

/-- C79: what `move` does, in one root, with neither key below the other, if what is moved exists: afterwards all of it is at the
    destination and not where it was. What was at the destination is lost. The loop ends. -/
theorem C79_move {σ : Type} (I : IGen σ) (Rep : σ → Spec.Conf.State → Prop) (hI : Behaves I Rep) (s : σ)
    (m : Spec.Conf.State) (h : Rep s m) (hc : Closed m) (hb : Bounded m) (src dst : Text)
    (hs : Spec.Path.dir src = false) (hd : Spec.Path.dir dst = false) (hsep : Separate (place src) (place dst))
    (hex : m (place src) ≠ none) :
    ∃ N, ∀ n, N < n → (Copy.move I I n s (Key.parse src) (Key.parse dst)).2 = true ∧
      Rep (Copy.move I I n s (Key.parse src) (Key.parse dst)).1 (moved m (place src) (place dst)) := by
  have h1 : Rep (Copy.remove I s (Key.parse dst)) (removed m (place dst)) := hI.set s m h dst none
  have hsrc : ∀ r, removed m (place dst) (place src ++ r) = m (place src ++ r) := by
    intro r
    have := (separate_under hsep r []).2
    rw [List.append_nil] at this
    exact if_neg this
  have hex' : removed m (place dst) (place src) ≠ none := by
    have := hsrc []
    rw [List.append_nil] at this
    rw [this]; exact hex
  obtain ⟨N, hN⟩ := C79_copy_partial I Rep hI _ _ h1 (removed_closed m hc _) (removed_bounded m hb _) src dst hs hd hsep true hex' (Or.inl rfl)
  refine ⟨N, fun n hn => ?_⟩
  obtain ⟨h2, h3⟩ := hN n hn
  refine ⟨h2, ?_⟩
  have h4 := hI.set _ _ h3 src none
  have e : Spec.Conf.set (copied (removed m (place dst)) (removed m (place dst)) (place src) (place dst) true) src none
      = moved m (place src) (place dst) := by
    rw [copied_source _ m _ _ _ _ hsrc]
    funext q
    simp only [Spec.Conf.set]
    unfold moved copied removed
    by_cases g1 : place src <+: q
    · rw [if_pos g1, if_pos g1]
    · rw [if_neg g1, if_neg g1]
      by_cases g2 : place dst <+: q
      · simp only [if_pos g2]
        cases m (place src ++ q.drop (place dst).length) <;> simp
      · simp only [if_neg g2]
  rw [e] at h4
  exact h4

/-- C79: and if it does not exist, only the destination is lost. -/
theorem C79_move_missing {σ : Type} (I : IGen σ) (Rep : σ → Spec.Conf.State → Prop) (hI : Behaves I Rep) (s : σ)
    (m : Spec.Conf.State) (h : Rep s m) (hc : Closed m) (hb : Bounded m) (src dst : Text)
    (hs : Spec.Path.dir src = false) (hd : Spec.Path.dir dst = false) (hsep : Separate (place src) (place dst))
    (hex : m (place src) = none) :
    ∃ N, ∀ n, N < n → (Copy.move I I n s (Key.parse src) (Key.parse dst)).2 = true ∧
      Rep (Copy.move I I n s (Key.parse src) (Key.parse dst)).1 (removed m (place dst)) := by
  have h1 : Rep (Copy.remove I s (Key.parse dst)) (removed m (place dst)) := hI.set s m h dst none
  have hex' : removed m (place dst) (place src) = none := by
    unfold removed
    split
    · rfl
    · exact hex
  obtain ⟨N, hN⟩ := C79_copy_missing I Rep hI _ _ h1 (removed_closed m hc _) (removed_bounded m hb _) src dst hs hd hsep true hex'
  refine ⟨N, fun n hn => ?_⟩
  obtain ⟨h2, h3⟩ := hN n hn
  refine ⟨h2, ?_⟩
  have h4 := hI.set _ _ h3 src none
  have e : Spec.Conf.set (removed (removed m (place dst)) (place dst)) src none = removed m (place dst) := by
    funext q
    simp only [Spec.Conf.set]
    by_cases g1 : place src <+: q
    · rw [if_pos g1]
      obtain ⟨r, rfl⟩ := g1
      have hr : m (place src ++ r) = none := by
        cases hm : m (place src ++ r) with
        | none => rfl
        | some v => exact absurd hex (hc _ r (by rw [hm]; simp))
      unfold removed
      split
      · rfl
      · exact hr.symm
    · rw [if_neg g1]
      unfold removed
      split <;> rfl
  rw [e] at h4
  exact h4

/-- C79: moving a key onto itself, or onto one it is below of, removes all that is at the destination. -/
theorem C79_move_above {σ : Type} (I : IGen σ) (Rep : σ → Spec.Conf.State → Prop) (hI : Behaves I Rep) (s : σ)
    (m : Spec.Conf.State) (h : Rep s m) (hc : Closed m) (hb : Bounded m) (src dst : Text)
    (hs : Spec.Path.dir src = false) (hab : place dst <+: place src) :
    ∃ N, ∀ n, N < n → (Copy.move I I n s (Key.parse src) (Key.parse dst)).2 = true ∧
      Rep (Copy.move I I n s (Key.parse src) (Key.parse dst)).1 (removed m (place dst)) := by
  have h1 : Rep (Copy.remove I s (Key.parse dst)) (removed m (place dst)) := hI.set s m h dst none
  have hnone : ∀ r, removed m (place dst) (place src ++ r) = none := by
    intro r
    unfold removed
    rw [if_pos (hab.trans (List.prefix_append _ _))]
  have hidem : ∀ k, place dst <+: place k → Spec.Conf.set (removed m (place dst)) k none = removed m (place dst) := by
    intro k hk
    funext q
    simp only [Spec.Conf.set]
    by_cases g1 : place k <+: q
    · rw [if_pos g1]
      unfold removed
      rw [if_pos (hk.trans g1)]
    · rw [if_neg g1]
  have hget : I.get (Copy.remove I s (Key.parse dst)) (Key.parse src) = none := by
    rw [(hI.reads _ _ h1).get src, Spec.Conf.get, hs]
    have := hnone []
    simpa using this
  have h2 := hI.set _ _ h1 dst none
  rw [hidem dst (List.prefix_refl _)] at h2
  obtain ⟨L, l1, l2, l3⟩ := loop_spec I (Copy.round I I (Key.parse src) (Key.parse dst) true) (removed m (place dst))
    (removed_bounded m hb _) src (fun s => Rep s (removed m (place dst)))
    (fun s h => below_of I s _ _ (hI.reads s _ h) src (fun _ => rfl))
    (fun s y _ _ _ h3 => absurd (hnone _) h3) _ h2
  have hL : L = [] := by
    cases L with
    | nil => rfl
    | cons y L =>
      obtain ⟨pm, -⟩ := Rec.preorder_mem _ (removed_closed m hc _) _ _ _ l2
      obtain ⟨t, _, _, t3, t4⟩ := (pm (fold y) _).1 (List.mem_map.2 ⟨y, by simp, rfl⟩)
      exact absurd (hnone _) t4
  subst hL
  refine ⟨0, fun n hn => ?_⟩
  unfold Copy.move Copy.copy
  simp only
  rw [hget, l3 n hn]
  refine ⟨rfl, ?_⟩
  have h3 := hI.set _ _ h2 src none
  rw [hidem src hab] at h3
  exact h3

namespace Cpy

def set1 (k v : Text) : Temp.SetCall := ⟨k, some v, id, fun _ => List.Perm.refl _⟩

/-- `a` with something below, and `z` with something below. -/
def sample : List Temp.SetCall :=
  [set1 (str ['a']) (str ['1']), set1 (str ['a', '/', 'b']) (str ['2']), set1 (str ['a', '/', 'b', '/', 'c']) (str ['3']),
   set1 (str ['a', '/', 'x']) (str ['4']), set1 (str ['z']) (str ['5']), set1 (str ['z', '/', 'b']) (str ['6']),
   set1 (str ['z', '/', 'y']) (str ['7'])]

def genAt (l : List Temp.SetCall) : TempGen.Gen := Temp.after TempGen.new l

def tg : IGen TempGen.Gen := IGen.temp id

theorem sample_shape : Closed (Temp.conf sample) ∧ Bounded (Temp.conf sample) :=
  Rec.run_shape (Temp.calls sample) Spec.Conf.empty Rec.empty_shape.1 Rec.empty_shape.2

end Cpy

/-- The hypotheses are met, with something at both places and below. -/
example := C79_copy_partial tg Temp.Holds (temp_behaves id fun _ => List.Perm.refl _) (genAt sample) (Temp.conf sample)
  (Temp.conf_holds sample) sample_shape.1 sample_shape.2 (str ['A']) (str ['/', 'z']) (by decide +kernel) (by decide +kernel)
  (by constructor <;> decide +kernel) true (by decide +kernel) (Or.inl rfl)

example := C79_copy_partial tg Temp.Holds (temp_behaves id fun _ => List.Perm.refl _) (genAt sample) (Temp.conf sample)
  (Temp.conf_holds sample) sample_shape.1 sample_shape.2 (str ['A']) (str ['n', '/', 'o']) (by decide +kernel) (by decide +kernel)
  (by constructor <;> decide +kernel) false (by decide +kernel) (Or.inr (by decide +kernel))

example := C79_copy_keep tg Temp.Holds (temp_behaves id fun _ => List.Perm.refl _) (genAt sample) (Temp.conf sample)
  (Temp.conf_holds sample) sample_shape.1 sample_shape.2 (str ['a']) (str ['z']) (by decide +kernel) (by decide +kernel)
  (by constructor <;> decide +kernel) false (by decide +kernel)

example := C79_copy_missing tg Temp.Holds (temp_behaves id fun _ => List.Perm.refl _) (genAt sample) (Temp.conf sample)
  (Temp.conf_holds sample) sample_shape.1 sample_shape.2 (str ['q']) (str ['z']) (by decide +kernel) (by decide +kernel)
  (by constructor <;> decide +kernel) false (by decide +kernel)

example := C79_copy_two_partial tg tg Temp.Holds Temp.Holds (temp_behaves id fun _ => List.Perm.refl _)
  (temp_behaves id fun _ => List.Perm.refl _) (genAt sample) (genAt sample) (Temp.conf sample) (Temp.conf sample)
  (Temp.conf_holds sample) (Temp.conf_holds sample) sample_shape.1 sample_shape.2 sample_shape.1 [] (str ['a', '/', 'b'])
  (by decide +kernel) (by decide +kernel) true (by decide +kernel) (Or.inl rfl)

example := C79_move tg Temp.Holds (temp_behaves id fun _ => List.Perm.refl _) (genAt sample) (Temp.conf sample)
  (Temp.conf_holds sample) sample_shape.1 sample_shape.2 (str ['a']) (str ['z']) (by decide +kernel) (by decide +kernel)
  (by constructor <;> decide +kernel) (by decide +kernel)

example := C79_move_missing tg Temp.Holds (temp_behaves id fun _ => List.Perm.refl _) (genAt sample) (Temp.conf sample)
  (Temp.conf_holds sample) sample_shape.1 sample_shape.2 (str ['q']) (str ['z']) (by decide +kernel) (by decide +kernel)
  (by constructor <;> decide +kernel) (by decide +kernel)

example := C79_move_above tg Temp.Holds (temp_behaves id fun _ => List.Perm.refl _) (genAt sample) (Temp.conf sample)
  (Temp.conf_holds sample) sample_shape.1 sample_shape.2 (str ['a', '/', 'b']) (str ['a']) (by decide +kernel) (by decide +kernel)

/-- The whole of it, on the in-memory generator: `a` copied to `z` with `force`. -/
example : let r := Copy.copy tg tg 9 (genAt sample) (Key.parse (str ['a'])) (Key.parse (str ['z'])) true
    r.2 = true ∧ [str ['z'], str ['z', '/', 'b'], str ['z', '/', 'b', '/', 'c'], str ['z', '/', 'x'], str ['z', '/', 'y'], str ['a', '/', 'b']].map
      (fun k => tg.get r.1 (Key.parse k)) = [some (str ['1']), some (str ['2']), some (str ['3']), some (str ['4']), some (str ['7']), some (str ['2'])] := by
  decide +kernel

/-- C79, the full claim, is false of the code: without `force` the value of the destination itself is overwritten although it
    exists, while those below are kept. -/
theorem C79_copy_keep_fails : ∃ (l : List Temp.SetCall) (src dst : Text), Separate (place src) (place dst) ∧
    Temp.conf l (place dst) = some (str ['5']) ∧
    let r := Copy.copy tg tg 9 (genAt l) (Key.parse src) (Key.parse dst) false
    r.2 = true ∧ tg.get r.1 (Key.parse dst) = some (str ['1']) ∧ tg.get r.1 (Key.parse (str ['z', '/', 'b'])) = some (str ['6']) :=
  ⟨sample, str ['a'], str ['z'], by constructor <;> decide +kernel, by decide +kernel, by decide +kernel⟩

/-- C79: and if there is nothing to copy, without `force`, all that is at the destination is removed. -/
theorem C79_copy_missing_fails : ∃ (l : List Temp.SetCall) (src dst : Text), Separate (place src) (place dst) ∧
    Temp.conf l (place dst) = some (str ['5']) ∧ Temp.conf l (place src) = none ∧
    let r := Copy.copy tg tg 9 (genAt l) (Key.parse src) (Key.parse dst) false
    r.2 = true ∧ tg.get r.1 (Key.parse dst) = none ∧ tg.get r.1 (Key.parse (str ['z', '/', 'b'])) = none :=
  ⟨sample, str ['q'], str ['z'], by constructor <;> decide +kernel, by decide +kernel, by decide +kernel, by decide +kernel⟩

/-- C79: `move` to a key that exists does not leave the key as a subkey there, as include/uniconf.h says: it takes its place. -/
theorem C79_move_fails : ∃ (l : List Temp.SetCall) (src dst : Text), Separate (place src) (place dst) ∧
    Temp.conf l (place dst) = some (str ['5']) ∧ Temp.conf l (place src) = some (str ['1']) ∧
    let r := Copy.move tg tg 9 (genAt l) (Key.parse src) (Key.parse dst)
    r.2 = true ∧ tg.get r.1 (Key.parse (str ['z', '/', 'a'])) = none ∧ tg.get r.1 (Key.parse dst) = some (str ['1']) ∧
      tg.get r.1 (Key.parse (str ['z', '/', 'y'])) = none :=
  ⟨sample, str ['a'], str ['z'], by constructor <;> decide +kernel, by decide +kernel, by decide +kernel, by decide +kernel⟩

end Props
