import Verif.Lemmas.ConfEmu
import Verif.Lemmas.ConfText
import Verif.Lemmas.HttpText
import Verif.Props.Copy
/- C81: sections and entries on top of a tree of names. -/
namespace Props
open Wv Wv.Key Spec.ConfEmu Gens Spec.Walk
open Wv.Http (trim_pad trimmed_nil)
open Wv.ConfFile (trim_split)
open Spec.Conf (place Text)
open Spec.ConfFile (Values same Finds Lacks Trimmed)

/-- C81: after any history of setting texts and integers, setting what is not there yet, setting through a section and deleting
    sections, `get` gives the value an entry was given last, or the default if it has none; case does not matter. For any generator
    that behaves as a configuration, names without slashes, and integers other than the smallest. -/
theorem C81_values {σ : Type} (I : IGen σ) (Rep : σ → Spec.Conf.State → Prop) (hI : Behaves I Rep) (c : ConfEmu.Emu σ)
    (m : Spec.Conf.State) (h : Rep c.gen m) (l : List Act) (hl : ∀ a ∈ l, a.Plain) :
    ∃ c', Emu.execs I c l = some c' ∧
      ∀ s e d, Plain s → Plain e → ConfEmu.get I c' s e d = (l.foldl act (view m) s e).or d := by
  obtain ⟨c', m', h1, h2, h3⟩ := Emu.execs_spec I Rep hI l c m (view m) h (fun _ _ _ _ => rfl) hl
  refine ⟨c', h1, fun s e d hs he => ?_⟩
  rw [Emu.get_view I Rep hI c' m' h2 s e (Emu.one_plain hs) d, h3 s e hs he]

/-- C81: `fuzzy_get` gives the value of the first of the sections that has the entry or inherits it from another, and the default if
    none does. It always ends, also if sections inherit from each other in a circle. -/
theorem C81_fuzzy {σ : Type} (I : IGen σ) (c : ConfEmu.Emu σ) (m : Spec.Conf.State) (hr : Reads I c.gen m) (hc : Closed m)
    (ss : List Text) (e : Text) (d : Option Text) :
    ∃ N, ∀ n, N < n → (∃ a s b v, ss = a ++ s :: b ∧ (∀ t ∈ a, Lacks (view m) t e) ∧ Finds (view m) s e v ∧
        (ConfEmu.fuzzyGet I n c ss e d).1 = some (some v)) ∨
      ((∀ t ∈ ss, Lacks (view m) t e) ∧ (ConfEmu.fuzzyGet I n c ss e d).1 = some d) := by
  obtain ⟨W, hW⟩ := Emu.finite_inherits I c.gen m hr hc
  refine ⟨(ss ++ W).length, fun n hn => ?_⟩
  have := Emu.loop_spec I c.gen m hr hc e (ss ++ W) (fun s t h => List.mem_append.2 (Or.inr (hW s t h))) n hn ss c [] rfl
    (fun s hs => by cases hs) List.nodup_nil (by simp) (fun s hs => List.mem_append.2 (Or.inl hs))
  unfold ConfEmu.fuzzyGet
  generalize ConfEmu.fuzzyLoop I e n c [] ss = r at this
  obtain ⟨r1, r2⟩ := r
  simp only at this
  rcases this with ⟨a, s, b, v, h1, h2, h3, rfl⟩ | ⟨h1, rfl⟩
  · exact Or.inl ⟨a, s, b, v, h1, h2, h3, rfl⟩
  · exact Or.inr ⟨h1, rfl⟩

namespace Emu

theorem cut_some (x : Byte) (a b : Text) (h : x ∉ a) : ConfEmu.cutAt x (a ++ x :: b) = some (a, b) := by
  unfold ConfEmu.cutAt
  rw [if_pos (by simp)]
  have h1 : ∀ y ∈ a, (y != x) = true := by
    intro y hy
    simp only [bne_iff_ne, ne_eq]
    rintro rfl; exact h hy
  rw [List.takeWhile_append_of_pos h1, List.dropWhile_append_of_pos h1]
  simp

theorem cut_none (x : Byte) (a : Text) (h : x ∉ a) : ConfEmu.cutAt x a = none := by
  unfold ConfEmu.cutAt
  rw [if_neg h]

/-- White space. -/
def Blank (t : Text) : Prop := ∀ b ∈ t, isspace b = true

/-- The text with white space around it. -/
def Padded (t x : Text) : Prop := ∃ a b, t = a ++ x ++ b ∧ Blank a ∧ Blank b

theorem trim_padded {t x : Text} (hx : Trimmed x) (h : Padded t x) : trimString t = x := by
  obtain ⟨a, b, rfl, ha, hb⟩ := h
  exact trim_pad a x b hx ha hb

theorem padded_mem {t x : Text} (h : Padded t x) {y : Byte} (hy : isspace y = false) (hm : y ∉ x) : y ∉ t := by
  obtain ⟨a, b, rfl, ha, hb⟩ := h
  simp only [List.mem_append, not_or]
  refine ⟨⟨fun hq => ?_, hm⟩, fun hq => ?_⟩
  · have := ha y hq; rw [hy] at this; cases this
  · have := hb y hq; rw [hy] at this; cases this

end Emu

/-- C81: a request "[section] entry = value" is taken apart at the first '[', the first ']' after it and the first '=' after that;
    white space around the parts does not matter. -/
theorem C81_request (j s e v s0 e0 v0 : Text) (hj : ch '[' ∉ j) (hs : Trimmed s) (he : Trimmed e) (hv : Trimmed v)
    (hs0 : Emu.Padded s0 s) (he0 : Emu.Padded e0 e) (hv0 : Emu.Padded v0 v) (hsn : s ≠ []) (hsb : ch ']' ∉ s) (heq : ch '=' ∉ e) :
    ConfEmu.parseRequest (j ++ ch '[' :: s0 ++ ch ']' :: e0 ++ ch '=' :: v0) = ⟨0, s, e, some v⟩ ∧
    ConfEmu.parseRequest (j ++ ch '[' :: s0 ++ ch ']' :: e0) = ⟨0, s, e, none⟩ := by
  have h1 := Emu.padded_mem hs0 (y := ch ']') (by decide +kernel) hsb
  have h2 := Emu.padded_mem he0 (y := ch '=') (by decide +kernel) heq
  have a1 : j ++ ch '[' :: s0 ++ ch ']' :: e0 ++ ch '=' :: v0 = j ++ ch '[' :: (s0 ++ ch ']' :: (e0 ++ ch '=' :: v0)) := by simp
  have a2 : j ++ ch '[' :: s0 ++ ch ']' :: e0 = j ++ ch '[' :: (s0 ++ ch ']' :: e0) := by simp
  constructor
  · rw [a1]
    unfold ConfEmu.parseRequest
    rw [Emu.cut_some _ _ _ hj]
    simp only
    rw [Emu.cut_some _ _ _ h1]
    simp only
    rw [Emu.cut_some _ _ _ h2]
    simp only
    rw [Emu.trim_padded hs hs0, Emu.trim_padded he he0, Emu.trim_padded hv hv0, if_neg hsn]
  · rw [a2]
    unfold ConfEmu.parseRequest
    rw [Emu.cut_some _ _ _ hj]
    simp only
    rw [Emu.cut_some _ _ _ h1]
    simp only
    rw [Emu.cut_none _ _ h2]
    simp only
    rw [Emu.trim_padded hs hs0, Emu.trim_padded he he0, if_neg hsn]

/-- C81: what is wrong with a request: -1 if there is no '[', -2 if there is no ']' after it, -3 if there is only white space between
    them; and nothing otherwise. -/
theorem C81_request_error (r : Text) :
    ((ConfEmu.parseRequest r).error = -1 ↔ ch '[' ∉ r) ∧
    ((ConfEmu.parseRequest r).error = -2 ↔ ∃ j a, r = j ++ ch '[' :: a ∧ ch '[' ∉ j ∧ ch ']' ∉ a) ∧
    ((ConfEmu.parseRequest r).error = -3 ↔ ∃ j s b, r = j ++ ch '[' :: s ++ ch ']' :: b ∧ ch '[' ∉ j ∧ ch ']' ∉ s ∧ Emu.Blank s) ∧
    ((ConfEmu.parseRequest r).error ∈ [0, -1, -2, -3]) := by
  have uniq : ∀ {x : Byte} {a a' b b' : Text}, x ∉ a → x ∉ a' → a ++ x :: b = a' ++ x :: b' → a = a' ∧ b = b' := by
    intro x a a' b b' h h' e
    have e1 := Emu.cut_some x a b h
    rw [e, Emu.cut_some x a' b' h'] at e1
    have := Option.some.inj e1
    exact ⟨(congrArg Prod.fst this).symm, (congrArg Prod.snd this).symm⟩
  by_cases h1 : ch '[' ∈ r
  · obtain ⟨j, a, rfl, hj⟩ : ∃ j a, r = j ++ ch '[' :: a ∧ ch '[' ∉ j := by
      obtain ⟨j, a, e, hj⟩ := List.eq_append_cons_of_mem h1
      exact ⟨j, a, e, hj⟩
    by_cases h2 : ch ']' ∈ a
    · obtain ⟨s, b, rfl, hs⟩ : ∃ s b, a = s ++ ch ']' :: b ∧ ch ']' ∉ s := by
        obtain ⟨j, a, e, hj⟩ := List.eq_append_cons_of_mem h2
        exact ⟨j, a, e, hj⟩
      have he : (ConfEmu.parseRequest (j ++ ch '[' :: (s ++ ch ']' :: b))).error = if trimString s = [] then -3 else 0 := by
        unfold ConfEmu.parseRequest
        rw [Emu.cut_some _ _ _ hj]
        simp only
        rw [Emu.cut_some _ _ _ hs]
      have hb : trimString s = [] ↔ Emu.Blank s := by
        constructor
        · intro h0
          obtain ⟨p, q, e, hp, hq⟩ := trim_split s
          rw [h0] at e
          intro x hx
          rw [e] at hx
          simp only [List.append_nil, List.mem_append] at hx
          rcases hx with hx | hx
          · exact hp x hx
          · exact hq x hx
        · intro h0
          have := trim_pad s [] [] trimmed_nil h0 (by simp)
          simpa using this
      rw [he]
      refine ⟨⟨fun h => ?_, fun h => absurd h1 h⟩, ⟨fun h => ?_, fun ⟨j', a', e, hj', ha'⟩ => ?_⟩, ⟨fun h => ?_, fun ⟨j', s', b', e, hj', hs', hbl⟩ => ?_⟩, ?_⟩
      · split at h <;> cases h
      · split at h <;> cases h
      · have := (uniq hj hj' e).2
        rw [← this] at ha'
        exact absurd h2 ha'
      · by_cases h0 : trimString s = []
        · exact ⟨j, s, b, by simp, hj, hs, hb.1 h0⟩
        · rw [if_neg h0] at h; cases h
      · rw [List.append_assoc, List.cons_append] at e
        have := (uniq hj hj' e).2
        have := (uniq hs hs' this).1
        rw [if_pos (hb.2 (this ▸ hbl))]
      · split <;> simp
    · have he : (ConfEmu.parseRequest (j ++ ch '[' :: a)).error = -2 := by
        unfold ConfEmu.parseRequest
        rw [Emu.cut_some _ _ _ hj]
        simp only
        rw [Emu.cut_none _ _ h2]
      rw [he]
      refine ⟨⟨(fun h => by cases h), fun h => absurd h1 h⟩, ⟨fun _ => ⟨j, a, rfl, hj, h2⟩, fun _ => rfl⟩, ⟨(fun h => by cases h), fun ⟨j', s', b', e, hj', hs', hbl⟩ => ?_⟩, by simp⟩
      rw [List.append_assoc, List.cons_append] at e
      have := (uniq hj hj' e).2
      rw [this] at h2
      exact absurd (by simp) h2
  · have he : (ConfEmu.parseRequest r).error = -1 := by
      unfold ConfEmu.parseRequest
      rw [Emu.cut_none _ _ h1]
    rw [he]
    refine ⟨⟨fun _ => h1, fun _ => rfl⟩, ⟨(fun h => by cases h), fun ⟨j', a', e, _, _⟩ => ?_⟩, ⟨(fun h => by cases h), fun ⟨j', s', b', e, _⟩ => ?_⟩, by simp⟩
    · rw [e] at h1; exact absurd (by simp) h1
    · rw [e] at h1; exact absurd (by simp) h1

/-- C81: reading with a request gives the value of the entry, or the value in the request if it has none; writing with one sets the
    entry, and gives what it is then. -/
theorem C81_raw {σ : Type} (I : IGen σ) (Rep : σ → Spec.Conf.State → Prop) (hI : Behaves I Rep) (c : ConfEmu.Emu σ)
    (m : Spec.Conf.State) (h : Rep c.gen m) (j s e v s0 e0 v0 : Text) (hj : ch '[' ∉ j) (hs : Trimmed s) (he : Trimmed e)
    (hv : Trimmed v) (hs0 : Emu.Padded s0 s) (he0 : Emu.Padded e0 e) (hv0 : Emu.Padded v0 v) (hsb : ch ']' ∉ s) (heq : ch '=' ∉ e)
    (hps : Plain s) (hpe : Plain e) :
    ConfEmu.getraw I c (j ++ ch '[' :: s0 ++ ch ']' :: e0 ++ ch '=' :: v0) = ((view m s e).or (some v), 0) ∧
    ConfEmu.getraw I c (j ++ ch '[' :: s0 ++ ch ']' :: e0) = (view m s e, 0) ∧
    ConfEmu.setraw I c (j ++ ch '[' :: s0 ++ ch ']' :: e0 ++ ch '=' :: v0) = (ConfEmu.set I c s e (some v), some v, 0) := by
  obtain ⟨r1, r2⟩ := C81_request j s e v s0 e0 v0 hj hs he hv hs0 he0 hv0 hps.1 hsb heq
  refine ⟨?_, ?_, ?_⟩
  · unfold ConfEmu.getraw
    rw [r1]
    simp only
    rw [if_neg (by decide), Emu.get_view I Rep hI c m h s e (Emu.one_plain hps)]
  · unfold ConfEmu.getraw
    rw [r2]
    simp only
    rw [if_neg (by decide), Emu.get_view I Rep hI c m h s e (Emu.one_plain hps), Option.or_none]
  · unfold ConfEmu.setraw
    rw [r1]
    simp only
    rw [if_pos trivial]
    obtain ⟨m', h1, h2⟩ := Emu.set_step I Rep hI c m h s e (some v) hps hpe
    rw [Emu.get_view I Rep hI _ m' h1 s e (Emu.one_plain hps), h2 s e hps hpe, if_pos ⟨rfl, rfl⟩]
    by_cases h0 : v = []
    · subst h0; rfl
    · simp [h0]

/-- C81: setting an entry and deleting a section make the configuration unclean, until it is flushed. What is
    missing: the other calls that change values do not, see C81_clean_fails. -/
theorem C81_clean_partial {σ : Type} (I : IGen σ) (c : ConfEmu.Emu σ) (s e : Text) (v : Option Text) :
    (e ≠ [] → ConfEmu.isclean (ConfEmu.set I c s e v) = false) ∧ ConfEmu.isclean (ConfEmu.deleteSection I c s) = false ∧
    ConfEmu.isclean (ConfEmu.flush I c) = true := by
  refine ⟨fun he => ?_, rfl, rfl⟩
  unfold ConfEmu.set
  rw [if_neg he]; rfl

/-- C81: loading a file: each place that is in the file has its value afterwards, all else is as it was. -/
theorem C81_load {σ τ : Type} (I : IGen σ) (J : IGen τ) (RepI : σ → Spec.Conf.State → Prop) (RepJ : τ → Spec.Conf.State → Prop)
    (hI : Behaves I RepI) (hJ : Behaves J RepJ) (c : ConfEmu.Emu σ) (t : τ) (m f : Spec.Conf.State) (hm : RepI c.gen m)
    (hf : RepJ t f) (hmc : Closed m) (hfc : Closed f) (hfb : Bounded f) (hroot : f [] ≠ none) :
    ∃ N, ∀ n, N < n → (ConfEmu.loadFile I J n c t).2 = true ∧
      RepI (ConfEmu.loadFile I J n c t).1.gen (fun q => (f q).or (m q)) := by
  obtain ⟨N, hN⟩ := C79_copy_two_partial J I RepJ RepI hJ hI t c.gen f m hf hm hfc hfb hmc [] [] rfl rfl true hroot (Or.inl rfl)
  refine ⟨N, fun n hn => ?_⟩
  obtain ⟨h1, _, h3⟩ := hN n hn
  refine ⟨h1, ?_⟩
  have e : Spec.Copy.copied f m (place []) (place []) true = fun q => (f q).or (m q) := by
    funext q
    unfold Spec.Copy.copied
    have hp : place ([] : Text) = [] := rfl
    rw [hp, if_pos List.nil_prefix, List.length_nil, List.drop_zero, List.nil_append]
    cases f q <;> simp
  rw [e] at h3
  exact h3

namespace Emu

/-- Two sections that inherit from each other, and one more. -/
def sample : List Temp.SetCall :=
  [Cpy.set1 (str ['s', '/', 'I', 'n', 'h', 'e', 'r', 'i', 't', 's']) (str ['t']), Cpy.set1 (str ['t', '/', 'a']) (str ['1']),
   Cpy.set1 (str ['t', '/', 'i', 'n', 'h', 'e', 'r', 'i', 't', 's']) (str ['S']), Cpy.set1 (str ['u', '/', 'a']) (str ['2']),
   Cpy.set1 (str ['u', '/', 'b', '/', 'c']) (str ['3'])]

theorem sample_closed : Closed (Temp.conf sample) :=
  (Rec.run_shape (Temp.calls sample) Spec.Conf.empty Rec.empty_shape.1 Rec.empty_shape.2).1

/-- A configuration with them. -/
def start : ConfEmu.Emu TempGen.Gen := ConfEmu.new (Cpy.genAt sample)

/-- An empty one. -/
def fresh : ConfEmu.Emu TempGen.Gen := ConfEmu.new TempGen.new

instance (n : Text) : Decidable (Plain n) := by unfold Plain; infer_instance

end Emu

open Cpy (tg)
open Emu (start fresh)

/-- The hypotheses of C81_values are met. -/
example := C81_values tg Temp.Holds (temp_behaves id fun _ => List.Perm.refl _) start (Temp.conf Emu.sample) (Temp.conf_holds Emu.sample)
  [.set (str ['s']) (str ['x']) (some (str ['1'])), .setint (str ['S']) (str ['y']) (-5), .maybeset (str ['s']) (str ['X']) (some (str ['2'])),
   .delete (str ['t']), .sectset (str ['t']) (str ['z']) (str ['3'])]
  (by
    intro a ha
    simp only [List.mem_cons, List.not_mem_nil, or_false] at ha
    rcases ha with rfl | rfl | rfl | rfl | rfl
    · exact ⟨by decide +kernel, by decide +kernel⟩
    · exact ⟨by decide +kernel, by decide +kernel, by decide, by decide⟩
    · exact ⟨by decide +kernel, by decide +kernel⟩
    · show Plain _; decide +kernel
    · exact ⟨by decide +kernel, by decide +kernel⟩)

/-- And what it comes to. -/
example : ConfEmu.get tg (ConfEmu.maybeset tg (ConfEmu.set tg start (str ['s']) (str ['x']) (some (str ['1']))) (str ['S']) (str ['X']) (some (str ['2'])))
    (str ['s']) (str ['x']) none = some (str ['1']) := by decide +kernel

/-- The hypotheses of C81_fuzzy are met, with sections that inherit from each other. -/
example := C81_fuzzy tg start (Temp.conf Emu.sample) (temp_reads id _ _ (Temp.conf_holds Emu.sample)) Emu.sample_closed
  [str ['q'], str ['s'], str ['u']] (str ['b']) none

example : (ConfEmu.fuzzyGet tg 10 start [str ['q'], str ['S'], str ['u']] (str ['a']) none).1 = some (some (str ['1'])) := by decide +kernel

example : (ConfEmu.fuzzyGet tg 10 start [str ['q'], str ['S'], str ['u']] (str ['z']) (some (str ['d']))).1 = some (some (str ['d'])) := by
  decide +kernel

/-- The hypotheses of C81_request are met. -/
example := C81_request (str ['j']) (str ['s', ' ', 't']) (str ['e']) (str ['=', 'v']) (str [' ', 's', ' ', 't']) (str [' ', 'e', ' ']) (str ['=', 'v', ' '])
  (by decide +kernel) (by unfold Trimmed; decide +kernel) (by unfold Trimmed; decide +kernel) (by unfold Trimmed; decide +kernel)
  ⟨str [' '], [], by decide +kernel, by unfold Emu.Blank; decide +kernel, by unfold Emu.Blank; decide +kernel⟩
  ⟨str [' '], str [' '], by decide +kernel, by unfold Emu.Blank; decide +kernel, by unfold Emu.Blank; decide +kernel⟩
  ⟨[], str [' '], by decide +kernel, by unfold Emu.Blank; decide +kernel, by unfold Emu.Blank; decide +kernel⟩
  (by decide +kernel) (by decide +kernel) (by decide +kernel)

/-- And those of C81_raw. -/
example := C81_raw tg Temp.Holds (temp_behaves id fun _ => List.Perm.refl _) start (Temp.conf Emu.sample) (Temp.conf_holds Emu.sample)
  [] (str ['t']) (str ['a']) (str ['v']) (str ['t', ' ']) (str [' ', 'a']) (str [' ', 'v'])
  (by decide +kernel) (by unfold Trimmed; decide +kernel) (by unfold Trimmed; decide +kernel) (by unfold Trimmed; decide +kernel)
  ⟨[], str [' '], by decide +kernel, by unfold Emu.Blank; decide +kernel, by unfold Emu.Blank; decide +kernel⟩
  ⟨str [' '], [], by decide +kernel, by unfold Emu.Blank; decide +kernel, by unfold Emu.Blank; decide +kernel⟩
  ⟨str [' '], [], by decide +kernel, by unfold Emu.Blank; decide +kernel, by unfold Emu.Blank; decide +kernel⟩
  (by decide +kernel) (by decide +kernel) (by decide +kernel) (by decide +kernel)

/-- All the errors of requests occur. -/
example : ((ConfEmu.parseRequest (str ['a', ']'])).error, (ConfEmu.parseRequest (str [']', '[', 'a'])).error,
    (ConfEmu.parseRequest (str ['[', ' ', ']', 'a'])).error, (ConfEmu.parseRequest (str ['[', 'a', ']', 'a'])).error) = (-1, -2, -3, 0) := by
  decide +kernel

/-- The hypotheses of C81_load are met. -/
example := C81_load tg tg Temp.Holds Temp.Holds (temp_behaves id fun _ => List.Perm.refl _) (temp_behaves id fun _ => List.Perm.refl _)
  start (Cpy.genAt Cpy.sample) (Temp.conf Emu.sample) (Temp.conf Cpy.sample) (Temp.conf_holds Emu.sample) (Temp.conf_holds Cpy.sample)
  Emu.sample_closed Cpy.sample_shape.1 Cpy.sample_shape.2 (by decide +kernel)

/-- C81: a name with a slash is not one name. Setting the entry "a/b" gives the entry "a" the value "", and removing the entry "a"
    removes the entry "a/b". -/
theorem C81_values_fails : ∃ s e e', same e e' = False ∧
    ConfEmu.get tg fresh s e' none = none ∧
    ConfEmu.get tg (ConfEmu.set tg fresh s e (some (str ['1']))) s e' none = some [] ∧
    ConfEmu.get tg (ConfEmu.set tg fresh s e (some (str ['1']))) s e none = some (str ['1']) ∧
    ConfEmu.get tg (ConfEmu.set tg (ConfEmu.set tg fresh s e (some (str ['1']))) s e' none) s e none = none :=
  ⟨str ['s'], str ['a', '/', 'b'], str ['a'], by simp; decide +kernel, by decide +kernel, by decide +kernel, by decide +kernel, by decide +kernel⟩

/-- C81: `maybeset` overwrites a value that is there, in a section whose name is empty. -/
theorem C81_maybeset_fails : ∃ e v w, v ≠ w ∧
    (ConfEmu.set tg fresh [] e (some v)).gen = (ConfEmu.maybeset tg fresh [] e (some v)).gen ∧
    ConfEmu.maybeset tg (ConfEmu.set tg fresh [] e (some v)) [] e (some w) = ConfEmu.set tg (ConfEmu.set tg fresh [] e (some v)) [] e (some w) ∧
    tg.get (ConfEmu.maybeset tg (ConfEmu.set tg fresh [] e (some v)) [] e (some w)).gen (Key.parse e) = some w :=
  ⟨str ['a'], str ['1'], str ['2'], by decide +kernel, rfl, rfl, by decide +kernel⟩

/-- C81: the comment says that a request whose entry is blank is an error; it is not. -/
theorem C81_request_fails : ∃ s, Plain s ∧ ConfEmu.parseRequest (ch '[' :: s ++ str [']', ' ', '=', 'v']) = ⟨0, s, [], some (str ['v'])⟩ :=
  ⟨str ['s'], by decide +kernel, by decide +kernel⟩

/-- C81: an integer, and a value that is set through a section, do not make the configuration unclean, though they change it. -/
theorem C81_clean_fails : ∃ s e, ConfEmu.get tg fresh s e none = none ∧
    (∃ c, ConfEmu.setint tg fresh s e 7 = some c ∧ ConfEmu.get tg c s e none = some (str ['7']) ∧ ConfEmu.isclean c = true) ∧
    ConfEmu.get tg (ConfEmu.secSet tg fresh s e (str ['7'])) s e none = some (str ['7']) ∧
    ConfEmu.isclean (ConfEmu.secSet tg fresh s e (str ['7'])) = true :=
  ⟨str ['s'], str ['e'], by decide +kernel, ⟨_, rfl, by decide +kernel, by decide +kernel⟩, by decide +kernel, by decide +kernel⟩

/-- C81: a section that was looked up is there even after it was deleted. -/
theorem C81_section_fails : ∃ s, (ConfEmu.sectionOf tg start s).2 = some s ∧
    (ConfEmu.sectionOf tg (ConfEmu.deleteSection tg start s) s).2 = none ∧
    (ConfEmu.sectionOf tg (ConfEmu.deleteSection tg (ConfEmu.sectionOf tg start s).1 s) s).2 = some s :=
  ⟨str ['u'], by decide +kernel, by decide +kernel, by decide +kernel⟩

/-- C81: `get` of WvConf looks into the sections a section inherits from (C72_get); this one does not. -/
theorem C81_inherit_fails : ∃ s t e v, view (Temp.conf Emu.sample) s Spec.ConfFile.inherits = some t ∧
    view (Temp.conf Emu.sample) t e = some v ∧ ConfEmu.get tg start s e none = none :=
  ⟨str ['s'], str ['t'], str ['a'], str ['1'], by decide +kernel, by decide +kernel, by decide +kernel⟩

end Props
