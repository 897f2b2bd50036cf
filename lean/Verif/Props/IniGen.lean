import Verif.Lemmas.IniSave
/- C49: what is saved to an INI file is read back from it. -/
namespace Props
open Wv Wv.Tcl Wv.TempGen Wv.IniGen Spec.Ini Spec.Conf Temp
open Wv.Key (fold Names)
namespace IniP

/-- A call of `set` of the INI generator; the second order is for when the root is made again. -/
structure IniCall where
  call : SetCall
  order' : List Tree → List Tree
  permutes' : ∀ l, (order' l).Perm l

/-- The generator after some calls. -/
def after (g : Gen) : List IniCall → Gen
  | [] => g
  | c :: r => after (IniGen.set c.call.order c.order' g (Key.parse c.call.key) c.call.value).1 r

/-- The configuration after the calls. -/
def conf (m : Spec.Conf.State) : List IniCall → Spec.Conf.State
  | [] => m
  | c :: r => conf (Spec.Ini.set m c.call.key c.call.value) r

/-- The root has no name. -/
def RootKey (g : Gen) : Prop := ∀ t, g.root = some t → t.key = []

theorem call_key (g : Gen) (m : Spec.Conf.State) (h : Holds g m) (hk : RootKey g) (c : SetCall) : RootKey (Temp.call g c).1 := by
  have hnm := Key.names_ok c.key
  have hp : Key.parse c.key = Key.mk (Spec.Path.names c.key) (Spec.Path.dir c.key) := Key.parse_eq _
  have hdn := Key.dir_names c.key
  have hseg : segments (Spec.Path.names c.key) = ones (Spec.Path.names c.key) := by
    have := segments_mk (Spec.Path.names c.key) false hnm; simpa [Key.mk] using this
  have e : ones ([] : List Seg) = [] := rfl
  unfold Temp.call TempGen.set
  rw [hp, stripSlash_mk _ _ hnm hdn]
  simp only [hseg]
  cases hv : c.value with
  | none =>
    cases hr : g.root with
    | none => exact hk
    | some t =>
      have hs := removeLoop_spec c.order c.permutes (Spec.Path.names c.key) hnm [] t (by simp [Key.Names]) (h.1 t hr)
      rw [e] at hs
      simp only []
      cases hl : removeLoop c.order [] t (ones (Spec.Path.names c.key)) with
      | none => exact hk
      | some r =>
        obtain ⟨t', d⟩ := r
        rw [hl] at hs
        intro x hx
        rw [(hs.1 x hx).2]
        exact hk t hr
  | some v =>
    cases hd : Spec.Path.dir c.key with
    | true => simp only [if_true]; exact hk
    | false =>
      simp only [Bool.false_eq_true, if_false]
      obtain ⟨s1, s2, s3, s4⟩ := setLoop_spec c.order c.permutes v (Spec.Path.names c.key) hnm [] g.root [] (by simp [Key.Names]) h.1
      rw [e] at s2
      rintro x ⟨⟩
      rw [s2]
      cases hr : g.root with
      | none => rfl
      | some t => exact hk t hr

theorem set_spec (g : Gen) (m : Spec.Conf.State) (h : Holds g m) (hk : RootKey g) (c : IniCall) :
    Holds (IniGen.set c.call.order c.order' g (Key.parse c.call.key) c.call.value).1 (Spec.Ini.set m c.call.key c.call.value) ∧
    RootKey (IniGen.set c.call.order c.order' g (Key.parse c.call.key) c.call.value).1 := by
  have h1 := (call_spec g m h c.call).1
  have h2 := call_key g m h hk c.call
  have hp : Key.isempty (Key.parse c.call.key) = (Spec.Path.names c.call.key).isEmpty := by
    rw [Key.parse_eq, Key.isempty_mk _ _ (Key.dir_names c.call.key)]
  unfold IniGen.set Spec.Ini.set
  simp only []
  by_cases hc : c.call.value = none ∧ Spec.Path.names c.call.key = []
  · rw [if_pos hc, if_pos ⟨hc.1, by rw [hp, hc.2]; rfl⟩]
    have h3 := (call_spec _ _ h1 ⟨[], some [], c.order', c.permutes'⟩).1
    have h4 := call_key _ _ h1 h2 ⟨[], some [], c.order', c.permutes'⟩
    exact ⟨h3, h4⟩
  · rw [if_neg hc, if_neg (by rw [hp, List.isEmpty_iff]; exact hc)]
    exact ⟨h1, h2⟩

theorem after_spec (l : List IniCall) : ∀ (g : Gen) (m : Spec.Conf.State), Holds g m → RootKey g →
    Holds (after g l) (conf m l) ∧ RootKey (after g l) := by
  induction l with
  | nil => intro g m h hk; exact ⟨h, hk⟩
  | cons c l ih =>
    intro g m h hk
    obtain ⟨h1, h2⟩ := set_spec g m h hk c
    exact ih _ _ h1 h2

theorem load_empty (ord : Nat → List Tree → List Tree) (hord : ∀ n l, (ord n l).Perm l) :
    ∃ g, load ord [] = some g ∧ Holds g (kept Spec.Conf.empty) := by
  have hr : IniGen.read [] = some [] := by decide +kernel
  refine ⟨_, by rw [load, hr]; rfl, ?_⟩
  have h := Ini.apply_spec ord hord [([], [])] 0 TempGen.new Spec.Conf.empty (by simp [Names]) new_holds
  have e : Ini.setAll Spec.Conf.empty [([], [])] = kept Spec.Conf.empty := by
    funext q
    rw [Ini.kept_other _ q (by simp [Spec.Conf.empty])]
    by_cases hq : q = [] <;> simp [Ini.setAll, setAt, fold, hq, Spec.Conf.empty]
  rw [e] at h
  exact h

/-- Any history. -/
theorem roundtrip (l : List IniCall) (ord : Nat → List Tree → List Tree) (hord : ∀ n l, (ord n l).Perm l)
    (hs : Savable (conf Spec.Conf.empty l)) :
    ∃ g, load ord (save (after TempGen.new l).root) = some g ∧ Holds g (kept (conf Spec.Conf.empty l)) := by
  obtain ⟨h1, h2⟩ := after_spec l TempGen.new Spec.Conf.empty new_holds (by simp [RootKey, TempGen.new])
  cases hr : (after TempGen.new l).root with
  | none =>
    have e : conf Spec.Conf.empty l = Spec.Conf.empty := by
      funext q
      rw [none_holds _ _ h1 hr]
      rfl
    rw [e]
    exact load_empty ord hord
  | some t =>
    refine Ini.load_save ord hord t _ (h1.1 t hr) ?_ (h2 t hr) hs
    intro q
    have := h1.2 q
    rw [hr] at this
    exact this

end IniP
open IniP

/-- C49: after any calls of `set`, if all names and values are such as survive being written (Spec/Ini), the file that is saved
    is read back without undefined behaviour, and gives the configuration without the empty values at its leaves: every value that
    is not empty is back, at its key. The full property has no condition on names and values, and keeps empty values; it is
    false (see below). -/
theorem C49_roundtrip_partial (l : List IniCall) (ord : Nat → List Tree → List Tree) (hord : ∀ n l, (ord n l).Perm l)
    (hs : Savable (IniP.conf Spec.Conf.empty l)) :
    ∃ g, load ord (save (IniP.after TempGen.new l).root) = some g ∧
      ∀ s, TempGen.get g (Key.parse s) = Spec.Conf.get (kept (IniP.conf Spec.Conf.empty l)) s := by
  obtain ⟨g, h1, h2⟩ := IniP.roundtrip l ord hord hs
  exact ⟨g, h1, fun s => get_holds g _ h2 s⟩

/-- C49: the same in terms of `get`: a value that is not empty is read from the new generator if and only if it was there. -/
theorem C49_values_partial (l : List IniCall) (ord : Nat → List Tree → List Tree) (hord : ∀ n l, (ord n l).Perm l)
    (hs : Savable (IniP.conf Spec.Conf.empty l)) :
    ∃ g, load ord (save (IniP.after TempGen.new l).root) = some g ∧
      ∀ s v, v ≠ [] →
        (TempGen.get g (Key.parse s) = some v ↔ TempGen.get (IniP.after TempGen.new l) (Key.parse s) = some v) := by
  obtain ⟨g, h1, h2⟩ := IniP.roundtrip l ord hord hs
  refine ⟨g, h1, fun s v hv => ?_⟩
  have h3 := (IniP.after_spec l TempGen.new Spec.Conf.empty new_holds (by simp [IniP.RootKey, TempGen.new])).1
  rw [get_holds g _ h2, get_holds _ _ h3]
  unfold Spec.Conf.get
  cases hd : Spec.Path.dir s with
  | true => simp
  | false =>
    simp only [Bool.false_eq_true, if_false]
    cases hm : IniP.conf Spec.Conf.empty l (place s) with
    | none =>
      rw [Ini.kept_other _ _ (by simp [hm])]
      split <;> simp [Ne.symm hv]
    | some w =>
      cases w with
      | nil =>
        rw [Ini.kept_other _ _ (by simp [hm])]
        split <;> simp [Ne.symm hv]
      | cons c w => rw [Ini.kept_some _ _ c w hm]

/-- C49: ordinary text can be saved: no backslashes, quotes, braces, line ends and NULs, and no white space at the ends. -/
theorem C49_plain_value (v : List Byte) (h : ∀ c ∈ v, c ∉ [0, 10, 13, 34, 92, 123, 125]) (he : ¬ edges v) : ValueOk v := by
  have hb : ∀ s : List Byte, (∀ c ∈ s, c ∉ [0, 10, 13, 34, 92, 123, 125]) →
      Spec.Tcl.balanced 0 false s = true ∧ exposed [13, 10] 0 false s = false := by
    intro s
    induction s with
    | nil => intro _; exact ⟨by decide, rfl⟩
    | cons c s ih =>
      intro h
      obtain ⟨i1, i2⟩ := ih fun x hx => h x (by simp [hx])
      have hc := h c (by simp)
      simp only [List.mem_cons, List.not_mem_nil, or_false, not_or] at hc
      obtain ⟨h0, h10, h13, h34, h92, h123, h125⟩ := hc
      constructor
      · rw [Ini.bal_false]
        simp [h92, h123, h125, i1]
      · rw [exposed]
        simp [h92, h123, h125, i2, h10, h13]
  obtain ⟨b1, b2⟩ := hb v h
  have hn : ∀ c ∈ [(0 : Byte), 10, 13, 34, 92, 123, 125], c ∉ v := fun c hc hv => h c hv hc
  refine ⟨⟨b1, ?_, ?_⟩, hn 0 (by simp)⟩
  · rintro (h | h)
    · exact absurd h he
    · rw [b2] at h; simp at h
  · intro _
    refine ⟨hn 92 (by simp), ?_, ?_⟩
    · rintro ⟨h1, -⟩
      exact hn 123 (by simp) (List.mem_of_head? h1)
    · rintro ⟨h1, -⟩
      exact hn 34 (by simp) (List.mem_of_head? h1)

namespace IniP
/-- A call in an order that stays. -/
def simple (k : List Byte) (v : Option (List Byte)) : IniCall := ⟨⟨k, v, id, fun _ => .refl _⟩, id, fun _ => .refl _⟩

/-- What is read, after one value was set and saved. -/
def again (k v s : List Byte) : Option (Option Value) :=
  (load (fun _ => id) (save (after TempGen.new [simple k (some v)]).root)).map fun g => TempGen.get g (Key.parse s)

/-- The place where the only value is. -/
theorem one_conf (k v : List Byte) (hd : Spec.Path.dir k = false) (p : Place) (w : List Byte) (hw : w ≠ [])
    (h : conf Spec.Conf.empty [simple k (some v)] p = some w) : p = place k ∧ w = v := by
  have e : conf Spec.Conf.empty [simple k (some v)] = Spec.Conf.set Spec.Conf.empty k (some v) := by
    show Spec.Ini.set Spec.Conf.empty k (some v) = _
    unfold Spec.Ini.set
    rw [if_neg (by simp)]
  rw [e, Spec.Conf.set, hd] at h
  simp only [Bool.false_eq_true, if_false] at h
  by_cases hp : p = place k
  · rw [if_pos hp] at h
    exact ⟨hp, (Option.some.inj h).symm⟩
  · rw [if_neg hp] at h
    by_cases hx : p <+: place k
    · rw [if_pos hx] at h
      exact absurd (Option.some.inj h).symm hw
    · rw [if_neg hx] at h
      cases h
end IniP

/-- A value with spaces, braces and a newline, in a section, meets the conditions. -/
example : Savable (IniP.conf Spec.Conf.empty
    [IniP.simple (str ['S', 'e', 'c', '/', 'a', ' ', 'b', '/', 'c']) (some (str ['x', '{', '}', '\n', ' ', 'y']))]) := by
  intro p w h hw
  obtain ⟨rfl, rfl⟩ := IniP.one_conf _ _ (by decide +kernel) p w hw h
  have hp : place (str ['S', 'e', 'c', '/', 'a', ' ', 'b', '/', 'c']) = [str ['s', 'e', 'c'], str ['a', ' ', 'b'], str ['c']] := by
    decide +kernel
  rw [hp]
  have key : ∀ sep nasties s, Spec.Tcl.balanced 0 false s = true → (∃ c ∈ s, c ∈ nasties ∨ c ∈ [123, 125, 92, 34]) →
      92 ∉ s → s.head? ≠ some 123 → s.head? ≠ some 34 → Survives sep nasties s := by
    intro sep nasties s h1 h2 h3 h4 h5
    exact ⟨h1, fun _ => h2, fun _ => ⟨h3, fun h => h4 h.1, fun h => h5 h.1⟩⟩
  refine ⟨⟨⟨⟨by decide, ?_, fun _ => ⟨by decide, by unfold within; decide, by unfold within; decide⟩⟩, by decide⟩,
    ⟨key _ _ _ (by decide) (by decide) (by decide) (by decide) (by decide), by decide⟩⟩,
    ⟨key _ _ _ (by decide) (by decide) (by decide) (by decide) (by decide), by decide⟩⟩
  rintro ((⟨c, h1, h2⟩ | ⟨c, h1, h2⟩) | h)
  · simp [str, ch] at h1
    subst h1
    exact absurd h2 (by decide)
  · simp [str, ch] at h1
    subst h1
    exact absurd h2 (by decide)
  · exact absurd h (by decide)

/-- C49 does not hold for all values. A backslash in a value is lost. -/
theorem C49_backslash_fails : ¬ ∀ k v, IniP.again k v k = some (some v) := fun h =>
  absurd (h (str ['k']) (str ['a', '\\', 'b'])) (by decide +kernel)

/-- Braces around a value are lost. -/
theorem C49_braces_fails : IniP.again (str ['k']) (str ['{', 'a', '}']) (str ['k']) = some (some (str ['a'])) := by decide +kernel

/-- Quotes around a value are lost. -/
theorem C49_quotes_fails : IniP.again (str ['k']) (str ['"', 'a', '"']) (str ['k']) = some (some (str ['a'])) := by decide +kernel

/-- A value that is just a quote makes reading the file undefined. -/
theorem C49_quote_fails : IniP.again (str ['k']) (str ['"']) (str ['k']) = none := by decide +kernel

/-- A value can set another key. -/
theorem C49_injection_fails :
    IniP.again (str ['k']) (str ['}', '\n', 'x', '=', '1']) (str ['x']) = some (some (str ['1'])) ∧
    TempGen.get (IniP.after TempGen.new [IniP.simple (str ['k']) (some (str ['}', '\n', 'x', '=', '1']))]) (Key.parse (str ['x'])) =
      none := by decide +kernel

/-- A form feed at the end of a value is lost, and so is a space at the end of the name of a section. -/
theorem C49_space_fails : IniP.again (str ['k']) [97, 12] (str ['k']) = some (some [97]) ∧
    IniP.again (str ['s', ' ', '/', 'k']) (str ['v']) (str ['s', ' ', '/', 'k']) = some none ∧
    IniP.again (str ['s', ' ', '/', 'k']) (str ['v']) (str ['s', '/', 'k']) = some (some (str ['v'])) := by decide +kernel

/-- A key with an empty value is not saved. -/
theorem C49_empty_fails : IniP.again (str ['k']) [] (str ['k']) = some none := by decide +kernel

end Props
