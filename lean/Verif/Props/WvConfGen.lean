import Verif.Model.WvConfGen
import Verif.Props.ConfFile
import Verif.Props.Key
/-!
C120: UniConf on a configuration file of the old kind.
-/
namespace Props
open Wv Wv.WvConfGen
open Wv.ConfFile (Conf Text Tidy val find low)
open Spec.WvConfGen (Named fold Values Op apply)

namespace WcgP

def b (s : String) : Text := s.toList.map ch

/-- A configuration without inheritance and global entries, of which only the generator is told. -/
structure Quiet (c : Conf) : Prop where
  tidy : Tidy c
  global : c.global = []
  inherits : ∀ s, val c s ConfFile.inherits = none
  own : c.callbacks = [own]

/-- Keys that can be set: a section and an entry, without white space around the entry, which is not the one for inheritance. -/
structure Fit (k : Key) : Prop where
  named : Named k
  two : 2 ≤ k.length
  trimmed : Spec.ConfFile.Trimmed (Key.printable k.tail)
  plain : ¬ Spec.ConfFile.same (Key.printable k.tail) Spec.ConfFile.inherits

def FitOp : Op → Prop
  | .set k v => Fit k ∧ v ≠ []
  | .remove k => Named k ∧ k.length = 1

/-- What a user does. -/
def step (c : Conf) : Op → Conf
  | .set k v => set c k (some v)
  | .remove k => set c k none

theorem printable_collapse (k : Key) : Key.printable (Key.collapse k) = Key.printable k := by
  unfold Key.collapse
  split
  · next h => rcases h with rfl | rfl <;> rfl
  · rfl

theorem sect_cons (s : Text) (e : Key) : sect (s :: e) = s := by
  unfold sect Key.first Key.range
  simp only [List.length_cons]
  rw [if_neg (by omega), if_neg (by omega), if_neg (by omega), printable_collapse]
  simp [Key.printable]

theorem entry_cons (s : Text) (e : Key) : entry (s :: e) = Key.printable e := by
  unfold entry Key.last Key.range Key.numsegments
  simp only [List.length_cons]
  rw [if_neg (by omega), if_neg (by omega), if_neg (by omega), printable_collapse]
  rw [show (((e.length + 1 : Nat) : Int)).toNat = e.length + 1 from by omega, show ((((e.length + 1 : Nat) : Int) - (((e.length + 1 : Nat) : Int) - 1))).toNat = 1 from by omega]
  rw [List.take_of_length_le (by simp)]
  rfl

theorem named_tail {s : Text} {e : Key} (h : Named (s :: e)) : Named e := fun x hx => h x (List.mem_cons_of_mem _ hx)

theorem named_parse {k : Key} (h : Named k) : Key.parse (Key.printable k) = k := by
  have := Key.ok_parse (Key.mk k false) ⟨k, false, h, (fun h => by cases h), rfl⟩
  simpa [Key.mk] using this

theorem lower_slash (x : Byte) : tolower x = ch '/' → x = ch '/' := by
  revert x; apply forall_byte; decide +kernel

theorem named_fold {k : Key} (h : Named k) : Named (fold k) := by
  intro s hs
  obtain ⟨t, ht, rfl⟩ := List.mem_map.1 hs
  refine ⟨fun hn => (h t ht).1 (List.map_eq_nil_iff.1 hn), fun hm => ?_⟩
  obtain ⟨x, hx, hx'⟩ := List.mem_map.1 hm
  exact (h t ht).2 (lower_slash x hx' ▸ hx)

theorem printable_fold (k : Key) : (Key.printable k).map tolower = Key.printable (fold k) := by
  rw [Key.printable_eq, Key.printable_eq]
  induction k with
  | nil => rfl
  | cons s k ih =>
    cases k with
    | nil => rfl
    | cons t k =>
      have e : ∀ (x y : Text) (l : List Text), Spec.Split.join [Spec.Path.slash] (x :: y :: l) = x ++ Spec.Path.slash :: Spec.Split.join [Spec.Path.slash] (y :: l) := by
        intro x y l; rfl
      rw [e, List.map_append, List.map_cons, ih]
      exact (e _ _ _).symm

theorem same_printable {k l : Key} (hk : Named k) (hl : Named l) : Spec.ConfFile.same (Key.printable k) (Key.printable l) ↔ fold k = fold l := by
  unfold Spec.ConfFile.same
  rw [printable_fold, printable_fold]
  exact ⟨fun h => by rw [← named_parse (named_fold hk), h, named_parse (named_fold hl)], fun h => by rw [h]⟩

theorem get_quiet {c : Conf} (h : Quiet c) (s e : Text) : ConfFile.get c s e none = val c s e := by
  rcases C72_get c s e none with ⟨v, ⟨n, t, h1, h2, _⟩, h4⟩ | ⟨h1, h2⟩
  · cases n with
    | zero => cases h1; rw [h4, h2]
    | succ n =>
      have : (Spec.ConfFile.chain (val c) s n).bind (fun t => val c t Spec.ConfFile.inherits) = some t := h1
      rw [show (fun t => val c t Spec.ConfFile.inherits) = fun _ => none from funext h.inherits] at this
      cases hc : Spec.ConfFile.chain (val c) s n <;> rw [hc] at this <;> cases this
  · rw [h2, h.global, h1 0 s rfl]; rfl

/-- What a step is for the file. -/
theorem step_set (c : Conf) (k : Key) (v : Text) : set c k (some v) = ConfFile.set c (sect k) (entry k) (some v) := by
  unfold WvConfGen.set; rw [if_neg (by simp)]

theorem step_remove (c : Conf) (s : Text) : set c [s] none = ConfFile.deleteSection c s := by
  unfold WvConfGen.set
  rw [sect_cons]
  by_cases h : find c s = none
  · rw [if_neg (by simp [h])]
    unfold ConfFile.set ConfFile.deleteSection
    rw [if_pos ⟨h, Or.inl rfl⟩, if_pos h]
  · rw [if_pos ⟨rfl, h⟩]; rfl

theorem set_other (c : Conf) (s e : Text) (v : Option Text) : (ConfFile.set c s e v).global = c.global ∧ (ConfFile.set c s e v).callbacks = c.callbacks := by
  rcases ConfFile.set_eq c s e v with ⟨_, h⟩ | ⟨_, h⟩ <;> rw [h] <;> exact ⟨rfl, rfl⟩

theorem delete_other (c : Conf) (s : Text) : (ConfFile.deleteSection c s).global = c.global ∧ (ConfFile.deleteSection c s).callbacks = c.callbacks
    ∧ (ConfFile.deleteSection c s).calls = c.calls := by
  unfold ConfFile.deleteSection; split <;> exact ⟨rfl, rfl, rfl⟩

theorem quiet_step {c : Conf} (h : Quiet c) (o : Op) (ho : FitOp o) : Quiet (step c o) := by
  cases o with
  | set k v =>
    obtain ⟨⟨hn, h2, ht, hp⟩, hv⟩ := ho
    obtain ⟨s, e, rfl⟩ : ∃ s e, k = s :: e := by cases k with
      | nil => simp at h2
      | cons s e => exact ⟨s, e, rfl⟩
    show Quiet (set c (s :: e) (some v))
    rw [step_set, sect_cons, entry_cons]
    obtain ⟨g1, g2⟩ := set_other c s (Key.printable e) (some v)
    refine ⟨ConfFile.set_tidy h.tidy _ _ _, g1.trans h.global, fun s' => ?_, g2.trans h.own⟩
    rw [ConfFile.set_val h.tidy s _ _ (Conf72.trimmed_id (show Spec.ConfFile.Trimmed (Key.printable e) from ht)) s' _]
    rw [if_neg (fun hs => hp (show Spec.ConfFile.same (Key.printable e) ConfFile.inherits from hs.2.symm))]
    exact h.inherits s'
  | remove k =>
    obtain ⟨hn, hl⟩ := ho
    obtain ⟨s, rfl⟩ := List.length_eq_one_iff.1 hl
    show Quiet (set c [s] none)
    rw [step_remove]
    obtain ⟨g1, g2, _⟩ := delete_other c s
    refine ⟨ConfFile.delete_tidy h.tidy _, g1.trans h.global, fun s' => ?_, g2.trans h.own⟩
    rw [ConfFile.delete_val h.tidy s s' _]
    split
    · rfl
    · exact h.inherits s'

theorem get_step {c : Conf} (h : Quiet c) (o : Op) (ho : FitOp o) (k : Key) (hk : Named k) (hk' : k ≠ []) : get (step c o) none k = apply (get c none) o k := by
  obtain ⟨s', e', rfl⟩ := List.exists_cons_of_ne_nil hk'
  have g : ∀ {c : Conf}, Quiet c → get c none (s' :: e') = val c s' (Key.printable e') := by
    intro c hc
    show ConfFile.get c (sect (s' :: e')) (entry (s' :: e')) none = _
    rw [sect_cons, entry_cons, get_quiet hc]
  rw [g (quiet_step h o ho)]
  cases o with
  | set k v =>
    obtain ⟨⟨hn, h2, ht, hp⟩, hv⟩ := ho
    obtain ⟨s, e, rfl⟩ : ∃ s e, k = s :: e := by cases k with
      | nil => simp at h2
      | cons s e => exact ⟨s, e, rfl⟩
    show val (set c (s :: e) (some v)) s' _ = _
    rw [step_set, sect_cons, entry_cons, ConfFile.set_val h.tidy s _ _ (Conf72.trimmed_id (show Spec.ConfFile.Trimmed (Key.printable e) from ht)) s' _]
    unfold apply
    dsimp only
    have heq : (low s' = low s ∧ low (Key.printable e') = low (Key.printable e)) ↔ fold (s' :: e') = fold (s :: e) := by
      rw [show (low (Key.printable e') = low (Key.printable e)) ↔ fold e' = fold e from same_printable (named_tail hk) (named_tail hn)]
      unfold fold
      rw [List.map_cons, List.map_cons, List.cons.injEq]
      rfl
    by_cases hc : fold (s' :: e') = fold (s :: e)
    · rw [if_pos (heq.2 hc), if_pos hc, if_neg (by simpa using hv)]
    · rw [if_neg (fun x => hc (heq.1 x)), if_neg hc, g h]
  | remove k =>
    obtain ⟨hn, hl⟩ := ho
    obtain ⟨s, rfl⟩ := List.length_eq_one_iff.1 hl
    show val (set c [s] none) s' _ = _
    rw [step_remove, ConfFile.delete_val h.tidy s s' _]
    unfold apply
    dsimp only
    have heq : low s' = low s ↔ fold [s] <+: fold (s' :: e') := by
      unfold fold
      rw [List.map_cons, List.map_cons, List.cons_prefix_cons]
      exact ⟨fun h => ⟨h.symm, List.nil_prefix⟩, fun h => h.1.symm⟩
    by_cases hc : fold [s] <+: fold (s' :: e')
    · rw [if_pos (heq.2 hc), if_pos hc]
    · rw [if_neg (fun x => hc (heq.1 x)), if_neg hc, g h]

theorem run_get : ∀ (l : List Op) (c : Conf), Quiet c → (∀ o ∈ l, FitOp o) → Quiet (l.foldl step c) ∧
    ∀ k, Named k → k ≠ [] → get (l.foldl step c) none k = l.foldl apply (get c none) k := by
  intro l
  induction l with
  | nil => intro c h _; exact ⟨h, fun _ _ _ => rfl⟩
  | cons o l ih =>
    intro c h ho
    have h1 := ih (step c o) (quiet_step h o (ho o List.mem_cons_self)) fun o' ho' => ho o' (List.mem_cons_of_mem _ ho')
    refine ⟨h1.1, fun k hk hk' => ?_⟩
    rw [List.foldl_cons, h1.2 k hk hk']
    have cong : ∀ (l : List Op) (M N : Values), (∀ k, Named k → k ≠ [] → M k = N k) → ∀ k, Named k → k ≠ [] → l.foldl apply M k = l.foldl apply N k := by
      intro l
      induction l with
      | nil => intro M N h; exact h
      | cons o l ih =>
        intro M N h k hk hk'
        refine ih (apply M o) (apply N o) (fun k hk hk' => ?_) k hk hk'
        cases o <;> unfold apply <;> dsimp only <;> split
        · rfl
        · exact h k hk hk'
        · rfl
        · exact h k hk hk'
    exact cong l _ _ (fun k hk hk' => get_step h o (ho o List.mem_cons_self) k hk hk') k hk hk'

theorem join_key {s : Text} {e : Key} (h : Named (s :: e)) (he : e ≠ []) : Key.join (Key.parse s) (Key.parse (Key.printable e)) = s :: e := by
  have h1 : Key.parse s = [s] := by
    have := named_parse (k := [s]) (fun x hx => h x (by simp at hx; simp [hx]))
    exact this
  rw [h1, named_parse (named_tail h)]
  unfold Key.join
  have f1 : [s].filter (· ≠ []) = [s] := Key.filter_names [s] (fun x hx => h x (by simp at hx; simp [hx]))
  have f2 : e.filter (· ≠ []) = e := Key.filter_names e (named_tail h)
  rw [f1, f2]
  have f3 : Key.isempty e = false := by unfold Key.isempty; cases e <;> simp at he ⊢
  have f4 : Key.hastrailingslash e = false := by
    unfold Key.hastrailingslash
    rw [List.getLast?_eq_some_getLast he]
    have := (named_tail h _ (List.getLast_mem he)).1
    simpa using this
  rw [f3, f4]
  unfold Key.collapse
  cases e with
  | nil => exact absurd rfl he
  | cons a e => simp

theorem entGet_mem {es : List ConfFile.Entry} (h : ConfFile.TidyE es) {x : ConfFile.Entry} (hx : x ∈ es) : ConfFile.entGet es x.name = some x.value := by
  have hp := h.names
  clear h
  unfold ConfFile.entGet
  induction es with
  | nil => cases hx
  | cons y es ih =>
    rw [List.pairwise_cons] at hp
    rcases List.mem_cons.1 hx with rfl | hx
    · rw [List.find?_cons_of_pos (by rw [ConfFile.ci_eq]; simp)]; rfl
    · rw [List.find?_cons_of_neg (by rw [ConfFile.ci_eq, decide_eq_true_iff]; exact hp.1 x hx)]
      exact ih hx hp.2

theorem quiet_make : Quiet (make .missing) :=
  ⟨⟨by decide, by intro s hs; cases hs⟩, rfl, fun s => rfl, rfl⟩

end WcgP

/-- C120 (values): in a configuration in which nothing is inherited and no entry is global, such as a new one, after every history of
    settings of keys with two or more names (to values that are not empty) and removals of whole sections, `get` gives for every key the
    value that it was last set to, unless its section was removed since; case does not matter. Missing: removal of single keys
    (`C120_remove_fails`), empty values (`C120_empty_fails`), inheritance (`C120_inherits`). -/
theorem C120_values_partial (c : Conf) (h : WcgP.Quiet c) (l : List Op) (hl : ∀ o ∈ l, WcgP.FitOp o) (k : Key) (hk : Named k) (hk' : k ≠ []) :
    get (l.foldl WcgP.step c) none k = l.foldl apply (get c none) k := (WcgP.run_get l c h hl).2 k hk hk'

example : WcgP.Quiet (make .missing) ∧ WcgP.FitOp (.set [WcgP.b "s", WcgP.b "a", WcgP.b "b"] (WcgP.b "1")) ∧
    get ([Op.set [WcgP.b "s", WcgP.b "a", WcgP.b "b"] (WcgP.b "1"), .set [WcgP.b "t", WcgP.b "a"] (WcgP.b "2"), .remove [WcgP.b "T"]].foldl WcgP.step (make .missing)) none
      [WcgP.b "S", WcgP.b "A", WcgP.b "b"] = some (WcgP.b "1") := by
  refine ⟨WcgP.quiet_make, ⟨⟨?_, ?_, ?_, ?_⟩, ?_⟩, ?_⟩
  · unfold Named; decide +kernel
  · decide
  · unfold Spec.ConfFile.Trimmed; decide +kernel
  · decide +kernel
  · decide
  · decide +kernel

/-- C120 (inheritance): for every configuration, a key of two names has the value of the first section in the chain of "Inherits" that has
    the entry, and else the global one. -/
theorem C120_inherits (c : Conf) (s e : Text) :
    (∃ v, Spec.ConfFile.Finds (val c) s e v ∧ get c none [s, e] = some v) ∨ (Spec.ConfFile.Lacks (val c) s e ∧ get c none [s, e] = ConfFile.entGet c.global e) := by
  have h : get c none [s, e] = ConfFile.get c s e none := by
    show ConfFile.get c (sect [s, e]) (entry [s, e]) none = _
    rw [WcgP.sect_cons, WcgP.entry_cons]; rfl
  rw [h]
  rcases C72_get c s e none with h | ⟨h1, h2⟩
  · exact Or.inl h
  · exact Or.inr ⟨h1, by rw [h2]; cases ConfFile.entGet c.global e <;> rfl⟩

example : get (make (.there false (WcgP.b "g = 0\n[a]\nInherits = B\n[b]\nx = 1\n"))) none [WcgP.b "a", WcgP.b "x"] = some (WcgP.b "1") ∧
    get (make (.there false (WcgP.b "g = 0\n[a]\nInherits = B\n[b]\nx = 1\n"))) none [WcgP.b "a", WcgP.b "g"] = some (WcgP.b "0") := by decide +kernel

/-- C120 (notification): after every such history, a setting is told exactly once, with its key and value, if it changes the value, and
    not at all if it does not. Missing: removals (`C120_silent_fails`). -/
theorem C120_told_partial (c : Conf) (h : WcgP.Quiet c) (l : List Op) (hl : ∀ o ∈ l, WcgP.FitOp o) (k : Key) (v : Text) (hk : WcgP.FitOp (.set k v)) :
    told (set (l.foldl WcgP.step c) k (some v)) = told (l.foldl WcgP.step c) ++ (if get (l.foldl WcgP.step c) none k = some v then [] else [(k, v)]) := by
  have hq := (WcgP.run_get l c h hl).1
  generalize l.foldl WcgP.step c = d at hq
  obtain ⟨⟨hn, h2, ht, hp⟩, hv⟩ := hk
  obtain ⟨s, e, rfl⟩ : ∃ s e, k = s :: e := by cases k with
    | nil => simp at h2
    | cons s e => exact ⟨s, e, rfl⟩
  have he : e ≠ [] := by rintro rfl; simp at h2
  have hg : get d none (s :: e) = val d s (Key.printable e) := by
    show ConfFile.get d (sect (s :: e)) (entry (s :: e)) none = _
    rw [WcgP.sect_cons, WcgP.entry_cons, WcgP.get_quiet hq]
  rw [WcgP.step_set, WcgP.sect_cons, WcgP.entry_cons, hg]
  obtain ⟨h1, h3⟩ := C72_callbacks d s (Key.printable e) (some v)
  by_cases hc : val d s (Key.printable e) = some v
  · rw [h1 (by rw [hc]), if_pos hc, List.append_nil]
  · have hne : (val d s (Key.printable e)).getD [] ≠ (some v).getD [] := by
      intro hx
      cases hx' : val d s (Key.printable e) with
      | none => rw [hx'] at hx; exact hv hx.symm
      | some w => rw [hx'] at hx hc; exact hc (congrArg some hx)
    obtain ⟨_, _, h4⟩ := h3 hne
    unfold told
    rw [h4, hq.own, if_neg hc, List.filter_append, List.map_append]
    congr 1
    have hj := WcgP.join_key hn he
    simp [own, notify, hj]

example : told (set (make .missing) [WcgP.b "s", WcgP.b "a"] (some (WcgP.b "1"))) = [([WcgP.b "s", WcgP.b "a"], WcgP.b "1")] := by decide +kernel

/-- C120 (during a notification): whoever is told, and asks for the key, gets the new value, although the file still has the old one;
    other keys are as they are in the file. -/
theorem C120_during (c : Conf) (k : Key) (v : Text) (k' : Key) :
    get c (some (k, v)) k' = if fold k' = fold k then some v else get c none k' := by
  have h : Key.eq k' k = true ↔ fold k' = fold k := by
    show (Key.compareto k' k == 0) = true ↔ _
    rw [beq_iff_eq]
    exact (Key.compareto_order k' k).2.1
  show (if Key.eq k' k = true then some v else _) = _
  by_cases hc : fold k' = fold k
  · rw [if_pos (h.2 hc), if_pos hc]
  · rw [if_neg (fun x => hc (h.1 x)), if_neg hc]; rfl

example : Key.eq [WcgP.b "S", WcgP.b "a"] [WcgP.b "s", WcgP.b "A"] = true := by decide +kernel

/-- C120 (iteration): what is listed below a section are its entries: a listed name has the listed value, and everything that has a value
    in this section is listed; if the names in the section are as in keys. Missing: names with slashes (`C120_nested_fails`), the root
    (`C120_root_fails`). -/
theorem C120_iter_partial (c : Conf) (h : WcgP.Quiet c) (s : Text)
    (hn : ∀ t, find c s = some t → ∀ x ∈ t.entries, Key.printable (Key.parse x.name) = x.name) (e : Text) (he : Named [e]) (v : Text) :
    (([e], v) ∈ iter c [s] → get c none [s, e] = some v) ∧ (get c none [s, e] = some v → ∃ e', fold [e'] = fold [e] ∧ ([e'], v) ∈ iter c [s])
    ∧ (iter c [s] ≠ [] → haschildren c [s] = true) := by
  have hg : get c none [s, e] = val c s e := by
    show ConfFile.get c (sect [s, e]) (entry [s, e]) none = _
    rw [WcgP.sect_cons, WcgP.entry_cons, WcgP.get_quiet h]; rfl
  rw [hg]
  unfold iter haschildren val
  rw [show Key.printable [s] = s from rfl]
  cases hf : find c s with
  | none => exact ⟨(fun hm => by cases hm), (fun hm => by cases hm), fun hm => absurd rfl hm⟩
  | some t =>
    have htidy := h.tidy.entries t (List.mem_of_find?_eq_some hf)
    refine ⟨fun hm => ?_, fun hm => ?_, fun _ => rfl⟩
    · obtain ⟨x, hx, hx'⟩ := List.mem_map.1 hm
      simp only [Prod.mk.injEq] at hx'
      have hxn : x.name = e := by rw [← hn t hf x hx, hx'.1]; rfl
      show ConfFile.entGet t.entries e = some v
      rw [← hxn, ← hx'.2]
      exact WcgP.entGet_mem htidy hx
    · have hm : ConfFile.entGet t.entries e = some v := hm
      unfold ConfFile.entGet at hm
      obtain ⟨x, hx, hx'⟩ := Option.map_eq_some_iff.1 hm
      have h1 := List.find?_some hx
      have h2 := List.mem_of_find?_eq_some hx
      rw [ConfFile.ci_eq, decide_eq_true_iff] at h1
      have hfold : fold [x.name] = fold [e] := by
        unfold fold
        rw [List.map_cons, List.map_cons]
        exact congrArg (· :: _) h1
      refine ⟨x.name, hfold, List.mem_map.2 ⟨x, h2, ?_⟩⟩
      have hnamed : Named [x.name] := by
        intro y hy
        have : y = x.name := by simpa using hy
        subst this
        obtain ⟨he1, he2⟩ := he e (by simp)
        have h1' : x.name.map tolower = e.map tolower := h1
        refine ⟨fun hnil => ?_, fun hsl => ?_⟩
        · rw [hnil] at h1'
          exact he1 (List.map_eq_nil_iff.1 h1'.symm)
        · have h3 : tolower (ch '/') ∈ e.map tolower := h1' ▸ List.mem_map_of_mem hsl
          obtain ⟨z, hz, hz'⟩ := List.mem_map.1 h3
          exact he2 (WcgP.lower_slash z (hz'.trans (by decide)) ▸ hz)
      simp only [Prod.mk.injEq]
      exact ⟨WcgP.named_parse hnamed, hx'⟩

example : iter (set (make .missing) [WcgP.b "s", WcgP.b "a"] (some (WcgP.b "1"))) [WcgP.b "S"] = [([WcgP.b "a"], WcgP.b "1")] := by decide +kernel

/-- C120: a key that is removed keeps its value. -/
theorem C120_remove_fails : ¬ ∀ (c : Conf) (_ : WcgP.Quiet c) (k : Key) (_ : WcgP.Fit k), get (set c k none) none k = none := by
  intro h
  have hf : WcgP.Fit [WcgP.b "s", WcgP.b "a"] := ⟨by unfold Named; decide +kernel, by decide, by unfold Spec.ConfFile.Trimmed; decide +kernel, by decide +kernel⟩
  have hq : WcgP.Quiet (set (make .missing) [WcgP.b "s", WcgP.b "a"] (some (WcgP.b "1"))) :=
    WcgP.quiet_step WcgP.quiet_make (.set [WcgP.b "s", WcgP.b "a"] (WcgP.b "1")) ⟨hf, by decide⟩
  exact absurd (h _ hq _ hf) (by decide +kernel)

/-- C120: a key that is set to the empty value has none. -/
theorem C120_empty_fails : get (set (make .missing) [WcgP.b "s", WcgP.b "a"] (some [])) none [WcgP.b "s", WcgP.b "a"] = none := by decide +kernel

/-- C120: when a section is removed, nobody is told that its keys have no values any more. -/
theorem C120_silent_fails :
    let c := set (make .missing) [WcgP.b "s", WcgP.b "a"] (some (WcgP.b "1"))
    get c none [WcgP.b "s", WcgP.b "a"] = some (WcgP.b "1") ∧ get (set c [WcgP.b "s"] none) none [WcgP.b "s", WcgP.b "a"] = none ∧
      told (set c [WcgP.b "s"] none) = told c := by decide +kernel

/-- C120: the root has no children, although there are sections. -/
theorem C120_root_fails :
    let c := set (make .missing) [WcgP.b "s", WcgP.b "a"] (some (WcgP.b "1"))
    haschildren c [] = false ∧ iter c [] = [] ∧ haschildren c [WcgP.b "s"] = true := by decide +kernel

/-- C120: a key below an entry is listed below the section, and not below the entry. -/
theorem C120_nested_fails :
    let c := set (make .missing) [WcgP.b "s", WcgP.b "a", WcgP.b "b"] (some (WcgP.b "1"))
    iter c [WcgP.b "s"] = [([WcgP.b "a", WcgP.b "b"], WcgP.b "1")] ∧ iter c [WcgP.b "s", WcgP.b "a"] = [] ∧ haschildren c [WcgP.b "s", WcgP.b "a"] = false := by decide +kernel

/-- C120: a section without entries has children. -/
theorem C120_children_fails :
    let c := set (set (make .missing) [WcgP.b "s", WcgP.b "a"] (some (WcgP.b "1"))) [WcgP.b "s", WcgP.b "a"] (some [])
    haschildren c [WcgP.b "s"] = true ∧ iter c [WcgP.b "s"] = [] := by decide +kernel

end Props
