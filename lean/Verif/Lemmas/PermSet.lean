import Verif.Model.PermGen
import Verif.Lemmas.Perm
import Verif.Props.IntText
import Verif.Spec.PermSet
/- What the calls that change permissions do to a configuration. -/
namespace Props.PermS
open Wv Spec.Conf Props.Gens
open Wv.Key (fold Names mk)

/-- A configuration says what has been given. -/
def Says (P : Spec.Conf.State) (G : Spec.PermSet.Given) : Prop :=
  (∀ q, Spec.Perm.named P (Spec.Perm.text ['o', 'w', 'n', 'e', 'r']) q = G.owner q) ∧
  (∀ q, Spec.Perm.named P (Spec.Perm.text ['g', 'r', 'o', 'u', 'p']) q = G.group q) ∧
  ∀ q l k, Spec.Perm.flagged (flagOf PermGen.num) P l k q = G.flag q l k

theorem num_values : PermGen.num [] = -1 ∧ PermGen.num (str ['1']) = 1 ∧ PermGen.num (str ['0']) = 0 := by decide +kernel

/-- The configuration after one attribute was set. -/
def put (P : Spec.Conf.State) (q : Place) (a v : Text) : Spec.Conf.State :=
  fun r => if r = q ++ [a] then some v else if r <+: q ++ [a] then some ((P r).getD []) else P r

theorem attr_set {σ : Type} (I : IGen σ) (Rep : σ → Spec.Conf.State → Prop) (hI : Behaves I Rep) (s : σ) (P : Spec.Conf.State)
    (h : Rep s P) (path name v : Text) (hn : name ≠ [] ∧ Spec.Path.slash ∉ name) (hl : name.map Spec.Path.lower = name) :
    Rep (I.set s (Perm.attr (Key.parse path) name) (some v)) (put P (place path) name v) := by
  obtain ⟨k, h1, h2, h3⟩ := attr_place (Spec.Path.names path) (Spec.Path.dir path) (Key.names_ok path) (Key.dir_names path) name hn hl
  rw [← Key.parse_eq] at h1
  rw [h1]
  have := hI.set s P h k (some v)
  have e : Spec.Conf.set P k (some v) = put P (place path) name v := by
    rw [Spec.Conf.set, h3, h2, fold_eq]; rfl
  rw [e] at this; exact this

theorem named_put (P : Spec.Conf.State) (q r : Place) (a b v : Text) :
    Spec.Perm.named (put P q a v) b r = if r = q ∧ b = a then Spec.PermSet.name? v else Spec.Perm.named P b r := by
  unfold Spec.Perm.named put
  by_cases h : r ++ [b] = q ++ [a]
  · have := List.append_inj' h rfl
    rw [if_pos h, if_pos ⟨this.1, by simpa using this.2⟩]; rfl
  · rw [if_neg h, if_neg (c := r = q ∧ b = a) (fun h' => h (by rw [h'.1, h'.2]))]
    by_cases h2 : r ++ [b] <+: q ++ [a]
    · rw [if_pos h2]
      cases P (r ++ [b]) with
      | none => rfl
      | some w => rfl
    · rw [if_neg h2]

theorem flagged_put (P : Spec.Conf.State) (q r : Place) (a v : Text) (l : Spec.Perm.Level) (k : Spec.Perm.Kind) :
    Spec.Perm.flagged (flagOf PermGen.num) (put P q a v) l k r =
      if r = q ∧ Spec.Perm.levelName l ++ Spec.Perm.text ['-'] ++ Spec.Perm.kindName k = a then flagOf PermGen.num v
      else Spec.Perm.flagged (flagOf PermGen.num) P l k r := by
  unfold Spec.Perm.flagged put
  generalize Spec.Perm.levelName l ++ Spec.Perm.text ['-'] ++ Spec.Perm.kindName k = b
  by_cases h : r ++ [b] = q ++ [a]
  · have := List.append_inj' h rfl
    rw [if_pos h, if_pos ⟨this.1, by simpa using this.2⟩]; rfl
  · rw [if_neg h, if_neg (c := r = q ∧ b = a) (fun h' => h (by rw [h'.1, h'.2]))]
    by_cases h2 : r ++ [b] <+: q ++ [a]
    · rw [if_pos h2]
      cases P (r ++ [b]) with
      | none => show flagOf PermGen.num [] = none; rw [flagOf, if_pos num_values.1]
      | some w => rfl
    · rw [if_neg h2]

/-- The configuration after one attribute was removed. -/
def cut (P : Spec.Conf.State) (q : Place) (a : Text) : Spec.Conf.State := fun r => if q ++ [a] <+: r then none else P r

theorem attr_cut {σ : Type} (I : IGen σ) (Rep : σ → Spec.Conf.State → Prop) (hI : Behaves I Rep) (s : σ) (P : Spec.Conf.State)
    (h : Rep s P) (path name : Text) (hn : name ≠ [] ∧ Spec.Path.slash ∉ name) (hl : name.map Spec.Path.lower = name) :
    Rep (I.set s (Perm.attr (Key.parse path) name) none) (cut P (place path) name) := by
  obtain ⟨k, h1, h2, _⟩ := attr_place (Spec.Path.names path) (Spec.Path.dir path) (Key.names_ok path) (Key.dir_names path) name hn hl
  rw [← Key.parse_eq] at h1
  rw [h1]
  have := hI.set s P h k none
  have e : Spec.Conf.set P k none = cut P (place path) name := by
    rw [Spec.Conf.set, h2, fold_eq]; rfl
  rw [e] at this; exact this

theorem cut_at (P : Spec.Conf.State) (q r : Place) (a b : Text) :
    cut P q a (r ++ [b]) = if (r = q ∧ b = a) ∨ q ++ [a] <+: r then none else P (r ++ [b]) := by
  unfold cut
  have : q ++ [a] <+: r ++ [b] ↔ (r = q ∧ b = a) ∨ q ++ [a] <+: r := by
    rw [List.prefix_concat_iff]
    constructor
    · rintro (h | h)
      · have := List.append_inj' h rfl
        exact .inl ⟨this.1.symm, by simpa using this.2.symm⟩
      · exact .inr h
    · rintro (⟨rfl, rfl⟩ | h)
      · exact .inl rfl
      · exact .inr h
  simp only [this]

theorem named_cut (P : Spec.Conf.State) (q r : Place) (a b : Text) :
    Spec.Perm.named (cut P q a) b r = if (r = q ∧ b = a) ∨ q ++ [a] <+: r then none else Spec.Perm.named P b r := by
  unfold Spec.Perm.named
  rw [cut_at]
  by_cases h : (r = q ∧ b = a) ∨ q ++ [a] <+: r
  · rw [if_pos h, if_pos h]
  · rw [if_neg h, if_neg h]

theorem flagged_cut (P : Spec.Conf.State) (q r : Place) (a : Text) (l : Spec.Perm.Level) (k : Spec.Perm.Kind) :
    Spec.Perm.flagged (flagOf PermGen.num) (cut P q a) l k r =
      if (r = q ∧ Spec.Perm.levelName l ++ Spec.Perm.text ['-'] ++ Spec.Perm.kindName k = a) ∨ q ++ [a] <+: r then none
      else Spec.Perm.flagged (flagOf PermGen.num) P l k r := by
  unfold Spec.Perm.flagged
  rw [cut_at]
  split <;> rfl

theorem names_apart (l : Spec.Perm.Level) (k : Spec.Perm.Kind) :
    Spec.Perm.levelName l ++ Spec.Perm.text ['-'] ++ Spec.Perm.kindName k ≠ Spec.Perm.text ['o', 'w', 'n', 'e', 'r'] ∧
    Spec.Perm.levelName l ++ Spec.Perm.text ['-'] ++ Spec.Perm.kindName k ≠ Spec.Perm.text ['g', 'r', 'o', 'u', 'p'] ∧
    Spec.Perm.text ['o', 'w', 'n', 'e', 'r'] ≠ Spec.Perm.text ['g', 'r', 'o', 'u', 'p'] := by
  cases l <;> cases k <;> decide +kernel

theorem flag_inj (l l' : Spec.Perm.Level) (k k' : Spec.Perm.Kind) :
    Spec.Perm.levelName l ++ Spec.Perm.text ['-'] ++ Spec.Perm.kindName k =
      Spec.Perm.levelName l' ++ Spec.Perm.text ['-'] ++ Spec.Perm.kindName k' ↔ l = l' ∧ k = k' := by
  cases l <;> cases k <;> cases l' <;> cases k' <;> decide +kernel

theorem says_owner (P : Spec.Conf.State) (G : Spec.PermSet.Given) (h : Says P G) (path v : Text) :
    Says (put P (place path) (Spec.Perm.text ['o', 'w', 'n', 'e', 'r']) v) (Spec.PermSet.step G (.setowner path v)) := by
  refine ⟨fun q => ?_, fun q => ?_, fun q l k => ?_⟩
  · rw [named_put, h.1 q]
    simp only [and_true]; rfl
  · rw [named_put, h.2.1 q, if_neg (fun h' => (names_apart .user .read).2.2 h'.2.symm)]; rfl
  · rw [flagged_put, h.2.2, if_neg (fun h' => (names_apart l k).1 h'.2)]; rfl

theorem says_group (P : Spec.Conf.State) (G : Spec.PermSet.Given) (h : Says P G) (path v : Text) :
    Says (put P (place path) (Spec.Perm.text ['g', 'r', 'o', 'u', 'p']) v) (Spec.PermSet.step G (.setgroup path v)) := by
  refine ⟨fun q => ?_, fun q => ?_, fun q l k => ?_⟩
  · rw [named_put, h.1 q, if_neg (fun h' => (names_apart .user .read).2.2 h'.2)]; rfl
  · rw [named_put, h.2.1 q]
    simp only [and_true]; rfl
  · rw [flagged_put, h.2.2, if_neg (fun h' => (names_apart l k).2.1 h'.2)]; rfl

theorem says_perm (P : Spec.Conf.State) (G : Spec.PermSet.Given) (h : Says P G) (path : Text) (l : Spec.Perm.Level)
    (k : Spec.Perm.Kind) (b : Bool) :
    Says (put P (place path) (Spec.Perm.levelName l ++ Spec.Perm.text ['-'] ++ Spec.Perm.kindName k)
      (if b then str ['1'] else str ['0'])) (Spec.PermSet.step G (.setperm path l k b)) := by
  refine ⟨fun q => ?_, fun q => ?_, fun q l' k' => ?_⟩
  · rw [named_put, h.1 q, if_neg (fun h' => (names_apart l k).1 h'.2.symm)]; rfl
  · rw [named_put, h.2.1 q, if_neg (fun h' => (names_apart l k).2.1 h'.2.symm)]; rfl
  · rw [flagged_put, h.2.2]
    simp only [flag_inj]
    have : flagOf PermGen.num (if b then str ['1'] else str ['0']) = some b := by cases b <;> decide +kernel
    rw [this]; rfl

theorem says_clearowner (P : Spec.Conf.State) (G : Spec.PermSet.Given) (h : Says P G) (path : Text) :
    Says (cut P (place path) (Spec.Perm.text ['o', 'w', 'n', 'e', 'r'])) (Spec.PermSet.step G (.clearowner path)) := by
  refine ⟨fun q => ?_, fun q => ?_, fun q l k => ?_⟩
  · rw [named_cut, h.1 q]
    simp only [and_true, Spec.PermSet.step, Spec.PermSet.forget]
    by_cases h1 : q = place path
    · simp [h1]
    · simp [h1]
  · rw [named_cut, h.2.1 q]
    have := (names_apart .user .read).2.2.symm
    simp only [this, and_false, false_or]; rfl
  · rw [flagged_cut, h.2.2]
    have := (names_apart l k).1
    simp only [this, and_false, false_or]; rfl

theorem says_cleargroup (P : Spec.Conf.State) (G : Spec.PermSet.Given) (h : Says P G) (path : Text) :
    Says (cut P (place path) (Spec.Perm.text ['g', 'r', 'o', 'u', 'p'])) (Spec.PermSet.step G (.cleargroup path)) := by
  refine ⟨fun q => ?_, fun q => ?_, fun q l k => ?_⟩
  · rw [named_cut, h.1 q]
    have := (names_apart .user .read).2.2
    simp only [this, and_false, false_or]; rfl
  · rw [named_cut, h.2.1 q]
    simp only [and_true, Spec.PermSet.step, Spec.PermSet.forget]
    by_cases h1 : q = place path
    · simp [h1]
    · simp [h1]
  · rw [flagged_cut, h.2.2]
    have := (names_apart l k).2.1
    simp only [this, and_false, false_or]; rfl

def level' : Spec.Perm.Level → Perm.Level
  | .user => .user
  | .group => .group
  | .world => .world

def kind' : Spec.Perm.Kind → Perm.Kind
  | .read => .read
  | .write => .write
  | .exec => .exec

theorem attr_name (l : Spec.Perm.Level) (k : Spec.Perm.Kind) :
    Perm.level2str (level' l) ++ ch '-' :: Perm.type2str (kind' k) =
      Spec.Perm.levelName l ++ Spec.Perm.text ['-'] ++ Spec.Perm.kindName k ∧
    (Perm.level2str (level' l) ++ ch '-' :: Perm.type2str (kind' k) ≠ [] ∧
      Spec.Path.slash ∉ Perm.level2str (level' l) ++ ch '-' :: Perm.type2str (kind' k)) ∧
    (Perm.level2str (level' l) ++ ch '-' :: Perm.type2str (kind' k)).map Spec.Path.lower =
      Perm.level2str (level' l) ++ ch '-' :: Perm.type2str (kind' k) := by
  cases l <;> cases k <;> decide +kernel

/-- A generator that holds what says something. -/
def Keeps {σ : Type} (Rep : σ → Spec.Conf.State → Prop) (s : σ) (G : Spec.PermSet.Given) : Prop := ∃ P, Rep s P ∧ Says P G

section
variable {σ : Type} (I : IGen σ) (Rep : σ → Spec.Conf.State → Prop) (hI : Behaves I Rep)
include hI

theorem keeps_owner (s : σ) (G : Spec.PermSet.Given) (h : Keeps Rep s G) (path v : Text) :
    Keeps Rep (PermGen.setowner I s (Key.parse path) (some v)) (Spec.PermSet.step G (.setowner path v)) := by
  obtain ⟨P, h1, h2⟩ := h
  exact ⟨_, attr_set I Rep hI s P h1 path _ v (by decide +kernel) (by decide +kernel), says_owner P G h2 path v⟩

theorem keeps_group (s : σ) (G : Spec.PermSet.Given) (h : Keeps Rep s G) (path v : Text) :
    Keeps Rep (PermGen.setgroup I s (Key.parse path) (some v)) (Spec.PermSet.step G (.setgroup path v)) := by
  obtain ⟨P, h1, h2⟩ := h
  exact ⟨_, attr_set I Rep hI s P h1 path _ v (by decide +kernel) (by decide +kernel), says_group P G h2 path v⟩

theorem keeps_clearowner (s : σ) (G : Spec.PermSet.Given) (h : Keeps Rep s G) (path : Text) :
    Keeps Rep (PermGen.setowner I s (Key.parse path) none) (Spec.PermSet.step G (.clearowner path)) := by
  obtain ⟨P, h1, h2⟩ := h
  exact ⟨_, attr_cut I Rep hI s P h1 path _ (by decide +kernel) (by decide +kernel), says_clearowner P G h2 path⟩

theorem keeps_cleargroup (s : σ) (G : Spec.PermSet.Given) (h : Keeps Rep s G) (path : Text) :
    Keeps Rep (PermGen.setgroup I s (Key.parse path) none) (Spec.PermSet.step G (.cleargroup path)) := by
  obtain ⟨P, h1, h2⟩ := h
  exact ⟨_, attr_cut I Rep hI s P h1 path _ (by decide +kernel) (by decide +kernel), says_cleargroup P G h2 path⟩

theorem keeps_perm (s : σ) (G : Spec.PermSet.Given) (h : Keeps Rep s G) (path : Text) (l : Spec.Perm.Level) (k : Spec.Perm.Kind) (b : Bool) :
    Keeps Rep (PermGen.setperm I s (Key.parse path) (level' l) (kind' k) b) (Spec.PermSet.step G (.setperm path l k b)) := by
  obtain ⟨P, h1, h2⟩ := h
  obtain ⟨e, hn, hl⟩ := attr_name l k
  refine ⟨_, attr_set I Rep hI s P h1 path _ _ hn hl, ?_⟩
  rw [e]
  exact says_perm P G h2 path l k b

end

theorem and_bit (n : UInt32) (i : Nat) (c : UInt32) (hc : c.toNat = 2 ^ i) : (n &&& c != 0) = n.toNat.testBit i := by
  cases h : n.toNat.testBit i with
  | false =>
    have h0 : (n &&& c).toNat = 0 := by
      rw [UInt32.toNat_and, hc]
      apply Nat.eq_of_testBit_eq
      intro j
      rw [Nat.testBit_and, Nat.testBit_two_pow, Nat.zero_testBit]
      by_cases hj : i = j
      · subst hj; rw [h]; rfl
      · simp [hj]
    have : n &&& c = 0 := UInt32.toNat_inj.mp (by rw [h0]; rfl)
    rw [this]; rfl
  | true =>
    have h0 : n &&& c ≠ 0 := by
      intro h'
      have : (n &&& c).toNat.testBit i = true := by
        rw [UInt32.toNat_and, hc, Nat.testBit_and, Nat.testBit_two_pow, h]; simp
      rw [h'] at this
      simp at this
    simpa using h0

end Props.PermS
