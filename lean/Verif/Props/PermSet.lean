import Verif.Lemmas.PermSet
import Verif.Props.FilterGen
/- C83: permissions as they were given. -/
namespace Props
open Wv Spec.Conf Spec.PermSet Props.Gens PermS

namespace PermS

/-- What the program does for a call. -/
def call {σ : Type} (I : IGen σ) (s : σ) : Spec.PermSet.Call → σ
  | .setowner path v => PermGen.setowner I s (Key.parse path) (some v)
  | .setgroup path v => PermGen.setgroup I s (Key.parse path) (some v)
  | .setperm path l k b => PermGen.setperm I s (Key.parse path) (level' l) (kind' k) b
  | .chmod path u g w => PermGen.chmod I s (Key.parse path) (UInt32.ofNat u) (UInt32.ofNat g) (UInt32.ofNat w)
  | .chmodMode path mode => PermGen.chmodMode I s (Key.parse path) (UInt32.ofNat mode)
  | .clearowner path => PermGen.setowner I s (Key.parse path) none
  | .cleargroup path => PermGen.setgroup I s (Key.parse path) none

/-- The numbers fit an `unsigned int`. -/
def Fits : Spec.PermSet.Call → Prop
  | .chmod _ u g w => u < 2 ^ 32 ∧ g < 2 ^ 32 ∧ w < 2 ^ 32
  | .chmodMode _ mode => mode < 2 ^ 32
  | _ => True

theorem ofNat_toNat (n : Nat) (h : n < 2 ^ 32) : (UInt32.ofNat n).toNat = n := by
  simp; omega

theorem keeps_chmod {σ : Type} (I : IGen σ) (Rep : σ → Spec.Conf.State → Prop) (hI : Behaves I Rep) (s : σ) (G : Given)
    (h : Keeps Rep s G) (path : Text) (u g w : UInt32) :
    Keeps Rep (PermGen.chmod I s (Key.parse path) u g w) (step G (.chmod path u.toNat g.toNat w.toNat)) := by
  have b : ∀ n : UInt32, (n &&& 4 != 0) = n.toNat.testBit 2 ∧ (n &&& 2 != 0) = n.toNat.testBit 1 ∧ (n &&& 1 != 0) = n.toNat.testBit 0 :=
    fun n => ⟨and_bit n 2 4 rfl, and_bit n 1 2 rfl, and_bit n 0 1 rfl⟩
  unfold PermGen.chmod
  simp only [(b u).1, (b u).2.1, (b u).2.2, (b g).1, (b g).2.1, (b g).2.2, (b w).1, (b w).2.1, (b w).2.2]
  have h := keeps_perm I Rep hI _ _ h path .user .read (u.toNat.testBit 2)
  have h := keeps_perm I Rep hI _ _ h path .user .write (u.toNat.testBit 1)
  have h := keeps_perm I Rep hI _ _ h path .user .exec (u.toNat.testBit 0)
  have h := keeps_perm I Rep hI _ _ h path .group .read (g.toNat.testBit 2)
  have h := keeps_perm I Rep hI _ _ h path .group .write (g.toNat.testBit 1)
  have h := keeps_perm I Rep hI _ _ h path .group .exec (g.toNat.testBit 0)
  have h := keeps_perm I Rep hI _ _ h path .world .read (w.toNat.testBit 2)
  have h := keeps_perm I Rep hI _ _ h path .world .write (w.toNat.testBit 1)
  have h := keeps_perm I Rep hI _ _ h path .world .exec (w.toNat.testBit 0)
  refine (congrArg (Keeps Rep _) ?_).mp h
  simp only [step]
  congr 1
  funext q l k
  by_cases hq : q = place path
  · subst hq
    cases l <;> cases k <;> simp [pick, bit]
  · simp [hq]

theorem mode_bit (m : UInt32) (i : Nat) (hi : i < 3) :
    (((m &&& 0o700) >>> 6).toNat.testBit i = m.toNat.testBit (6 + i)) ∧
    (((m &&& 0o070) >>> 3).toNat.testBit i = m.toNat.testBit (3 + i)) ∧
    ((m &&& 0o007).toNat.testBit i = m.toNat.testBit i) := by
  have h : i = 0 ∨ i = 1 ∨ i = 2 := by omega
  refine ⟨?_, ?_, ?_⟩
  · rw [UInt32.toNat_shiftRight, UInt32.toNat_and, Nat.testBit_shiftRight, Nat.testBit_and]
    rcases h with rfl | rfl | rfl
    · have : (UInt32.toNat 0o700).testBit ((UInt32.toNat 6) % 32 + 0) = true := by decide +kernel
      rw [this, Bool.and_true]; rfl
    · have : (UInt32.toNat 0o700).testBit ((UInt32.toNat 6) % 32 + 1) = true := by decide +kernel
      rw [this, Bool.and_true]; rfl
    · have : (UInt32.toNat 0o700).testBit ((UInt32.toNat 6) % 32 + 2) = true := by decide +kernel
      rw [this, Bool.and_true]; rfl
  · rw [UInt32.toNat_shiftRight, UInt32.toNat_and, Nat.testBit_shiftRight, Nat.testBit_and]
    rcases h with rfl | rfl | rfl
    · have : (UInt32.toNat 0o070).testBit ((UInt32.toNat 3) % 32 + 0) = true := by decide +kernel
      rw [this, Bool.and_true]; rfl
    · have : (UInt32.toNat 0o070).testBit ((UInt32.toNat 3) % 32 + 1) = true := by decide +kernel
      rw [this, Bool.and_true]; rfl
    · have : (UInt32.toNat 0o070).testBit ((UInt32.toNat 3) % 32 + 2) = true := by decide +kernel
      rw [this, Bool.and_true]; rfl
  · rw [UInt32.toNat_and, Nat.testBit_and]
    rcases h with rfl | rfl | rfl
    · have : (UInt32.toNat 0o007).testBit 0 = true := by decide +kernel
      rw [this, Bool.and_true]
    · have : (UInt32.toNat 0o007).testBit 1 = true := by decide +kernel
      rw [this, Bool.and_true]
    · have : (UInt32.toNat 0o007).testBit 2 = true := by decide +kernel
      rw [this, Bool.and_true]

theorem keeps_call {σ : Type} (I : IGen σ) (Rep : σ → Spec.Conf.State → Prop) (hI : Behaves I Rep) (s : σ) (G : Given)
    (h : Keeps Rep s G) (c : Spec.PermSet.Call) (hc : Fits c) : Keeps Rep (call I s c) (step G c) := by
  cases c with
  | setowner path v => exact keeps_owner I Rep hI s G h path v
  | setgroup path v => exact keeps_group I Rep hI s G h path v
  | setperm path l k b => exact keeps_perm I Rep hI s G h path l k b
  | chmod path u g w =>
    have := keeps_chmod I Rep hI s G h path (UInt32.ofNat u) (UInt32.ofNat g) (UInt32.ofNat w)
    rw [ofNat_toNat u hc.1, ofNat_toNat g hc.2.1, ofNat_toNat w hc.2.2] at this
    exact this
  | chmodMode path mode =>
    have := keeps_chmod I Rep hI s G h path ((UInt32.ofNat mode &&& 0o700) >>> 6) ((UInt32.ofNat mode &&& 0o070) >>> 3)
      (UInt32.ofNat mode &&& 0o007)
    refine (congrArg (Keeps Rep _) ?_).mp this
    simp only [step]
    congr 1
    funext q l k
    by_cases hq : q = place path
    · rw [if_pos hq, if_pos hq]
      have h2 := mode_bit (UInt32.ofNat mode) 2 (by omega)
      have h1 := mode_bit (UInt32.ofNat mode) 1 (by omega)
      have h0 := mode_bit (UInt32.ofNat mode) 0 (by omega)
      rw [ofNat_toNat mode hc] at h2 h1 h0
      congr 1
      cases l <;> cases k
      · exact h2.1
      · exact h1.1
      · exact h0.1
      · exact h2.2.1
      · exact h1.2.1
      · exact h0.2.1
      · exact h2.2.2
      · exact h1.2.2
      · exact h0.2.2
    · rw [if_neg hq, if_neg hq]
  | clearowner path => exact keeps_clearowner I Rep hI s G h path
  | cleargroup path => exact keeps_cleargroup I Rep hI s G h path

theorem keeps_history {σ : Type} (I : IGen σ) (Rep : σ → Spec.Conf.State → Prop) (hI : Behaves I Rep) : ∀ (cs : List Spec.PermSet.Call)
    (s : σ) (G : Given), Keeps Rep s G → (∀ c ∈ cs, Fits c) → Keeps Rep (cs.foldl (call I) s) (cs.foldl step G)
  | [], _, _, h, _ => h
  | c :: cs, s, G, h, hf => keeps_history I Rep hI cs _ _ (keeps_call I Rep hI s G h c (hf c (by simp))) (fun x hx => hf x (by simp [hx]))

theorem inherited_congr {α : Type} (f g : Place → Option α) (h : ∀ q, f q = g q) (p : Place) : ∀ n,
    Spec.Perm.inherited f p n = Spec.Perm.inherited g p n := by
  have : f = g := funext h
  intro n; rw [this]

theorem level_says (P : Spec.Conf.State) (G : Given) (h : Says P G) (user : Option Text) (groups : List Text) (p : Place) :
    Spec.Perm.levelOf P user groups p = levelOf G user groups p := by
  unfold Spec.Perm.levelOf levelOf
  have ho : Spec.Perm.owner P p = Spec.Perm.inherited G.owner p p.length := inherited_congr _ _ h.1 p _
  have hg : Spec.Perm.group P p = Spec.Perm.inherited G.group p p.length := inherited_congr _ _ h.2.1 p _
  rw [ho, hg]
  have e1 : ((Spec.Perm.inherited G.owner p p.length).isSome = true ∧ user = Spec.Perm.inherited G.owner p p.length) ↔
      ∃ o, Spec.Perm.inherited G.owner p p.length = some o ∧ user = some o := by
    cases Spec.Perm.inherited G.owner p p.length with
    | none => simp
    | some o => simp
  simp only [e1]
  split
  · rfl
  · cases Spec.Perm.inherited G.group p p.length with
    | none => simp
    | some g =>
      by_cases hm : g ∈ groups
      · have : ∃ g', g' ∈ groups ∧ some g = some g' := ⟨g, hm, rfl⟩
        simp only [hm, if_true]; rw [if_pos this]
      · have : ¬ ∃ g', g' ∈ groups ∧ some g = some g' := by
          rintro ⟨g', h1, h2⟩
          exact hm (by cases h2; exact h1)
        simp only [hm, if_false]; rw [if_neg this]

theorem has_says (P : Spec.Conf.State) (G : Given) (h : Says P G) (user : Option Text) (groups : List Text) (p : Place) (k : Spec.Perm.Kind) :
    Spec.Perm.has (flagOf PermGen.num) P user groups p k = has G user groups p k := by
  unfold Spec.Perm.has has
  rw [level_says P G h, inherited_congr _ _ (fun q => h.2.2 q _ k)]

theorem says_nothing : Says (fun _ => none) nothing := ⟨fun _ => rfl, fun _ => rfl, fun _ _ _ => rfl⟩

end PermS

/-- C83: after any calls of `setowner`, `setgroup`, `setperm` and the two `chmod`s, starting with an empty tree, `getperm` says what
    was given: owner, group and flags as the last call for that path and attribute gave them, the nearest path at or above counting.
    The numbers may be any that fit. `setowner` and `setgroup` with null are `clearowner` and `cleargroup`. -/
theorem C83_getperm {σ : Type} (I : IGen σ) (Rep : σ → Spec.Conf.State → Prop) (hI : Behaves I Rep) (s : σ) (hs : Rep s fun _ => none)
    (cs : List Spec.PermSet.Call) (hc : ∀ c ∈ cs, Fits c) (path : Text) (cred : Perm.Cred) (k : Perm.Kind) :
    PermGen.getperm I (cs.foldl (call I) s) (Key.parse path) cred k =
      has (cs.foldl step nothing) cred.user cred.groups (place path) (kind k) := by
  obtain ⟨P, h1, h2⟩ := keeps_history I Rep hI cs s nothing ⟨_, hs, says_nothing⟩ hc
  rw [PermGen.getperm, Key.parse_eq, getperm_spec I _ P (hI.reads _ _ h1) PermGen.num cred k _ _ (Key.names_ok path) (Key.dir_names path),
    has_says P _ h2, fold_eq]
  rfl

/-- The owner and the group, as `getowner` and `getgroup` say; nothing and an empty name are the same. -/
theorem C83_names {σ : Type} (I : IGen σ) (Rep : σ → Spec.Conf.State → Prop) (hI : Behaves I Rep) (s : σ) (hs : Rep s fun _ => none)
    (cs : List Spec.PermSet.Call) (hc : ∀ c ∈ cs, Fits c) (path : Text) :
    (PermGen.getowner I (cs.foldl (call I) s) (Key.parse path)).getD [] =
      (Spec.Perm.inherited (cs.foldl step nothing).owner (place path) (place path).length).getD [] ∧
    (PermGen.getgroup I (cs.foldl (call I) s) (Key.parse path)).getD [] =
      (Spec.Perm.inherited (cs.foldl step nothing).group (place path) (place path).length).getD [] := by
  obtain ⟨P, h1, h2⟩ := keeps_history I Rep hI cs s nothing ⟨_, hs, says_nothing⟩ hc
  constructor
  · rw [PermGen.getowner, Key.parse_eq, getname_spec I _ P (hI.reads _ _ h1) _ (by decide +kernel) (by decide +kernel) _ _
      (Key.names_ok path) (Key.dir_names path), fold_eq]
    rw [← inherited_congr _ _ h2.1]; rfl
  · rw [PermGen.getgroup, Key.parse_eq, getname_spec I _ P (hI.reads _ _ h1) _ (by decide +kernel) (by decide +kernel) _ _
      (Key.names_ok path) (Key.dir_names path), fold_eq]
    rw [← inherited_congr _ _ h2.2.1]; rfl

/-- With these permissions, a secured generator shows a value if and only if they may read it, that is, it is as the
    permissions given say. -/
theorem C83_secure {σ τ : Type} (I : IGen τ) (s : τ) (m : Spec.Conf.State) (hr : Reads I s m) (J : IGen σ)
    (Rep : σ → Spec.Conf.State → Prop) (hJ : Behaves J Rep) (p : σ) (hp : Rep p fun _ => none) (cs : List Spec.PermSet.Call)
    (hc : ∀ c ∈ cs, Fits c) (cred : Perm.Cred) (k : Text) :
    (May (cs.foldl step nothing) cred.user cred.groups (place k) .read →
      (secured I J (cs.foldl (call J) p) PermGen.num cred).get s (Key.parse k) = Spec.Conf.get m k) ∧
    (¬ May (cs.foldl step nothing) cred.user cred.groups (place k) .read →
      (secured I J (cs.foldl (call J) p) PermGen.num cred).get s (Key.parse k) = none) := by
  obtain ⟨P, h1, h2⟩ := keeps_history J Rep hJ cs p nothing ⟨_, hp, says_nothing⟩ hc
  have hg := C25_secure_get I s m hr J _ P (hJ.reads _ _ h1) PermGen.num cred k
  have e : allow PermGen.num cred P (place k) .read ↔ May (cs.foldl step nothing) cred.user cred.groups (place k) .read := by
    unfold allow Spec.Perm.May May
    simp only [has_says P _ h2]
  rw [e] at hg
  exact hg

/-- A new tree in memory meets the hypotheses, and so do many calls. -/
example : Behaves (IGen.temp id) Temp.Holds ∧ Temp.Holds TempGen.new (fun _ => none) ∧
    ∀ c ∈ [Call.setowner [] (str ['b', 'o', 'b']), .chmodMode [] 0o755, .chmod (str ['a']) 7 0 0], Fits c :=
  ⟨temp_behaves id fun _ => List.Perm.refl _, Temp.new_holds, by
    intro c hc
    simp only [List.mem_cons, List.not_mem_nil, or_false] at hc
    rcases hc with rfl | rfl | rfl
    · trivial
    · show _ < _; decide
    · exact ⟨by decide, by decide, by decide⟩⟩

namespace PermS

/-- The root belongs to bob and is for everyone, but `a` only for its owner. -/
def given : Given :=
  [Call.setowner [] (str ['b', 'o', 'b']), .chmodMode [] 0o755, .chmod (str ['a']) 7 0 0].foldl step nothing

end PermS

/-- So everyone may read what is in the root, only bob what is in `a`, and only bob may write. -/
example : has given (some (str ['b', 'o', 'b'])) [] [str ['a'], str ['b']] .write = true ∧
    has given (some (str ['e', 'v', 'e'])) [] [str ['a'], str ['b']] .read = false ∧
    has given (some (str ['e', 'v', 'e'])) [] [str ['c']] .read = true ∧
    has given (some (str ['e', 'v', 'e'])) [] [str ['c']] .write = false ∧
    has given none [] [] .exec = true := by decide +kernel

/-- Taking away the owner of a path can take away more: here the right of everyone to read another path, because it is called
    `owner` and is below the first. -/
theorem C83_clear_fails : ∃ (s : TempGen.Gen), Temp.Holds s (fun _ => none) ∧
    PermGen.getperm (IGen.temp id) ([Call.setperm (str ['o', 'w', 'n', 'e', 'r', '/', 'x']) .world .read true].foldl
      (call (IGen.temp id)) s) (Key.parse (str ['o', 'w', 'n', 'e', 'r', '/', 'x'])) ⟨none, []⟩ .read = true ∧
    PermGen.getperm (IGen.temp id) ([Call.setperm (str ['o', 'w', 'n', 'e', 'r', '/', 'x']) .world .read true, .clearowner []].foldl
      (call (IGen.temp id)) s) (Key.parse (str ['o', 'w', 'n', 'e', 'r', '/', 'x'])) ⟨none, []⟩ .read = false := by
  refine ⟨TempGen.new, Temp.new_holds, ?_, ?_⟩
  · rw [C83_getperm (IGen.temp id) Temp.Holds (temp_behaves id fun _ => List.Perm.refl _) TempGen.new Temp.new_holds]
    · decide +kernel
    · simp [Fits]
  · rw [C83_getperm (IGen.temp id) Temp.Holds (temp_behaves id fun _ => List.Perm.refl _) TempGen.new Temp.new_holds]
    · decide +kernel
    · simp [Fits]

end Props
