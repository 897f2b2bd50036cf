import Verif.Lemmas.Perm
/- C25: generators that filter another one. -/
namespace Props
open Wv Spec.Conf Gens
open Wv.Key (fold)

/-! ### Read-only -/

/-- A call other than `setv`. -/
def NotSetv : IGen.Call → Prop
  | .setv _ => False
  | _ => True

/-- Whatever is called on a read-only generator, except `setv`, the inner generator keeps every property that its own `commit`,
    `refresh` and `prefetch` keep: nothing is written to it. -/
theorem C25_readonly_partial {σ : Type} (I : IGen σ) (s : σ) (Q : σ → Prop) (hQ : Q s) (h1 : ∀ s, Q s → Q (I.commit s))
    (h2 : ∀ s, Q s → Q (I.refresh s).1) (h3 : ∀ s k r, Q s → Q (I.prefetch s k r)) (cs : List IGen.Call)
    (hc : ∀ c ∈ cs, NotSetv c) : Q (IGen.calls (IGen.readonly I) s cs) := by
  induction cs generalizing s with
  | nil => exact hQ
  | cons c cs ih =>
    have hc' : ∀ c ∈ cs, NotSetv c := fun x hx => hc x (by simp [hx])
    refine ih _ ?_ hc'
    have := hc c (by simp)
    cases c with
    | setv l => exact this.elim
    | set k v => exact hQ
    | commit => exact h1 s hQ
    | refresh => exact h2 s hQ
    | prefetch k r => exact h3 s k r hQ
    | flush => exact hQ

/-- It shows what the inner generator shows. -/
theorem C25_readonly_reads {σ : Type} (I : IGen σ) (s : σ) (m : Spec.Conf.State) (h : Reads I s m) : Reads (IGen.readonly I) s m :=
  ⟨h.get, h.exists_, h.haschildren, h.iterator⟩

/-- The in-memory generator after the calls of `sampleCalls`. -/
def sampleGen : TempGen.Gen := Temp.after TempGen.new sampleCalls
theorem sampleGen_holds : Temp.Holds sampleGen (Temp.conf sampleCalls) := Temp.conf_holds sampleCalls

example : Temp.Holds (IGen.calls (IGen.readonly (IGen.temp List.reverse)) sampleGen
    [.set [str ['a']] none, .commit, .refresh, .set [str ['x']] (some [])]) (Temp.conf sampleCalls) :=
  C25_readonly_partial _ _ (fun s => Temp.Holds s _) sampleGen_holds (fun _ h => h) (fun _ h => h) (fun _ _ _ h => h) _
    (by intro c hc; simp at hc; rcases hc with rfl | rfl | rfl | rfl <;> trivial)

/-- `setv` is passed to the inner generator, and writes. -/
theorem C25_readonly_setv_fails : ¬ ∀ (g : TempGen.Gen) (l : List (Key × Option TempGen.Value)) (k : Key),
    TempGen.get ((IGen.readonly (IGen.temp id)).setv g l) k = TempGen.get g k := by
  intro h
  have := h TempGen.new [([str ['a']], some (str ['1']))] [str ['a']]
  revert this; decide +kernel

/-! ### Subtree -/

/-- The part of a configuration below a place. -/
def under (p : Place) (m : Spec.Conf.State) : Spec.Conf.State := fun q => m (p ++ q)

/-- Nothing has changed that is not at or below a place, except that the places above it may now exist, with empty values. -/
def Outside (p : Place) (m m' : Spec.Conf.State) : Prop :=
  ∀ q, ¬ p <+: q → m' q = m q ∨ (q <+: p ∧ m q = none ∧ m' q = some [])

theorem under_set (sub k : Text) (hk : Spec.Path.names k ≠ []) (m : Spec.Conf.State) (v : Option Text) :
    under (place sub) (Spec.Conf.set m (sub ++ Spec.Path.slash :: k) v) = Spec.Conf.set (under (place sub) m) k v := by
  funext q
  unfold under
  cases v with
  | none =>
    simp only [Spec.Conf.set, place_append, List.prefix_append_right_inj]
  | some v =>
    simp only [Spec.Conf.set, dir_append sub k hk]
    split
    · rfl
    · simp only [place_append, List.append_cancel_left_eq, List.prefix_append_right_inj]

theorem under_set_nil (sub : Text) (hd : Spec.Path.dir sub = false) (k : Text) (hk : Spec.Path.names k = []) (m : Spec.Conf.State) (v : Option Text) :
    under (place sub) (Spec.Conf.set m sub v) = Spec.Conf.set (under (place sub) m) k v := by
  have hp : place k = [] := by simp [place, hk]
  have hdk : Spec.Path.dir k = false := by simp [Spec.Path.dir, hk]
  funext q
  unfold under
  cases v with
  | none => simp [Spec.Conf.set, hp]
  | some v =>
    simp only [Spec.Conf.set, hd, hdk, hp, Bool.false_eq_true, if_false]
    by_cases hq : q = []
    · subst hq; simp
    · have h1 : ¬ (place sub ++ q <+: place sub) := by
        intro hc
        have := hc.length_le
        rw [List.length_append] at this
        exact hq (List.length_eq_zero_iff.mp (by omega))
      simp [hq, h1]

theorem outside_set (p : Place) (m m0 : Spec.Conf.State) (k : Text) (hk : p <+: place k) (v : Option Text) (h : Outside p m0 m) :
    Outside p m0 (Spec.Conf.set m k v) := by
  intro q hq
  cases v with
  | none =>
    have : ¬ place k <+: q := fun hc => hq (hk.trans hc)
    simp only [Spec.Conf.set, this, if_false]
    exact h q hq
  | some v =>
    simp only [Spec.Conf.set]
    split
    · exact h q hq
    · have h1 : q ≠ place k := by rintro rfl; exact hq hk
      simp only [h1, if_false]
      split
      · rename_i hpq
        have hqp : q <+: p := by
          rcases List.prefix_or_prefix_of_prefix hpq hk with h2 | h2
          · exact h2
          · exact absurd h2 hq
        rcases h q hq with h2 | ⟨_, h2, h3⟩
        · rw [h2]
          cases hm : m0 q with
          | none => exact Or.inr ⟨hqp, rfl, rfl⟩
          | some w => exact Or.inl rfl
        · rw [h3]; exact Or.inr ⟨hqp, h2, rfl⟩
      · exact h q hq

theorem parse_nil (k : Text) (hk : Spec.Path.names k = []) : Key.parse k = [] := by
  rw [Key.parse_eq, hk]; simp [Key.mk, Spec.Path.dir, hk]

theorem subtree_key (sub k : Text) : IGen.subtreeKeymap (Key.parse sub) (Key.parse k) =
    some (Key.parse (if Spec.Path.names k = [] then sub else sub ++ Spec.Path.slash :: k)) := by
  unfold IGen.subtreeKeymap
  by_cases hk : Spec.Path.names k = []
  · rw [if_pos ((names_empty k).mpr hk), if_pos hk]
  · rw [if_neg (fun h => hk ((names_empty k).mp h)), if_neg hk, C19_join_text]

/-- A subtree generator behaves as a configuration: the part of the inner generator's configuration that is below the key it was
    made for. It does not change anything else in there, whatever is called except `setv`. The key has no slash at its end. -/
theorem C25_subtree_partial {σ : Type} (I : IGen σ) (Rep : σ → Spec.Conf.State → Prop) (hI : Behaves I Rep) (sub : Text)
    (hd : Spec.Path.dir sub = false) (m0 : Spec.Conf.State) :
    Behaves (IGen.subtree I (Key.parse sub)) fun s m => ∃ M, Rep s M ∧ m = under (place sub) M ∧ Outside (place sub) m0 M := by
  have hkey := subtree_key sub
  have hplace : ∀ k, place (if Spec.Path.names k = [] then sub else sub ++ Spec.Path.slash :: k) = place sub ++ place k := by
    intro k
    by_cases hk : Spec.Path.names k = []
    · simp [hk, place]
    · rw [if_neg hk, place_append]
  have hdir : ∀ k, Spec.Path.dir (if Spec.Path.names k = [] then sub else sub ++ Spec.Path.slash :: k) = Spec.Path.dir k := by
    intro k
    by_cases hk : Spec.Path.names k = []
    · rw [if_pos hk, hd]; simp [Spec.Path.dir, hk]
    · rw [if_neg hk, dir_append _ _ hk]
  have hget : ∀ M k, Spec.Conf.get M (if Spec.Path.names k = [] then sub else sub ++ Spec.Path.slash :: k) =
      Spec.Conf.get (under (place sub) M) k := by
    intro M k; simp only [Spec.Conf.get, hdir, hplace, under]
  constructor
  · rintro s m ⟨M, hM, rfl, _⟩
    have h := hI.reads s M hM
    constructor
    · intro k
      show (match IGen.subtreeKeymap (Key.parse sub) (Key.parse k) with | some k => I.get s k | none => none) = _
      rw [hkey]
      exact (h.get _).trans (hget M k)
    · intro k
      show (match IGen.subtreeKeymap (Key.parse sub) (Key.parse k) with | some k => I.exists s k | none => false) = _ ↔ _
      rw [hkey, ← hget]
      exact h.exists_ _
    · intro k
      show (match IGen.subtreeKeymap (Key.parse sub) (Key.parse k) with | some k => I.haschildren s k | none => false) = _ ↔ _
      rw [hkey]
      have := h.haschildren (if Spec.Path.names k = [] then sub else sub ++ Spec.Path.slash :: k)
      simp only [hplace, List.append_assoc] at this
      exact this
    · intro k
      have e : (IGen.subtree I (Key.parse sub)).iterator s (Key.parse k) =
        (match IGen.subtreeKeymap (Key.parse sub) (Key.parse k) with | some k => I.iterator s k | none => none) := rfl
      rw [hkey] at e
      simp only [] at e
      rw [e]
      have := h.iterator (if Spec.Path.names k = [] then sub else sub ++ Spec.Path.slash :: k)
      simp only [hplace, List.append_assoc] at this
      exact this
  · rintro s m ⟨M, hM, rfl, ho⟩ k v
    refine ⟨Spec.Conf.set M (if Spec.Path.names k = [] then sub else sub ++ Spec.Path.slash :: k) v, ?_, ?_, ?_⟩
    · show Rep (match IGen.subtreeKeymap (Key.parse sub) (Key.parse k) with | some k => I.set s k v | none => s) _
      rw [hkey]
      exact hI.set s M hM _ v
    · by_cases hk : Spec.Path.names k = []
      · rw [if_pos hk, under_set_nil sub hd k hk]
      · rw [if_neg hk, under_set sub k hk]
    · exact outside_set _ _ _ _ (by rw [hplace]; exact List.prefix_append _ _) v ho
  · rintro s m ⟨M, hM, h⟩; exact ⟨M, hI.commit s M hM, h⟩
  · rintro s m ⟨M, hM, h⟩; exact ⟨M, hI.refresh s M hM, h⟩
  · rintro s m ⟨M, hM, h⟩ k r
    refine ⟨M, ?_, h⟩
    show Rep (match IGen.subtreeKeymap (Key.parse sub) k with | some k => I.prefetch s k r | none => s) M
    split
    · exact hI.prefetch s M hM _ _
    · exact hM
  · rintro s m ⟨M, hM, h⟩; exact ⟨M, hI.flush s M hM, h⟩

/-- The subtree at "A" of the sample: "c/d" is read, and "x/y" set. -/
example : Reads (IGen.subtree (IGen.temp List.reverse) (Key.parse (str ['A'])))
    ((IGen.subtree (IGen.temp List.reverse) (Key.parse (str ['A']))).set sampleGen (Key.parse (str ['x', '/', 'y'])) (some (str ['7'])))
    (Spec.Conf.set (under (place (str ['A'])) (Temp.conf sampleCalls)) (str ['x', '/', 'y']) (some (str ['7']))) :=
  let B := C25_subtree_partial (IGen.temp List.reverse) Temp.Holds (temp_behaves _ List.reverse_perm) (str ['A']) (by decide +kernel)
    (Temp.conf sampleCalls)
  B.reads _ _ (B.set _ _ ⟨_, sampleGen_holds, rfl, fun _ _ => Or.inl rfl⟩ _ _)

/-- `setv` is passed to the inner generator without the prefix: it writes outside the subtree. -/
theorem C25_subtree_setv_fails : ¬ ∀ (g : TempGen.Gen) (l : List (Key × Option TempGen.Value)) (k : Key),
    Key.suborsame (Key.parse (str ['s'])) k = false →
    TempGen.get ((IGen.subtree (IGen.temp id) (Key.parse (str ['s']))).setv g l) k = TempGen.get g k := by
  intro h
  have := h TempGen.new [([str ['a']], some (str ['1']))] [str ['a']] (by decide +kernel)
  revert this; decide +kernel

/-- With a slash at the end of the key it was made for, the root of the subtree cannot be set. -/
theorem C25_subtree_slash_fails : ¬ ∀ (sub : Text) (g : TempGen.Gen) (v : TempGen.Value),
    (IGen.subtree (IGen.temp id) (Key.parse sub)).get
      ((IGen.subtree (IGen.temp id) (Key.parse sub)).set g [] (some v)) [] = some v := by
  intro h
  have := h (str ['s', '/']) TempGen.new (str ['1'])
  revert this; decide +kernel

/-! ### Permissions -/

section
variable {σ τ : Type} (I : IGen σ) (J : IGen τ) (p : τ) (num : TempGen.Value → Int) (cred : Perm.Cred)

/-- The generator that checks permissions, kept in another generator, for someone's credentials. -/
def secured : IGen σ := IGen.secure I fun q k => Perm.getperm num (J.get p) q cred k

/-- Whether the credentials allow something. -/
def allow (P : Spec.Conf.State) (q : Place) (k : Spec.Perm.Kind) : Prop := Spec.Perm.May (flagOf num) P cred.user cred.groups q k
end

theorem findperm_parse {τ : Type} (J : IGen τ) (p : τ) (P : Spec.Conf.State) (hJ : Reads J p P) (num : TempGen.Value → Int)
    (cred : Perm.Cred) (k : Perm.Kind) (s : Text) :
    Perm.findperm (fun q k => Perm.getperm num (J.get p) q cred k) (Key.parse s) k = true ↔ allow num cred P (place s) (kind k) := by
  rw [Key.parse_eq, findperm_spec J p P hJ num cred k _ _ (Key.names_ok s) (Key.dir_names s), place, fold_eq]; rfl

/-- `get`: null unless reading the key is allowed. -/
theorem C25_secure_get {σ τ : Type} (I : IGen σ) (s : σ) (m : Spec.Conf.State) (hI : Reads I s m) (J : IGen τ) (p : τ) (P : Spec.Conf.State)
    (hJ : Reads J p P) (num : TempGen.Value → Int) (cred : Perm.Cred) (k : Text) :
    (allow num cred P (place k) .read → (secured I J p num cred).get s (Key.parse k) = Spec.Conf.get m k) ∧
    (¬ allow num cred P (place k) .read → (secured I J p num cred).get s (Key.parse k) = none) := by
  have h := findperm_parse J p P hJ num cred .read k
  have e : (secured I J p num cred).get s (Key.parse k) =
    if Perm.findperm (fun q k => Perm.getperm num (J.get p) q cred k) (Key.parse k) .read then I.get s (Key.parse k) else none := rfl
  rw [e]
  exact ⟨fun h' => by rw [if_pos (h.mpr h')]; exact hI.get k, fun h' => by rw [if_neg (fun h'' => h' (h.mp h''))]⟩

/-- `set`: nothing unless writing the key is allowed. -/
theorem C25_secure_set {σ τ : Type} (I : IGen σ) (Rep : σ → Spec.Conf.State → Prop) (hI : Behaves I Rep) (s : σ) (m : Spec.Conf.State)
    (hs : Rep s m) (J : IGen τ) (p : τ) (P : Spec.Conf.State) (hJ : Reads J p P) (num : TempGen.Value → Int) (cred : Perm.Cred)
    (k : Text) (v : Option Text) :
    (allow num cred P (place k) .write → Rep ((secured I J p num cred).set s (Key.parse k) v) (Spec.Conf.set m k v)) ∧
    (¬ allow num cred P (place k) .write → (secured I J p num cred).set s (Key.parse k) v = s) := by
  have h := findperm_parse J p P hJ num cred .write k
  have e : (secured I J p num cred).set s (Key.parse k) v =
    if Perm.findperm (fun q k => Perm.getperm num (J.get p) q cred k) (Key.parse k) .write then I.set s (Key.parse k) v else s := rfl
  rw [e]
  exact ⟨fun h' => by rw [if_pos (h.mpr h')]; exact hI.set s m hs k v, fun h' => by rw [if_neg (fun h'' => h' (h.mp h''))]⟩

/-- `exists`: the key exists and one may pass through all above it. -/
theorem C25_secure_exists {σ τ : Type} (I : IGen σ) (s : σ) (m : Spec.Conf.State) (hI : Reads I s m) (J : IGen τ) (p : τ) (P : Spec.Conf.State)
    (hJ : Reads J p P) (num : TempGen.Value → Int) (cred : Perm.Cred) (k : Text) :
    (secured I J p num cred).exists s (Key.parse k) = true ↔
      Spec.Conf.get m k ≠ none ∧ allow num cred P (place k).dropLast .exec := by
  have e : (secured I J p num cred).exists s (Key.parse k) =
    if Perm.findperm (fun q k => Perm.getperm num (J.get p) q cred k) (Key.removelast (Key.parse k) 1) .exec
      then I.exists s (Key.parse k) else false := rfl
  have hs := hI.exists_ k
  cases hd : Spec.Path.dir k with
  | true =>
    have hg : Spec.Conf.get m k = none := by simp [Spec.Conf.get, hd]
    have : I.exists s (Key.parse k) = false := by rw [← Bool.not_eq_true, hs]; simp [hg]
    rw [e, this, hg]; simp
  | false =>
    rw [e, ← hs]
    have hr : Key.removelast (Key.parse k) 1 = Key.mk (Spec.Path.names k).dropLast false := by
      rw [Key.parse_eq, hd, removelast_false _ (Key.names_ok k)]
    have h := findperm_spec J p P hJ num cred .exec (Spec.Path.names k).dropLast false
      (fun n hn => Key.names_ok k n (List.dropLast_subset _ hn)) (by simp)
    have hf : fold (Spec.Path.names k).dropLast = (place k).dropLast := by rw [fold_eq, place, List.map_dropLast]
    rw [hf] at h
    rw [hr]
    by_cases h' : allow num cred P (place k).dropLast .exec
    · rw [if_pos (h.mpr h')]; simp [h']
    · rw [if_neg (fun h'' => h' (h.mp h''))]; simp [h']

/-- `haschildren`: if one may pass through the key. -/
theorem C25_secure_haschildren {σ τ : Type} (I : IGen σ) (s : σ) (m : Spec.Conf.State) (hI : Reads I s m) (J : IGen τ) (p : τ)
    (P : Spec.Conf.State) (hJ : Reads J p P) (num : TempGen.Value → Int) (cred : Perm.Cred) (k : Text) :
    (secured I J p num cred).haschildren s (Key.parse k) = true ↔
      (∃ n, m (place k ++ [n]) ≠ none) ∧ allow num cred P (place k) .exec := by
  have h := findperm_parse J p P hJ num cred .exec k
  have e : (secured I J p num cred).haschildren s (Key.parse k) =
    if Perm.findperm (fun q k => Perm.getperm num (J.get p) q cred k) (Key.parse k) .exec then I.haschildren s (Key.parse k) else false := rfl
  rw [e, ← hI.haschildren k]
  by_cases h' : allow num cred P (place k) .exec
  · rw [if_pos (h.mpr h')]; simp [h']
  · rw [if_neg (fun h'' => h' (h.mp h''))]; simp [h']

/-- `iterator`: null unless one may pass through the key. It lists all the names, but values only where reading is allowed. -/
theorem C25_secure_iterator {σ τ : Type} (I : IGen σ) (s : σ) (m : Spec.Conf.State) (hI : Reads I s m) (J : IGen τ) (p : τ)
    (P : Spec.Conf.State) (hJ : Reads J p P) (num : TempGen.Value → Int) (cred : Perm.Cred) (k : Text) :
    (¬ allow num cred P (place k) .exec → (secured I J p num cred).iterator s (Key.parse k) = none) ∧
    (allow num cred P (place k) .exec → match (secured I J p num cred).iterator s (Key.parse k) with
      | none => ∀ q, m (place k ++ q) = none
      | some r => (r.map fun x => fold x.1).Nodup ∧ (∀ n, m (place k ++ [n]) ≠ none ↔ ∃ x ∈ r, fold x.1 = [n]) ∧
          ∀ x ∈ r, ∀ v, x.2 = some v ↔ m (place k ++ fold x.1) = some v ∧ allow num cred P (place k ++ fold x.1) .read) := by
  have h := findperm_parse J p P hJ num cred .exec k
  have e : (secured I J p num cred).iterator s (Key.parse k) =
    if Perm.findperm (fun q k => Perm.getperm num (J.get p) q cred k) (Key.parse k) .exec then
      (I.iterator s (Key.parse k)).map fun l => l.map fun x => (x.1, (secured I J p num cred).get s (Key.prepend x.1 (Key.parse k)))
    else none := rfl
  rw [e]
  refine ⟨fun h' => by rw [if_neg (fun h'' => h' (h.mp h''))], fun h' => ?_⟩
  rw [if_pos (h.mpr h')]
  have hi := hI.iterator k
  cases hr : I.iterator s (Key.parse k) with
  | none => rw [hr] at hi; exact hi
  | some r =>
    rw [hr] at hi
    obtain ⟨h1, h2, h3⟩ := hi
    simp only [Option.map_some]
    refine ⟨by rw [List.map_map]; exact h1, ?_, ?_⟩
    · intro n
      constructor
      · intro hn
        obtain ⟨v, hv⟩ := Option.ne_none_iff_exists'.mp hn
        obtain ⟨x, hx, hf, _⟩ := (h3 n v).mp hv
        exact ⟨_, List.mem_map.mpr ⟨x, hx, rfl⟩, hf⟩
      · rintro ⟨y, hy, hf⟩
        obtain ⟨x, hx, rfl⟩ := List.mem_map.mp hy
        obtain ⟨v, hv⟩ := Option.ne_none_iff_exists'.mp (h2 x hx).2
        rw [(h3 n v).mpr ⟨x, hx, hf, hv⟩]; simp
    · intro y hy v
      obtain ⟨x, hx, rfl⟩ := List.mem_map.mp hy
      obtain ⟨⟨n, hn, hne⟩, _⟩ := h2 x hx
      have hname : Key.Names [n] := fun a ha => by simp at ha; rw [ha]; exact hne
      have hk : Key.prepend x.1 (Key.parse k) = Key.parse (k ++ Spec.Path.slash :: n) := by
        rw [hn, Key.parse_eq k, Key.parse_eq, Key.prepend, Key.filter_mk _ _ (Key.names_ok k), Key.names_append,
          dir_append _ _ (by rw [Key.names_one n hne]; simp), Key.names_one n hne]
        have h4 := Key.collapse_mk (Spec.Path.names k ++ [n]) false ((Key.names_ok k).append hname)
        have h5 : Spec.Path.dir n = false := by
          have := Key.dir_write [n] false hname (by simp)
          simpa [Spec.Path.write, Spec.Split.join] using this
        rw [h5]
        simpa [Key.mk] using h4
      have hp : place (k ++ Spec.Path.slash :: n) = place k ++ fold x.1 := by
        rw [place_append, hn, fold_eq, place, place, Key.names_one n hne]
      have hd : Spec.Path.dir (k ++ Spec.Path.slash :: n) = false := by
        rw [dir_append _ _ (by rw [Key.names_one n hne]; simp)]
        have := Key.dir_write [n] false hname (by simp)
        simpa [Spec.Path.write, Spec.Split.join] using this
      have hg := C25_secure_get I s m hI J p P hJ num cred (k ++ Spec.Path.slash :: n)
      rw [hp] at hg
      simp only [hk]
      have hgm : Spec.Conf.get m (k ++ Spec.Path.slash :: n) = m (place k ++ fold x.1) := by simp [Spec.Conf.get, hd, hp]
      rw [hgm] at hg
      constructor
      · intro hv
        by_cases ha : allow num cred P (place k ++ fold x.1) .read
        · rw [hg.1 ha] at hv; exact ⟨hv, ha⟩
        · rw [hg.2 ha] at hv; cases hv
      · rintro ⟨hv, ha⟩; rw [hg.1 ha]; exact hv

/-- Permissions for the example: everyone may pass through the root, "ann" owns "a" and may read it, but nobody may read "b". -/
def permCalls : List Temp.SetCall :=
  [⟨str ['w', 'o', 'r', 'l', 'd', '-', 'e', 'x', 'e', 'c'], some (str ['1']), id, fun _ => .refl _⟩,
   ⟨str ['a', '/', 'o', 'w', 'n', 'e', 'r'], some (str ['a', 'n', 'n']), id, fun _ => .refl _⟩,
   ⟨str ['a', '/', 'u', 's', 'e', 'r', '-', 'r', 'e', 'a', 'd'], some (str ['1']), id, fun _ => .refl _⟩,
   ⟨str ['a', '/', 'u', 's', 'e', 'r', '-', 'e', 'x', 'e', 'c'], some (str ['1']), id, fun _ => .refl _⟩]

/-- Reading numbers, for the example. -/
def sampleNum (v : TempGen.Value) : Int := if v = str ['1'] then 1 else -1

example : (secured (IGen.temp id) (IGen.temp id) (Temp.after TempGen.new permCalls) sampleNum ⟨some (str ['a', 'n', 'n']), []⟩).get
      sampleGen (Key.parse (str ['a', '/', 'c', '/', 'd'])) = some (str ['2']) ∧
    (secured (IGen.temp id) (IGen.temp id) (Temp.after TempGen.new permCalls) sampleNum ⟨some (str ['b', 'o', 'b']), []⟩).get
      sampleGen (Key.parse (str ['a', '/', 'c', '/', 'd'])) = none ∧
    (secured (IGen.temp id) (IGen.temp id) (Temp.after TempGen.new permCalls) sampleNum ⟨some (str ['b', 'o', 'b']), []⟩).exists
      sampleGen (Key.parse (str ['a', '/', 'c', '/', 'd'])) = true := by decide +kernel

/-- `setv` is passed to the inner generator without a check. -/
theorem C25_secure_setv_fails : ¬ ∀ (g : TempGen.Gen) (l : List (Key × Option TempGen.Value)) (k : Key),
    TempGen.get ((secured (IGen.temp id) (IGen.temp id) TempGen.new sampleNum ⟨none, []⟩).setv g l) k = TempGen.get g k := by
  intro h
  have := h TempGen.new [([str ['a']], some (str ['1']))] [str ['a']]
  revert this; decide +kernel

end Props
