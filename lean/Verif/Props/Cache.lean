import Verif.Lemmas.Notify
import Verif.Spec.Cache
/- C57: a cached configuration shows what the cached generator holds. -/
namespace Props
open Wv Spec.Conf Spec.Walk
open Wv.Key (fold Names)
open Props.Gens Props.Notify
namespace Cac
open Spec.Cache (Act conf Filled)

/-- The action on the generator. -/
def act {σ : Type} (I : NGen σ) (ord : List TempGen.Tree → List TempGen.Tree) (n : Nat) (c : Cache.State σ) : Act → Cache.State σ
  | .set k v => (Cache.gen I ord n).set c (Key.parse k) v
  | .direct k v => Cache.direct I ord c (Key.parse k) v
  | .refresh => ((Cache.gen I ord n).refresh c).1

/-- Some actions. -/
def acts {σ : Type} (I : NGen σ) (ord : List TempGen.Tree → List TempGen.Tree) (n : Nat) (c : Cache.State σ) : List Act → Cache.State σ
  | [] => c
  | a :: r => acts I ord n (act I ord n c a) r

theorem acts_append {σ : Type} (I : NGen σ) (ord : List TempGen.Tree → List TempGen.Tree) (n : Nat) (a b : List Act) : ∀ c, acts I ord n c (a ++ b) = acts I ord n (acts I ord n c a) b := by
  induction a with
  | nil => intro c; rfl
  | cons x a ih => intro c; exact ih _

theorem conf_append (a b : List Act) : ∀ m, conf m (a ++ b) = conf (conf m a) b := by
  induction a with
  | nil => intro m; rfl
  | cons x a ih => intro m; cases x <;> exact ih _

/-- What a cache that has not been refreshed may hold. -/
def R1 (x y : Option Text) : Prop := x = none ∨ (x = some [] ∧ y ≠ none) ∨ x = y
/-- What one that has been may. -/
def R3 (x y : Option Text) : Prop := x = y ∨ (x = none ∧ y = some [])

theorem kept1 : Kept R1 where
  refl := fun _ => Or.inr (Or.inr rfl)
  made := by
    intro x y h hy
    rcases h with rfl | ⟨rfl, h⟩ | rfl
    · exact Or.inr (Or.inl ⟨rfl, hy⟩)
    · exact Or.inr (Or.inl ⟨rfl, hy⟩)
    · cases x with
      | none => exact absurd rfl hy
      | some v => exact Or.inr (Or.inr rfl)

theorem kept3 : Kept R3 where
  refl := fun _ => Or.inl rfl
  made := by
    intro x y h hy
    rcases h with rfl | ⟨rfl, rfl⟩
    · cases x with
      | none => exact absurd rfl hy
      | some v => exact Or.inl rfl
    · exact Or.inl rfl

section
variable {σ : Type} (I : NGen σ) (Rep : σ → Spec.Conf.State → Prop) (hI : Speaks I Rep)
variable (ord : List TempGen.Tree → List TempGen.Tree) (ho : ∀ l, (ord l).Perm l)
include hI ho

/-- Setting keeps a relation between what the cache holds and what is so. -/
theorem direct_kept (R) (hR : Kept R) (P : Place → Prop) (c : Cache.State σ) (m t : Spec.Conf.State) (h : Rep c.inner m) (ht : Temp.Holds c.tree t)
    (hk : ∀ q, P q → R (t q) (m q)) (k : Text) (v : Option Text) :
    Rep (Cache.direct I ord c (Key.parse k) v).inner (Spec.Conf.set m k v) ∧
    ∃ t', Temp.Holds (Cache.direct I ord c (Key.parse k) v).tree t' ∧ ∀ q, P q → R (t' q) (Spec.Conf.set m k v q) := by
  have h1 := hI.behaves.set _ _ h k v
  have h2 := hI.tells _ _ h k v
  refine ⟨h1, _, hear_holds ord ho _ h2.key _ _ ht, ?_⟩
  intro q hq
  refine replay_kept R hR _ (hI.closed _ _ h1) _ h2.key h2.says t q ?_
  by_cases hm : m q = Spec.Conf.set m k v q
  · right; rw [← hm]; exact hk q hq
  · exact Or.inl (h2.all q hm)

omit hI in
theorem load_spec (m : Spec.Conf.State) (hc : Closed m) (L : List (Key × Option TempGen.Value)) (hL : ∀ y ∈ L, Names y.1)
    (hv : ∀ y ∈ L, m (fold y.1) = y.2) : ∀ (g : TempGen.Gen) (t : Spec.Conf.State), Temp.Holds g t →
    ∃ t', Temp.Holds (Cache.loadLoop ord g L) t' ∧ ∀ q, (∀ R, Kept R → (R (t q) (m q) ∨ (∃ y ∈ L, fold y.1 = q ∧ y.2.getD [] ≠ [])) → R (t' q) (m q)) := by
  -- what is set
  have key : ∀ (g : TempGen.Gen), Cache.loadLoop ord g L = Cache.hear ord g (L.filter fun y => !(y.2.getD []).isEmpty) := by
    clear hL hv
    induction L with
    | nil => intro g; rfl
    | cons y L ih =>
      intro g
      obtain ⟨k, v⟩ := y
      cases v with
      | none => simpa [Cache.loadLoop] using ih g
      | some v =>
        cases v with
        | nil => simpa [Cache.loadLoop] using ih g
        | cons a v => simpa [Cache.loadLoop, Cache.hear] using ih _
  intro g t ht
  have hk : ∀ x ∈ L.filter (fun y => !(y.2.getD []).isEmpty), Names x.1 := fun x hx => hL x (List.mem_filter.mp hx).1
  refine ⟨_, by rw [key]; exact hear_holds ord ho _ hk g t ht, ?_⟩
  intro q R hR h
  refine replay_kept R hR m hc _ hk (fun x hx => hv x (List.mem_filter.mp hx).1) t q ?_
  rcases h with h | ⟨y, hy, he, hne⟩
  · exact Or.inr h
  · exact Or.inl ⟨y, List.mem_filter.mpr ⟨hy, by simp [hne]⟩, he⟩

/-- Refreshing for the first time. -/
theorem refresh_spec (c : Cache.State σ) (m t : Spec.Conf.State) (h : Rep c.inner m) (ht : Temp.Holds c.tree t) (hk : ∀ q, R1 (t q) (m q))
    (hr : c.refreshed = false) :
    ∃ N, ∀ n, N ≤ n → Rep (Cache.refresh I ord n c).1.inner m ∧ (Cache.refresh I ord n c).1.refreshed = true ∧
      ∃ t', Temp.Holds (Cache.refresh I ord n c).1.tree t' ∧ (∀ q, R1 (t' q) (m q)) ∧ ∀ q, q ≠ [] → R3 (t' q) (m q) := by
  have h1 := hI.behaves.refresh _ _ h
  obtain ⟨L, l1, l2, l3, -, l5⟩ := C54_complete I.toIGen _ m (hI.behaves.reads _ _ h1) (hI.bounded _ _ h1) (hI.closed _ _ h1) []
  have hp : place [] = [] := by simp [place, Key.names_nil]
  simp only [hp, List.nil_append] at l5
  have hnil : Key.parse [] = [] := rfl
  obtain ⟨t', s1, s2⟩ := load_spec ord ho m (hI.closed _ _ h1) L l2 (by
    intro y hy
    obtain ⟨k, v⟩ := y
    cases v with
    | none =>
      obtain ⟨-, -, -, -, h4⟩ := ((Rec.preorder_mem m (hI.closed _ _ h1) _ _ _ l3).1 (fold k) none).mp (List.mem_map.mpr ⟨_, hy, rfl⟩)
      exact absurd rfl h4
    | some v => exact ((l5 (fold k) v).mp ⟨_, hy, rfl, rfl⟩).2) c.tree t ht
  refine ⟨L.length + 1, fun n hn => ?_⟩
  have hl := l1 n (by omega)
  rw [hnil] at hl
  have e : Cache.refresh I ord n c = ({ Cache.loadtree I ord n { c with inner := (I.refresh c.inner).1 } with refreshed := true }, (I.refresh c.inner).2) := by
    simp [Cache.refresh, hr]
  rw [e]
  simp only [Cache.loadtree, hl]
  refine ⟨h1, trivial, t', s1, fun q => s2 q R1 kept1 (Or.inl (hk q)), ?_⟩
  intro q hq
  have r1 := s2 q R1 kept1 (Or.inl (hk q))
  cases hm : m q with
  | none => rw [hm] at r1; rcases r1 with r1 | ⟨-, r1⟩ | r1
            · exact Or.inl r1
            · exact absurd rfl r1
            · exact Or.inl r1
  | some v =>
    cases v with
    | nil =>
      rw [hm] at r1
      rcases r1 with r1 | ⟨r1, -⟩ | r1
      · exact Or.inr ⟨r1, rfl⟩
      · exact Or.inl r1
      · exact Or.inl r1
    | cons a v =>
      rw [← hm]
      left
      refine s2 q (· = ·) kept_eq (Or.inr ?_)
      obtain ⟨y, hy, he, hv⟩ := (l5 q (a :: v)).mpr ⟨hq, hm⟩
      exact ⟨y, hy, he, by simp [hv]⟩

/-- Without a refresh. -/
theorem before_spec (n : Nat) (l : List Act) : Act.refresh ∉ l → ∀ (c : Cache.State σ) (m t : Spec.Conf.State), Rep c.inner m → Temp.Holds c.tree t →
    (∀ q, R1 (t q) (m q)) → c.refreshed = false → Rep (acts I ord n c l).inner (conf m l) ∧ (acts I ord n c l).refreshed = false ∧
      ∃ t', Temp.Holds (acts I ord n c l).tree t' ∧ ∀ q, R1 (t' q) (conf m l q) := by
  induction l with
  | nil => intro _ c m t h ht hk hr; exact ⟨h, hr, t, ht, hk⟩
  | cons a l ih =>
    intro hl c m t h ht hk hr
    have hl' : Act.refresh ∉ l := fun h => hl (by simp [h])
    cases a with
    | refresh => exact absurd (by simp) hl
    | set k v =>
      obtain ⟨h1, t', h2, h3⟩ := direct_kept I Rep hI ord ho R1 kept1 (fun _ => True) c m t h ht (fun q _ => hk q) k v
      exact ih hl' _ _ t' h1 h2 (fun q => h3 q trivial) hr
    | direct k v =>
      obtain ⟨h1, t', h2, h3⟩ := direct_kept I Rep hI ord ho R1 kept1 (fun _ => True) c m t h ht (fun q _ => hk q) k v
      exact ih hl' _ _ t' h1 h2 (fun q => h3 q trivial) hr

omit hI in
theorem acts_before (n n' : Nat) (l : List Act) : Act.refresh ∉ l → ∀ (c : Cache.State σ), acts I ord n c l = acts I ord n' c l := by
  clear ho
  induction l with
  | nil => intro _ c; rfl
  | cons a l ih =>
    intro hl c
    have hl' : Act.refresh ∉ l := fun h => hl (by simp [h])
    cases a with
    | refresh => exact absurd (by simp) hl
    | set k v => exact ih hl' _
    | direct k v => exact ih hl' _

/-- After one. -/
theorem after_spec (R) (hR : Kept R) (P : Place → Prop) (n : Nat) (l : List Act) : ∀ (c : Cache.State σ) (m t : Spec.Conf.State), Rep c.inner m →
    Temp.Holds c.tree t → (∀ q, P q → R (t q) (m q)) → c.refreshed = true → Rep (acts I ord n c l).inner (conf m l) ∧
      ∃ t', Temp.Holds (acts I ord n c l).tree t' ∧ ∀ q, P q → R (t' q) (conf m l q) := by
  induction l with
  | nil => intro c m t h ht hk hr; exact ⟨h, t, ht, hk⟩
  | cons a l ih =>
    intro c m t h ht hk hr
    cases a with
    | refresh =>
      have e : act I ord n c .refresh = c := by simp [act, Cache.gen, Cache.refresh, hr]
      simp only [acts, e]
      exact ih c m t h ht hk hr
    | set k v =>
      obtain ⟨h1, t', h2, h3⟩ := direct_kept I Rep hI ord ho R hR P c m t h ht hk k v
      exact ih _ _ t' h1 h2 h3 hr
    | direct k v =>
      obtain ⟨h1, t', h2, h3⟩ := direct_kept I Rep hI ord ho R hR P c m t h ht hk k v
      exact ih _ _ t' h1 h2 h3 hr

/-- A history with a refresh in it. -/
theorem history (s : σ) (m : Spec.Conf.State) (h : Rep s m) (before after : List Act) (hb : Act.refresh ∉ before) :
    ∃ N, ∀ n, N ≤ n → ∃ c1 t1, acts I ord n (Cache.new s) (before ++ .refresh :: after) = acts I ord n c1 after ∧ Rep c1.inner (conf m before) ∧
      c1.refreshed = true ∧ Temp.Holds c1.tree t1 ∧ (∀ q, R1 (t1 q) (conf m before q)) ∧ ∀ q, q ≠ [] → R3 (t1 q) (conf m before q) := by
  have hnew : Temp.Holds TempGen.new Spec.Conf.empty := Temp.new_holds
  obtain ⟨h1, h2, t, h3, h4⟩ := before_spec I Rep hI ord ho 0 before hb (Cache.new s) m Spec.Conf.empty h hnew (fun q => Or.inl rfl) rfl
  obtain ⟨N, hN⟩ := refresh_spec I Rep hI ord ho _ _ t h1 h3 h4 h2
  refine ⟨N, fun n hn => ?_⟩
  obtain ⟨r1, r2, t', r3, r4, r5⟩ := hN n hn
  refine ⟨(Cache.refresh I ord n (acts I ord 0 (Cache.new s) before)).1, t', ?_, r1, r2, r3, r4, r5⟩
  rw [acts_append, acts_before I ord ho n 0 before hb]
  rfl

omit hI ho in
theorem holds_closed (g : TempGen.Gen) (t : Spec.Conf.State) (h : Temp.Holds g t) : Closed t := by
  intro q r hq hn
  apply hq
  rw [← h.2] at hn ⊢
  cases hr : g.root with
  | none => rfl
  | some x =>
    rw [hr] at hn
    exact Temp.look_prefix x q (q ++ r) hn (List.prefix_append _ _)

end
end Cac
open Cac
open Spec.Cache (Act conf Filled)

/-- C57, for values: after any history of calls of `set` through the cache and around it, in which the cache was refreshed at some
    time, `get` through the cache returns for any key but the root what the inner generator holds; or null, where it holds an empty value.
    What is missing is the root, and those empty values. -/
theorem C57_values_partial {σ : Type} (I : NGen σ) (Rep : σ → Spec.Conf.State → Prop) (hI : Speaks I Rep) (ord : List TempGen.Tree → List TempGen.Tree)
    (ho : ∀ l, (ord l).Perm l) (s : σ) (m : Spec.Conf.State) (h : Rep s m) (l : List Act) (hl : Act.refresh ∈ l) :
    ∃ N, ∀ n, N ≤ n → ∀ k : Text, place k ≠ [] →
      I.get (acts I ord n (Cache.new s) l).inner (Key.parse k) = Spec.Conf.get (conf m l) k ∧
      ((Cache.gen I ord n).get (acts I ord n (Cache.new s) l) (Key.parse k) = Spec.Conf.get (conf m l) k ∨
       (Cache.gen I ord n).get (acts I ord n (Cache.new s) l) (Key.parse k) = none ∧ Spec.Conf.get (conf m l) k = some []) := by
  obtain ⟨before, after, rfl, hb⟩ := List.eq_append_cons_of_mem hl
  obtain ⟨N, hN⟩ := history I Rep hI ord ho s m h before after hb
  refine ⟨N, fun n hn k hk => ?_⟩
  obtain ⟨c1, t1, e, h1, h2, h3, -, h5⟩ := hN n hn
  obtain ⟨r1, t2, r2, r3⟩ := after_spec I Rep hI ord ho R3 kept3 (· ≠ []) n after c1 _ t1 h1 h3 h5 h2
  have ec : conf m (before ++ .refresh :: after) = conf (conf m before) after := by rw [conf_append]; rfl
  rw [e, ec]
  refine ⟨(hI.behaves.reads _ _ r1).get k, ?_⟩
  have hg : (Cache.gen I ord n).get (acts I ord n c1 after) (Key.parse k) = Spec.Conf.get t2 k := Temp.get_holds _ _ r2 k
  rw [hg]
  unfold Spec.Conf.get
  by_cases hd : Spec.Path.dir k = true
  · simp [hd]
  · rw [if_neg hd, if_neg hd]
    exact r3 _ hk

/-- C57: if, when the cache is refreshed for the first time, the root has no value and there is something below each key with an empty
    value, then from then on all that is read through the cache is what the inner generator holds, after any further history. -/
theorem C57_coherent_partial {σ : Type} (I : NGen σ) (Rep : σ → Spec.Conf.State → Prop) (hI : Speaks I Rep) (ord : List TempGen.Tree → List TempGen.Tree)
    (ho : ∀ l, (ord l).Perm l) (s : σ) (m : Spec.Conf.State) (h : Rep s m) (before after : List Act) (hb : Act.refresh ∉ before)
    (hf : Filled (conf m before)) :
    ∃ N, ∀ n, N ≤ n →
      Reads I.toIGen (acts I ord n (Cache.new s) (before ++ .refresh :: after)).inner (conf m (before ++ .refresh :: after)) ∧
      Reads (Cache.gen I ord n) (acts I ord n (Cache.new s) (before ++ .refresh :: after)) (conf m (before ++ .refresh :: after)) := by
  obtain ⟨N, hN⟩ := history I Rep hI ord ho s m h before after hb
  refine ⟨N, fun n hn => ?_⟩
  obtain ⟨c1, t1, e, h1, h2, h3, h4, h5⟩ := hN n hn
  have ht : ∀ q, t1 q = conf m before q := by
    intro q
    -- a key with a value that is not empty
    have hv : ∀ q v, conf m before q = some v → v ≠ [] → t1 q = some v := by
      intro q v hq hne
      have hr : q ≠ [] := by rintro rfl; exact hne (hf.1 v hq)
      rcases h5 q hr with h | ⟨-, h⟩
      · rw [h, hq]
      · rw [hq] at h; exact absurd (Option.some.inj h) hne
    cases hq : conf m before q with
    | none =>
      have := h4 q
      rw [hq] at this
      rcases this with h | ⟨-, h⟩ | h
      · exact h
      · exact absurd rfl h
      · exact h
    | some v =>
      by_cases hne : v = []
      · subst hne
        obtain ⟨r, w, hw, hwn⟩ := hf.2 q hq
        have hn0 : t1 q ≠ none := holds_closed _ _ h3 q r (by rw [hv _ _ hw hwn]; simp)
        have := h4 q
        rw [hq] at this
        rcases this with h | ⟨h, -⟩ | h
        · exact absurd h hn0
        · exact h
        · exact h
      · exact hv q v hq hne
  obtain ⟨r1, t2, r2, r3⟩ := after_spec I Rep hI ord ho (· = ·) kept_eq (fun _ => True) n after c1 _ t1 h1 h3 (fun q _ => ht q) h2
  have ec : conf m (before ++ .refresh :: after) = conf (conf m before) after := by rw [conf_append]; rfl
  have et : t2 = conf (conf m before) after := funext fun q => r3 q trivial
  rw [e, ec]
  refine ⟨hI.behaves.reads _ _ r1, ?_⟩
  rw [← et]
  have := temp_reads ord _ _ r2
  exact ⟨this.get, this.exists_, this.haschildren, this.iterator⟩

/-- In-memory generators are such generators, in any state that calls can bring about. -/
theorem C57_temp (ord : List TempGen.Tree → List TempGen.Tree) (ho : ∀ l, (ord l).Perm l) :
    ∃ Rep, Speaks (NGen.temp ord) Rep ∧ ∀ l : List Temp.SetCall, Rep (Temp.after TempGen.new l) (Temp.conf l) := by
  refine ⟨_, temp_speaks ord ho, fun l => ⟨Temp.conf_holds l, ?_⟩⟩
  exact Rec.run_shape (Temp.calls l) Spec.Conf.empty Rec.empty_shape.1 Rec.empty_shape.2

/-- The calls of a case: an inner generator in which "a/b" has a value, a change, a refresh, and changes on both ways. -/
def sampleActs : List Act :=
  [.direct (str ['c']) (some (str ['2'])), .refresh, .set (str ['a', '/', 'd']) (some []), .direct (str ['A', '/', 'b']) (some (str ['3'])),
   .set (str ['c']) none]

/-- It meets the hypotheses. -/
example : Act.refresh ∈ sampleActs ∧
    Filled (conf (Spec.Conf.set Spec.Conf.empty (str ['a', '/', 'b']) (some (str ['1']))) [.direct (str ['c']) (some (str ['2']))]) := by
  refine ⟨by decide, ?_⟩
  have hc : place (str ['c']) = [str ['c']] := by decide
  have hab : place (str ['a', '/', 'b']) = [str ['a'], str ['b']] := by decide
  have hd1 : Spec.Path.dir (str ['c']) = false := by decide
  have hd2 : Spec.Path.dir (str ['a', '/', 'b']) = false := by decide
  have hs : ∀ q, conf (Spec.Conf.set Spec.Conf.empty (str ['a', '/', 'b']) (some (str ['1']))) [.direct (str ['c']) (some (str ['2']))] q =
      if q = [str ['c']] then some (str ['2']) else if q = [str ['a'], str ['b']] then some (str ['1'])
      else if q = [] ∨ q = [str ['a']] then some [] else none := by
    intro q
    simp only [conf, Spec.Conf.set, hc, hab, hd1, hd2, Bool.false_eq_true, if_false, Spec.Conf.empty]
    rcases q with _ | ⟨x, _ | ⟨y, _ | ⟨z, q⟩⟩⟩
    · simp
    · by_cases h1 : x = str ['c']
      · simp [h1]
      · by_cases h2 : x = str ['a']
        · subst h2; simp [h1]
        · simp [h1, h2]
    · by_cases h1 : x = str ['a']
      · subst h1; by_cases h2 : y = str ['b'] <;> simp [h2]
      · simp [h1]
    · simp
  constructor
  · intro v hv
    rw [hs] at hv
    rw [if_neg (by simp), if_neg (by simp), if_pos (by simp)] at hv
    exact (Option.some.inj hv).symm
  · intro q hq
    refine ⟨if q = [] then [str ['a'], str ['b']] else if q = [str ['a']] then [str ['b']] else [], str ['1'], ?_, by decide⟩
    rw [hs] at hq
    have : q = [] ∨ q = [str ['a']] := by
      by_cases h : q = [] ∨ q = [str ['a']]
      · exact h
      · rw [if_neg h] at hq
        split at hq
        · exact absurd hq (by decide)
        · split at hq
          · exact absurd hq (by decide)
          · cases hq
    rcases this with rfl | rfl
    · rw [hs]; decide
    · rw [hs]; decide

/-- Values that are not null, through a cache. -/
example : (Cache.gen (NGen.temp id) id 9).get
    (acts (NGen.temp id) id 9 (Cache.new (TempGen.set id TempGen.new (Key.parse (str ['a', '/', 'b'])) (some (str ['1']))).1) sampleActs)
    (Key.parse (str ['a', '/', 'b'])) = some (str ['3']) := by decide +kernel

/-- An empty value is not loaded into the cache: a key that exists does not exist through the cache. -/
theorem C57_empty_fails : ∃ (g : TempGen.Gen) (k : Text) (n : Nat), g = (TempGen.set id TempGen.new (Key.parse k) (some [])).1 ∧
    (NGen.temp id).get (acts (NGen.temp id) id n (Cache.new g) [.refresh]).inner (Key.parse k) = some [] ∧
    (RecIter.recursive (IGen.temp id) g n []).2 = true ∧
    (Cache.gen (NGen.temp id) id n).get (acts (NGen.temp id) id n (Cache.new g) [.refresh]) (Key.parse k) = none :=
  ⟨_, str ['a'], 9, rfl, by decide +kernel⟩

/-- The value of the root is not loaded either. -/
theorem C57_root_fails : ∃ (g : TempGen.Gen) (v : Text) (n : Nat), g = (TempGen.set id TempGen.new [] (some v)).1 ∧ v ≠ [] ∧
    (NGen.temp id).get (acts (NGen.temp id) id n (Cache.new g) [.refresh]).inner [] = some v ∧
    (RecIter.recursive (IGen.temp id) g n []).2 = true ∧
    (Cache.gen (NGen.temp id) id n).get (acts (NGen.temp id) id n (Cache.new g) [.refresh]) [] = none :=
  ⟨_, str ['1'], 9, rfl, by decide +kernel⟩

/-- Once the cache has been refreshed, `refresh` always says that it failed. -/
theorem C57_refresh_fails {σ : Type} (I : NGen σ) (ord : List TempGen.Tree → List TempGen.Tree) (n : Nat) (c : Cache.State σ) (l : List Act)
    (hl : Act.refresh ∈ l) : ((Cache.gen I ord n).refresh (acts I ord n c l)).2 = false := by
  have hk : ∀ (l : List Act) (c : Cache.State σ), c.refreshed = true → (acts I ord n c l).refreshed = true := by
    intro l
    induction l with
    | nil => intro c h; exact h
    | cons a l ih =>
      intro c h
      cases a with
      | refresh => exact ih _ (by simp [act, Cache.gen, Cache.refresh, h])
      | set k v => exact ih _ h
      | direct k v => exact ih _ h
  obtain ⟨a, b, rfl⟩ := List.append_of_mem hl
  rw [acts_append]
  have := hk b (act I ord n (acts I ord n c a) .refresh) (by
    simp only [act, Cache.gen, Cache.refresh]
    split
    · assumption
    · rfl)
  have e : acts I ord n (acts I ord n c a) (.refresh :: b) = acts I ord n (act I ord n (acts I ord n c a) .refresh) b := rfl
  rw [e]
  simp [Cache.gen, Cache.refresh, this]

end Props
