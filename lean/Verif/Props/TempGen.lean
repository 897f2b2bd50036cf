import Verif.Lemmas.TempGen
import Verif.Props.GenDelta
import Mathlib.Tactic.Conv
/- C22, C23: the in-memory configuration is a map, and its notifications are its changes. -/
namespace Props
open Wv Wv.TempGen Spec.Conf
open Wv.Key (fold)
namespace Temp

/-- A call of `set`, with the key as text, and the order the hash table of children gets, if it changes. -/
structure SetCall where
  key : List Byte
  value : Option (List Byte)
  order : List Tree → List Tree
  permutes : ∀ l, (order l).Perm l

/-- The call on the generator. -/
def call (g : Gen) (c : SetCall) : Gen × List Delta := TempGen.set c.order g (Key.parse c.key) c.value

/-- The generator after some calls. -/
def after (g : Gen) : List SetCall → Gen
  | [] => g
  | c :: r => after (call g c).1 r

/-- All the notifications some calls make. -/
def notes (g : Gen) : List SetCall → List Delta
  | [] => []
  | c :: r => (call g c).2 ++ notes (call g c).1 r

/-- The same calls, for the specification. -/
def calls (l : List SetCall) : List (Text × Option Text) := l.map fun c => (c.key, c.value)

/-- The configuration of the specification after the calls. -/
def conf (l : List SetCall) : Spec.Conf.State := Spec.Conf.run Spec.Conf.empty (calls l)

/-- The tree is well formed, and holds the configuration. -/
def Holds (g : Gen) (m : Spec.Conf.State) : Prop := (∀ t, g.root = some t → Good t) ∧ ∀ q, TempGen.abs g.root q = m q

theorem look_prefix (t : Tree) (p : Place) : ∀ q, look t p = none → p <+: q → look t q = none := by
  induction p generalizing t with
  | nil => intro q h; simp [look_nil] at h
  | cons a p ih =>
    intro q h hp
    cases q with
    | nil => simp at hp
    | cons b q =>
      obtain ⟨rfl, hp'⟩ := List.cons_prefix_cons.mp hp
      rw [look_cons] at h ⊢
      cases hl : lk t.children a with
      | none => rfl
      | some x => rw [hl] at h; exact ih x q h hp'

theorem call_spec (g : Gen) (m : Spec.Conf.State) (h : Holds g m) (c : SetCall) :
    Holds (call g c).1 (Spec.Conf.set m c.key c.value) ∧ Exact [] m (Spec.Conf.set m c.key c.value) (call g c).2 := by
  have hnm := Key.names_ok c.key
  have hp : Key.parse c.key = Key.mk (Spec.Path.names c.key) (Spec.Path.dir c.key) := Key.parse_eq _
  have hdn := Key.dir_names c.key
  have hseg : segments (Spec.Path.names c.key) = ones (Spec.Path.names c.key) := by
    have := segments_mk (Spec.Path.names c.key) false hnm; simpa [Key.mk] using this
  have hsame : Exact [] m m [] := ⟨by simp [at_], fun p w => by simp [at_]⟩
  have hm : TempGen.abs g.root = m := funext h.2
  unfold call TempGen.set
  rw [hp, stripSlash_mk _ _ hnm hdn]
  simp only [hseg]
  cases hv : c.value with
  | none =>
    simp only [Spec.Conf.set]
    cases hr : g.root with
    | none =>
      have hm0 : m = Spec.Conf.empty := by rw [← hm, hr]; rfl
      have : (fun q => if place c.key <+: q then none else m q) = m := by rw [hm0]; funext q; simp [Spec.Conf.empty]
      rw [this]
      exact ⟨h, hsame⟩
    | some t =>
      have hs := removeLoop_spec c.order c.permutes (Spec.Path.names c.key) hnm [] t (by simp [Key.Names]) (h.1 t hr)
      have hmt : look t = m := by rw [← hm, hr]; rfl
      simp only []
      have e : ones ([] : List Seg) = [] := rfl
      rw [e] at hs
      cases hl : removeLoop c.order [] t (ones (Spec.Path.names c.key)) with
      | none =>
        rw [hl] at hs
        simp only [] at hs ⊢
        have : (fun q => if place c.key <+: q then none else m q) = m := by
          funext q
          split
          · rename_i hq
            rw [← hmt, look_prefix t _ q hs (by rw [← place_eq]; exact hq)]
          · rfl
        rw [this]
        exact ⟨h, hsame⟩
      | some r =>
        obtain ⟨t', d⟩ := r
        rw [hl] at hs
        simp only [] at hs ⊢
        obtain ⟨s1, s2, s3⟩ := hs
        rw [hmt, ← place_eq] at s2
        have : (fun q => if place c.key <+: q then none else m q) = TempGen.abs t' := funext fun q => (s2 q).symm
        rw [this]
        refine ⟨⟨fun x hx => (s1 x hx).1, fun q => rfl⟩, ?_⟩
        rw [← hmt]
        exact s3
  | some v =>
    simp only [Spec.Conf.set]
    cases hd : Spec.Path.dir c.key with
    | true => simp only [if_true]; exact ⟨h, hsame⟩
    | false =>
      simp only [Bool.false_eq_true, if_false]
      obtain ⟨s1, s2, s3, s4⟩ := setLoop_spec c.order c.permutes v (Spec.Path.names c.key) hnm [] g.root [] (by simp [Key.Names]) h.1
      have e : ones ([] : List Seg) = [] := rfl
      rw [e] at s1 s2 s3 s4
      have hq : ∀ q, look (setLoop c.order v [] g.root [] (ones (Spec.Path.names c.key))).1 q =
          if q = place c.key then some v else if q <+: place c.key then some ((m q).getD []) else m q := by
        intro q; rw [s3, setAt, hm, place_eq]
      refine ⟨⟨?_, hq⟩, ?_⟩
      · rintro x ⟨⟩; exact s1
      · rw [hm] at s4
        rw [← funext hq]
        exact s4

theorem after_spec (l : List SetCall) : ∀ (g : Gen) (m : Spec.Conf.State), Holds g m → Holds (after g l) (Spec.Conf.run m (calls l)) := by
  induction l with
  | nil => intro g m h; exact h
  | cons c l ih => intro g m h; exact ih _ _ (call_spec g m h c).1

theorem new_holds : Holds TempGen.new Spec.Conf.empty := ⟨by simp [TempGen.new], fun _ => rfl⟩

theorem find_holds (g : Gen) (M : Spec.Conf.State) (hh : Holds g M) (t : Tree) (h : g.root = some t) (s : List Byte) :
    find t (Key.parse s) = findP t (place s) ∧ (find t (Key.parse s)).map Tree.value = M (place s) := by
  refine ⟨find_parse t s, ?_⟩
  rw [find_parse]
  have := hh.2 (place s)
  rw [h] at this
  exact this

theorem none_holds (g : Gen) (M : Spec.Conf.State) (hh : Holds g M) (h : g.root = none) (q : Place) : M q = none := by
  have := hh.2 q
  rw [h] at this
  exact this.symm

theorem good_findP (t : Tree) (h : Good t) (q : Place) (x : Tree) (hx : findP t q = some x) : Good x := by
  induction q generalizing t with
  | nil => cases hx; exact h
  | cons m q ih =>
    rw [findP] at hx
    cases hl : lk t.children m with
    | none => rw [hl] at hx; cases hx
    | some y =>
      rw [hl] at hx
      obtain ⟨_, hu, hc⟩ := h.parts
      exact ih y (hc y ((lk_some _ hu _ _).mp hl).1) hx

theorem findP_append (t : Tree) (p q : Place) : findP t (p ++ q) = (findP t p).bind fun x => findP x q := by
  induction p generalizing t with
  | nil => rfl
  | cons m p ih =>
    simp only [List.cons_append, findP]
    cases lk t.children m with
    | none => rfl
    | some x => simp [ih]

/-- The children of the node at a place are the names one below it. -/
theorem child_iff (g : Gen) (M : Spec.Conf.State) (hM : Holds g M) (t x : Tree) (h : g.root = some t) (q : Place)
    (hx : findP t q = some x) (m : List Byte) (v : List Byte) :
    M (q ++ [m]) = some v ↔ ∃ c ∈ x.children, fold c.key = [m] ∧ c.value = v := by
  have hh := hM.2 (q ++ [m])
  rw [h] at hh
  have hg := good_findP t (hM.1 t h) q x hx
  obtain ⟨_, hu, _⟩ := hg.parts
  rw [← hh]
  show (findP t (q ++ [m])).map Tree.value = _ ↔ _
  rw [findP_append, hx]
  show (findP x [m]).map Tree.value = _ ↔ _
  rw [findP]
  cases hl : lk x.children m with
  | none =>
    have := (lk_none _ _).mp hl
    constructor
    · intro h'; cases h'
    · rintro ⟨c, hc, hk, _⟩; exact absurd hk (this c hc)
  | some c =>
    obtain ⟨hc1, hc2⟩ := (lk_some _ hu _ _).mp hl
    constructor
    · intro h'; exact ⟨c, hc1, hc2, by simpa [findP] using h'⟩
    · rintro ⟨c', h1, h2, h3⟩
      have : lk x.children m = some c' := (lk_some _ hu _ _).mpr ⟨h1, h2⟩
      rw [hl] at this; cases this
      simp [findP, h3]

/-- Whether the last segment is empty. -/
theorem last_empty (s : List Byte) :
    (!Key.isempty (Key.parse s) && Key.isempty (Key.last (Key.parse s) 1)) = Spec.Path.dir s := by
  rw [Key.parse_eq]
  have hnm := Key.names_ok s
  have hd := Key.dir_names s
  rw [Key.isempty_mk _ _ hd]
  have hlast : ∀ k : Key, Key.last k 1 = Key.collapse (k.drop (k.length - 1)) := by
    intro k
    unfold Key.last Key.range Key.numsegments
    have h1 : ¬ ((k.length : Int) > k.length) := by omega
    rcases k with _ | ⟨a, k⟩
    · rfl
    · have h2 : ¬ (((a :: k).length : Int) - 1 < 0) := by simp
      have h3 : ¬ (((a :: k).length : Int) < ((a :: k).length : Int) - 1) := by omega
      have h4 : (((a :: k).length : Int) - 1).toNat = (a :: k).length - 1 := by omega
      have h5 : (((a :: k).length : Int)).toNat = (a :: k).length := by omega
      simp only [h1, h2, h3, if_false, h4, h5, List.take_length]
  rw [hlast]
  cases hdd : Spec.Path.dir s with
  | true =>
    have hne := hd hdd
    have : (Spec.Path.names s).isEmpty = false := by
      cases hs : Spec.Path.names s with
      | nil => exact absurd hs hne
      | cons _ _ => rfl
    simp [Key.mk, this, Key.collapse, Key.isempty]
  | false =>
    rcases List.eq_nil_or_concat (Spec.Path.names s) with he | ⟨a, b, he⟩
    · simp [he]
    · have hb : b ≠ [] := (hnm b (by rw [he]; simp)).1
      rw [he]
      simp [Key.mk, Key.collapse, Key.isempty, hb]

theorem get_holds (g : Gen) (M : Spec.Conf.State) (hM : Holds g M) (s : List Byte) :
    TempGen.get g (Key.parse s) = Spec.Conf.get M s := by
  unfold TempGen.get Spec.Conf.get
  cases h : g.root with
  | none => simp only []; rw [none_holds g M hM h]; simp
  | some t =>
    simp only []
    rw [(find_holds g M hM t h s).2, last_empty]

theorem exists_holds (g : Gen) (M : Spec.Conf.State) (hM : Holds g M) (s : List Byte) :
    TempGen.exists g (Key.parse s) = true ↔ Spec.Conf.get M s ≠ none := by
  rw [TempGen.exists, get_holds g M hM, Option.isSome_iff_ne_none]

theorem haschildren_holds (g : Gen) (M : Spec.Conf.State) (hM : Holds g M) (s : List Byte) :
    TempGen.haschildren g (Key.parse s) = true ↔ ∃ n, M (place s ++ [n]) ≠ none := by
  unfold TempGen.haschildren
  cases h : g.root with
  | none => simp [none_holds g M hM h]
  | some t =>
    simp only []
    rw [find_parse]
    cases hx : findP t (place s) with
    | none =>
      simp only [Bool.false_eq_true, false_iff]
      rintro ⟨n, hn⟩
      have := hM.2 (place s ++ [n])
      rw [h] at this
      apply hn
      rw [← this]
      show (findP t _).map _ = _
      rw [findP_append, hx]; rfl
    | some x =>
      simp only [Bool.not_eq_true']
      have hg := good_findP t (hM.1 t h) _ x hx
      constructor
      · intro he
        obtain ⟨c, r, hc⟩ : ∃ c r, x.children = c :: r := by
          cases hcs : x.children with
          | nil => rw [hcs] at he; simp at he
          | cons c r => exact ⟨c, r, rfl⟩
        obtain ⟨n, hn, _⟩ := hg.parts.1 c (by rw [hc]; simp)
        refine ⟨n.map tolower, ?_⟩
        rw [(child_iff g M hM t x h _ hx _ c.value).mpr ⟨c, by rw [hc]; simp, by rw [hn]; rfl, rfl⟩]
        simp
      · rintro ⟨n, hn⟩
        obtain ⟨v, hv⟩ := Option.ne_none_iff_exists'.mp hn
        obtain ⟨c, hc, _⟩ := (child_iff g M hM t x h _ hx _ _).mp hv
        cases hcs : x.children with
        | nil => rw [hcs] at hc; simp at hc
        | cons _ _ => rfl

theorem iterator_holds (g : Gen) (M : Spec.Conf.State) (hM : Holds g M) (s : List Byte) :
    match TempGen.iterator g (Key.parse s) with
    | none => ∀ q, M (place s ++ q) = none
    | some r => M (place s) ≠ none ∧ (r.map fun x => fold x.1).Nodup ∧ (∀ x ∈ r, ∃ n : Seg, x.1 = [n] ∧ n ≠ [] ∧ Spec.Path.slash ∉ n) ∧
        ∀ n v, M (place s ++ [n]) = some v ↔ ∃ x ∈ r, fold x.1 = [n] ∧ x.2 = v := by
  unfold TempGen.iterator
  cases h : g.root with
  | none => exact fun q => none_holds g M hM h _
  | some t =>
    simp only []
    have hv := (find_holds g M hM t h s).2
    rw [find_parse] at hv ⊢
    cases hx : findP t (place s) with
    | none =>
      intro q
      have := hM.2 (place s ++ q)
      rw [h] at this
      rw [← this]
      show (findP t _).map _ = _
      rw [findP_append, hx]; rfl
    | some x =>
      rw [hx] at hv
      simp only [Option.map_some]
      have hg := good_findP t (hM.1 t h) _ x hx
      obtain ⟨hk, hu, _⟩ := hg.parts
      refine ⟨by rw [← hv]; simp, ?_, ?_, ?_⟩
      · rw [List.map_map]; exact hu
      · intro y hy
        obtain ⟨c, hc, rfl⟩ := List.mem_map.mp hy
        exact hk c hc
      · intro n v
        rw [child_iff g M hM t x h _ hx]
        constructor
        · rintro ⟨c, hc, h1, h2⟩; exact ⟨_, List.mem_map.mpr ⟨c, hc, rfl⟩, h1, h2⟩
        · rintro ⟨y, hy, h1, h2⟩
          obtain ⟨c, hc, rfl⟩ := List.mem_map.mp hy
          exact ⟨c, hc, h1, h2⟩

theorem conf_holds (l : List SetCall) : Holds (after TempGen.new l) (conf l) := after_spec l _ _ new_holds

end Temp
open Temp

/-- After any history of calls of `set`, what `get` returns for any key is what the specification says: the value given last, unless
    it or what it is below of was removed since, an empty one if it was made for something below it, and null otherwise. -/
theorem C22_get (l : List SetCall) (s : List Byte) :
    TempGen.get (after TempGen.new l) (Key.parse s) = Spec.Conf.get (conf l) s := get_holds _ _ (conf_holds l) s

/-- `exists` agrees with `get`. -/
theorem C22_exists (l : List SetCall) (s : List Byte) :
    TempGen.exists (after TempGen.new l) (Key.parse s) = true ↔ Spec.Conf.get (conf l) s ≠ none := exists_holds _ _ (conf_holds l) s

/-- `haschildren` says whether there is something one below the key. -/
theorem C22_haschildren (l : List SetCall) (s : List Byte) :
    TempGen.haschildren (after TempGen.new l) (Key.parse s) = true ↔ ∃ n, conf l (place s ++ [n]) ≠ none :=
  haschildren_holds _ _ (conf_holds l) s

/-- `iterator` is null if the key does not exist, and nothing below it; otherwise it lists what is one below the key, each once, by
    a key that is a single name, with its value, in some order. -/
theorem C22_iterator (l : List SetCall) (s : List Byte) :
    match TempGen.iterator (after TempGen.new l) (Key.parse s) with
    | none => ∀ q, conf l (place s ++ q) = none
    | some r => conf l (place s) ≠ none ∧ (r.map fun x => fold x.1).Nodup ∧
        (∀ x ∈ r, ∃ n : Seg, x.1 = [n] ∧ n ≠ [] ∧ Spec.Path.slash ∉ n) ∧
        ∀ n v, conf l (place s ++ [n]) = some v ↔ ∃ x ∈ r, fold x.1 = [n] ∧ x.2 = v :=
  iterator_holds _ _ (conf_holds l) s

/-- Calls used below: "A/b" is given a value, "a/C/d" another one, "a/b" is removed, "a" given a value, "a/c/" removed. The order of
    children is reversed each time. -/
def sampleCalls : List SetCall :=
  [⟨str ['A', '/', 'b'], some (str ['1']), List.reverse, List.reverse_perm⟩,
   ⟨str ['a', '/', 'C', '/', 'd'], some (str ['2']), List.reverse, List.reverse_perm⟩,
   ⟨str ['a', '/', 'b'], none, List.reverse, List.reverse_perm⟩,
   ⟨str ['a'], some (str ['3']), List.reverse, List.reverse_perm⟩]

example : TempGen.get (after TempGen.new sampleCalls) (Key.parse (str ['a', '/', 'c', '/', 'D'])) = some (str ['2']) ∧
    TempGen.get (after TempGen.new sampleCalls) (Key.parse (str ['a', '/', 'c'])) = some [] ∧
    TempGen.get (after TempGen.new sampleCalls) (Key.parse (str ['a', '/', 'b'])) = none ∧
    TempGen.get (after TempGen.new sampleCalls) (Key.parse (str ['a'])) = some (str ['3']) ∧
    TempGen.get (after TempGen.new sampleCalls) (Key.parse (str ['a', '/'])) = none ∧
    TempGen.haschildren (after TempGen.new sampleCalls) (Key.parse (str ['a'])) = true ∧
    TempGen.iterator (after TempGen.new sampleCalls) (Key.parse (str ['a'])) = some [([str ['C']], [])] := by decide +kernel

/-! ### C23 -/

/-- A mirror: a plain table of values, that is told of changes one key at a time. -/
def mirror (m : Spec.Conf.State) : List Delta → Spec.Conf.State
  | [] => m
  | (k, v) :: r => mirror (fun q => if q = fold k then v else m q) r

theorem mirror_mem (d : List Delta) : ∀ (m : Spec.Conf.State), ((at_ d).map Prod.fst).Nodup →
    ∀ q, (∀ v, (q, v) ∈ at_ d → mirror m d q = v) ∧ (q ∉ (at_ d).map Prod.fst → mirror m d q = m q) := by
  induction d with
  | nil => intro m _ q; simp [at_, mirror]
  | cons x d ih =>
    intro m h q
    obtain ⟨k, v⟩ := x
    have h' := List.nodup_cons.mp (show (fold k :: (at_ d).map Prod.fst).Nodup from h)
    have := ih (fun q => if q = fold k then v else m q) h'.2 q
    have hat : at_ ((k, v) :: d) = (fold k, v) :: at_ d := rfl
    rw [mirror, hat]
    constructor
    · intro w hw
      rcases List.mem_cons.mp hw with hw | hw
      · cases hw
        rw [this.2 h'.1]; simp
      · exact this.1 w hw
    · intro hq
      simp only [List.map_cons, List.mem_cons, not_or] at hq
      rw [this.2 hq.2]
      simp [hq.1]

theorem mirror_append (a b : List Delta) : ∀ m, mirror m (a ++ b) = mirror (mirror m a) b := by
  induction a with
  | nil => intro m; rfl
  | cons x a ih => intro m; obtain ⟨k, v⟩ := x; simp only [List.cons_append, mirror, ih]

theorem mirror_exact (m m' : Spec.Conf.State) (d : List Delta) (h : Exact [] m m' d) : mirror m d = m' := by
  funext q
  have := mirror_mem d m h.1 q
  by_cases hq : m q = m' q
  · rw [this.2, hq]
    intro hm
    obtain ⟨⟨p, w⟩, hm', rfl⟩ := List.mem_map.mp hm
    obtain ⟨r, hr, h1, h2⟩ := (h.2 p w).mp hm'
    simp only [List.nil_append] at hr
    subst hr
    exact h2 (hq.trans h1)
  · exact this.1 (m' q) ((h.2 q (m' q)).mpr ⟨q, by simp, rfl, hq⟩)

theorem notes_mirror (l : List SetCall) : ∀ (g : Gen) (m : Spec.Conf.State), Holds g m →
    mirror m (notes g l) = Spec.Conf.run m (calls l) := by
  induction l with
  | nil => intro g m h; rfl
  | cons c l ih =>
    intro g m h
    obtain ⟨h1, h2⟩ := call_spec g m h c
    rw [notes, mirror_append, mirror_exact m _ _ h2]
    exact ih _ _ h1

/-- Replaying all notifications of any history on a mirror that starts empty gives the configuration, which `get` reads. -/
theorem C23_mirror (l : List SetCall) (s : List Byte) :
    TempGen.get (after TempGen.new l) (Key.parse s) = Spec.Conf.get (mirror Spec.Conf.empty (notes TempGen.new l)) s := by
  rw [C22_get, notes_mirror l _ _ new_holds]; rfl

/-- The notifications of a call after any history are exactly the changes it makes: one for each key whose value differs before
    and after, with the value after it, and none for any other. -/
theorem C23_exact (l : List SetCall) (c : SetCall) :
    ((call (after TempGen.new l) c).2.map fun x => fold x.1).Nodup ∧
    ∀ q v, (∃ k, (k, v) ∈ (call (after TempGen.new l) c).2 ∧ fold k = q) ↔ conf (l ++ [c]) q = v ∧ conf l q ≠ v := by
  have h := (call_spec _ _ (after_spec l _ _ new_holds) c).2
  have hc : conf (l ++ [c]) = Spec.Conf.set (conf l) c.key c.value := by
    unfold conf calls
    rw [List.map_append]
    generalize Spec.Conf.empty = m
    generalize hq : l.map (fun c => (c.key, c.value)) = ks
    clear h hq
    induction ks generalizing m with
    | nil => rfl
    | cons k ks ih => obtain ⟨a, b⟩ := k; exact ih _
  refine ⟨by have := h.1; rw [at_, List.map_map] at this; exact this, fun q v => ?_⟩
  rw [hc]
  have := h.2 q v
  constructor
  · rintro ⟨k, hk, rfl⟩
    obtain ⟨r, hr, h1, h2⟩ := this.mp (List.mem_map.mpr ⟨(k, v), hk, rfl⟩)
    simp only [List.nil_append] at hr; subst hr
    exact ⟨h1, h2⟩
  · rintro ⟨h1, h2⟩
    obtain ⟨x, hx, he⟩ := List.mem_map.mp (this.mpr ⟨q, by simp, h1, h2⟩)
    obtain ⟨k, w⟩ := x
    cases he
    exact ⟨k, hx, rfl⟩

/-- A call that changes nothing makes no notification. -/
theorem C23_silent (l : List SetCall) (c : SetCall) (h : conf (l ++ [c]) = conf l) : (call (after TempGen.new l) c).2 = [] := by
  cases hd : (call (after TempGen.new l) c).2 with
  | nil => rfl
  | cons x r =>
    obtain ⟨k, v⟩ := x
    have := ((C23_exact l c).2 (fold k) v).mp ⟨k, by rw [hd]; simp, rfl⟩
    rw [h] at this
    exact absurd this.1 this.2

/-- Setting a value again. -/
example : (call (after TempGen.new sampleCalls) ⟨str ['A'], some (str ['3']), id, fun _ => .refl _⟩).2 = [] := by decide +kernel

/-- `set` issues its notifications between holds and unholds, so that they are all delivered, in this order, after the tree has
    been changed, if nothing else holds them. -/
theorem C23_delivered (value : Option (List Byte)) (d : List Delta) (s : GenDelta.State Delta) (h0 : s.nesting = 0)
    (hq : s.queue = []) (fuel : Nat) (hf : d.length + 6 ≤ fuel) :
    ∃ s', GenDelta.run (fun _ => []) fuel s (TempGen.script value d) = some s' ∧
      GenDelta.delivered s'.trace = GenDelta.delivered s.trace ++ d ∧
      ∀ n ≤ (TempGen.script value d).length - 1, ∃ s'', GenDelta.run (fun _ => []) fuel s ((TempGen.script value d).take n) = some s'' ∧
        GenDelta.delivered s''.trace = GenDelta.delivered s.trace := by
  -- any script that holds, notifies and lets go
  have gen : ∀ (c : List (Spec.Held.Call Delta)), Spec.Held.Balanced 0 c → c.length + 2 ≤ fuel →
      ∃ s', GenDelta.run (fun _ => []) fuel s (c.map Held.op) = some s' ∧
        GenDelta.delivered s'.trace = GenDelta.delivered s.trace ++ Spec.Held.deliveries 0 c := by
    intro c hb hl
    obtain ⟨s', h1, h2⟩ := Held.run_eq c 0 fuel s (by simp [h0]) (fun _ => hq) hb (by simp [hq]; omega)
    exact ⟨s', h1, by rw [h2, hq]; simp⟩
  have hpre : ∀ (c c' : List (Spec.Held.Call Delta)) (n : Nat), Spec.Held.Balanced n (c ++ c') → Spec.Held.Balanced n c := by
    intro c
    induction c with
    | nil => intro c' n _; simp [Spec.Held.Balanced]
    | cons o c ih =>
      intro c' n h
      cases o <;> cases n <;> simp only [List.cons_append, Spec.Held.Balanced] at h ⊢ <;> exact ih c' _ h
  -- nothing is released before the last call
  have hmid : ∀ (c : List (Spec.Held.Call Delta)) (n : Nat),
      (∀ x ∈ c, (∃ d, x = .notify d) ∨ x = .unhold) → (c.filter fun x => match x with | .unhold => true | _ => false).length < n →
      Spec.Held.deliveries n c = [] ∧ Spec.Held.released n c = false := by
    intro c
    induction c with
    | nil => intro n _ hn; cases n with
      | zero => simp at hn
      | succ n => simp [Spec.Held.deliveries, Spec.Held.released]
    | cons o c ih =>
      intro n hc hn
      cases n with
      | zero => simp at hn
      | succ n =>
        rcases hc o (by simp) with ⟨d, rfl⟩ | rfl
        · obtain ⟨i1, i2⟩ := ih (n + 1) (fun x hx => hc x (by simp [hx])) (by simpa using hn)
          exact ⟨by simp [Spec.Held.deliveries, i1, i2], i2⟩
        · obtain ⟨i1, i2⟩ := ih n (fun x hx => hc x (by simp [hx])) (by simpa using hn)
          exact ⟨i1, i2⟩
  have hb : ∀ (k : Nat) (d : List Delta), Spec.Held.Balanced k (d.map Spec.Held.Call.notify ++ List.replicate k .unhold) := by
    intro k d; induction d with
    | nil =>
      simp only [List.map_nil, List.nil_append]
      induction k with
      | zero => simp [Spec.Held.Balanced]
      | succ k ih => exact ih
    | cons x d ih => cases k <;> exact ih
  have hr : ∀ (k : Nat) (d : List Delta), Spec.Held.released k (d.map Spec.Held.Call.notify ++ List.replicate k .unhold) = true := by
    intro k d; induction d with
    | nil =>
      simp only [List.map_nil, List.nil_append]
      induction k with
      | zero => simp [Spec.Held.released]
      | succ k ih => exact ih
    | cons x d ih => cases k with
      | zero => simp [Spec.Held.released]
      | succ k => exact ih
  have hdl : ∀ (k : Nat) (d : List Delta), Spec.Held.deliveries k (d.map Spec.Held.Call.notify ++ List.replicate k .unhold) = d := by
    intro k d; induction d with
    | nil =>
      simp only [List.map_nil, List.nil_append]
      induction k with
      | zero => simp [Spec.Held.deliveries]
      | succ k ih => exact ih
    | cons x d ih => simp only [List.map_cons, List.cons_append, Spec.Held.deliveries, hr, ih]; simp
  obtain ⟨k, hk, hk1, he⟩ : ∃ k, k ≤ 2 ∧ 1 ≤ k ∧ TempGen.script value d =
      (List.replicate k Spec.Held.Call.hold ++ (d.map Spec.Held.Call.notify ++ List.replicate k Spec.Held.Call.unhold)).map Held.op := by
    unfold TempGen.script
    cases value with
    | none =>
      by_cases hd : d = []
      · exact ⟨1, by omega, by omega, by simp [hd, Held.op]⟩
      · exact ⟨2, by omega, by omega, by simp [hd, Held.op, List.replicate, Function.comp_def]⟩
    | some v => exact ⟨1, by omega, by omega, by simp [Held.op, Function.comp_def]⟩
  have hholdB : ∀ (j m : Nat) (c : List (Spec.Held.Call Delta)), Spec.Held.Balanced (m + j) c →
      Spec.Held.Balanced m (List.replicate j .hold ++ c) := by
    intro j
    induction j with
    | zero => intro m c h; exact h
    | succ j ih => intro m c h; exact ih (m + 1) c (by rw [show m + 1 + j = m + (j + 1) by omega]; exact h)
  have hholdD : ∀ (j m : Nat) (c : List (Spec.Held.Call Delta)), Spec.Held.deliveries m (List.replicate j .hold ++ c) =
      Spec.Held.deliveries (m + j) c := by
    intro j
    induction j with
    | zero => intro m c; rfl
    | succ j ih => intro m c; rw [show m + (j + 1) = m + 1 + j by omega]; exact ih (m + 1) c
  have hbal := hholdB k 0 _ (by rw [Nat.zero_add]; exact hb k d)
  rw [he]
  obtain ⟨s', h1, h2⟩ := gen _ hbal (by simp; omega)
  refine ⟨s', h1, by rw [h2, hholdD, Nat.zero_add, hdl], ?_⟩
  intro n hn
  rw [← List.map_take]
  obtain ⟨s'', h3, h4⟩ := gen ((List.replicate k Spec.Held.Call.hold ++ (d.map Spec.Held.Call.notify ++
      List.replicate k Spec.Held.Call.unhold)).take n)
    (hpre _ ((List.replicate k Spec.Held.Call.hold ++ (d.map Spec.Held.Call.notify ++
      List.replicate k Spec.Held.Call.unhold)).drop n) 0 (by rw [List.take_append_drop]; exact hbal))
    (by rw [List.length_take]; simp; omega)
  refine ⟨s'', h3, ?_⟩
  rw [h4]
  have : Spec.Held.deliveries 0 ((List.replicate k Spec.Held.Call.hold ++ (d.map Spec.Held.Call.notify ++
      List.replicate k Spec.Held.Call.unhold)).take n) = [] := by
    by_cases hnk : n ≤ k
    · rw [List.take_append_of_le_length (by simpa using hnk), List.take_replicate]
      have := hholdD (min n k) 0 []
      rw [List.append_nil] at this
      rw [this]; rfl
    · obtain ⟨n', rfl⟩ : ∃ n', n = k + n' := ⟨n - k, by omega⟩
      have e : (List.replicate k Spec.Held.Call.hold ++ (d.map Spec.Held.Call.notify ++
          List.replicate k Spec.Held.Call.unhold)).take (k + n') = List.replicate k Spec.Held.Call.hold ++
          ((d.map Spec.Held.Call.notify ++ List.replicate k Spec.Held.Call.unhold).take n') := by
        have hl : (List.replicate k (Spec.Held.Call.hold : Spec.Held.Call Delta)).length = k := by simp
        conv_lhs => rw [show k + n' = (List.replicate k (Spec.Held.Call.hold : Spec.Held.Call Delta)).length + n' by rw [hl]]
        rw [List.take_length_add_append]
      rw [e, hholdD]
      have hn' : n' ≤ d.length + k - 1 := by simp at hn; omega
      refine (hmid _ _ ?_ ?_).1
      · intro x hx
        have := List.mem_of_mem_take hx
        simp only [List.mem_append, List.mem_map, List.mem_replicate] at this
        rcases this with ⟨a, _, rfl⟩ | ⟨_, rfl⟩
        · exact Or.inl ⟨a, rfl⟩
        · exact Or.inr rfl
      · have e2 : (d.map Spec.Held.Call.notify ++ List.replicate k Spec.Held.Call.unhold).take n' =
            (d.map Spec.Held.Call.notify).take n' ++ List.replicate (min (n' - d.length) k) Spec.Held.Call.unhold := by
          rw [List.take_append, List.take_replicate]; simp
        rw [e2, List.filter_append, List.length_append]
        have e3 : ((d.map Spec.Held.Call.notify).take n').filter (fun x => match x with | .unhold => true | _ => false) = [] := by
          rw [List.filter_eq_nil_iff]
          intro a ha
          obtain ⟨b, _, rfl⟩ := List.mem_map.mp (List.mem_of_mem_take ha)
          simp
        rw [e3]
        have := List.length_filter_le (fun x : Spec.Held.Call Delta => match x with | .unhold => true | _ => false)
          (List.replicate (min (n' - d.length) k) Spec.Held.Call.unhold)
        rw [List.length_replicate] at this
        simp only [List.length_nil, Nat.zero_add]
        omega
  rw [this]; simp

example : (GenDelta.new Delta).nesting = 0 ∧ (GenDelta.new Delta).queue = [] := ⟨rfl, rfl⟩

end Props
