import Verif.Model.MountGen
import Verif.Spec.Mount
import Verif.Lemmas.Perm
import Verif.Props.FilterGen
/- C27: mounted generators. -/
namespace Props
open Wv Spec.Conf Gens
open Wv.Key (fold mk Names)
open Spec.Mount (rest Covers Below Table newest Ordered)

namespace Mounts

/-- The mount list as the generator has it. -/
def keys (t : Table) : List (Key × Nat) := t.map fun m => (Key.parse m.1, m.2)

/-- No mount point is written with a slash at its end. -/
def Plain (t : Table) : Prop := ∀ m ∈ t, Spec.Path.dir m.1 = false

theorem covers_iff (p k : Text) : Key.suborsame (Key.parse p) (Key.parse k) = true ↔ Covers p k := C20_suborsame p k

theorem find_newest {σ : Type} (s : MountGen.State σ) (t : Table) (h : s.mounts = keys t) (k : Text) :
    MountGen.findmount s (Key.parse k) = (newest t k).map fun m => (Key.parse m.1, m.2) := by
  unfold MountGen.findmount newest
  rw [h, keys, List.find?_map]
  congr 2
  funext m
  simp only [Function.comp_apply]
  rw [Bool.eq_iff_iff, covers_iff]; simp

theorem trim_eq (p k : Text) (hp : Spec.Path.dir p = false) :
    MountGen.trimkey (Key.parse p) (Key.parse k) = Key.parse (rest k (Spec.Path.names p).length) := by
  unfold MountGen.trimkey Key.numsegments rest
  have hn := Key.names_ok k
  rw [Key.parse_eq p, Key.parse_eq k, Key.mk_length, hp]
  simp only [Bool.false_eq_true, if_false, Nat.add_zero]
  rw [Key.removefirst_mk _ _ hn (Key.dir_names k), Key.parse_write _ _ (hn.drop _)]
  intro hd
  simp only [Bool.and_eq_true, decide_eq_true_eq] at hd
  intro h0
  have := List.drop_eq_nil_iff.mp h0
  omega

theorem place_rest (p k : Text) : place (rest k (Spec.Path.names p).length) = (place k).drop (place p).length := by
  unfold rest place
  rw [Key.names_write _ _ ((Key.names_ok k).drop _), List.map_drop, List.length_map]

theorem dir_rest (k : Text) (n : Nat) : Spec.Path.dir (rest k n) = (Spec.Path.dir k && decide (n < (Spec.Path.names k).length)) := by
  unfold rest
  refine Key.dir_write _ _ ((Key.names_ok k).drop _) ?_
  intro hd
  simp only [Bool.and_eq_true, decide_eq_true_eq] at hd
  intro h0
  have := List.drop_eq_nil_iff.mp h0
  omega

theorem lt_append (a : List (List Byte)) (x y : List (List Byte)) (h : x < y) : a ++ x < a ++ y := by
  induction a with
  | nil => exact h
  | cons c a ih => exact List.Lex.cons ih

theorem below_iff (k p : Text) (hp : Spec.Path.dir p = false) :
    (Key.suborsame (Key.parse k) (Key.parse p) && decide (Key.compareto (Key.parse k) (Key.parse p) < 0)) = true ↔ Below k p := by
  rw [Bool.and_eq_true, covers_iff, decide_eq_true_eq, (C20_order k p).1]
  unfold Below Covers Spec.Path.order
  rw [hp]
  simp only [Bool.false_eq_true, if_false, List.append_nil]
  refine and_congr_right fun ⟨q, hq⟩ => ?_
  show place k ++ _ < place p ↔ _
  rw [← hq]
  constructor
  · intro hl he
    have : q = [] := by simpa using he.symm
    rw [this, List.append_nil] at hl
    rcases hd : (if Spec.Path.dir k then ([[]] : Place) else []) with _ | ⟨a, b⟩
    · rw [hd, List.append_nil] at hl; exact List.lt_irrefl _ hl
    · rw [hd] at hl
      have h1 : place k < place k ++ a :: b := by
        have := lt_append (place k) [] (a :: b) (List.Lex.nil)
        rwa [List.append_nil] at this
      exact List.lt_irrefl _ (List.lt_trans hl h1)
  · intro hne
    cases q with
    | nil => simp at hne
    | cons a q =>
      apply lt_append
      have ha : a ≠ [] := by
        have hm : a ∈ place p := by rw [← hq]; simp
        obtain ⟨n, hn, rfl⟩ := List.mem_map.mp hm
        have := (Key.names_ok p n hn).1
        simpa using this
      split
      · refine List.Lex.rel ?_
        cases a with
        | nil => exact absurd rfl ha
        | cons c a => exact List.Lex.nil
      · exact List.Lex.nil

/-- Something is mounted strictly below a path, in a mount list up to the first mount of `found`. -/
theorem hasSubkey_iff (t : Table) (ht : Plain t) (k : Text) (found : Option Nat) :
    MountGen.hasSubkey (Key.parse k) found (keys t) = true ↔
      ∃ a m b, t = a ++ m :: b ∧ Below k m.1 ∧ ∀ x ∈ a, found ≠ some x.2 := by
  induction t with
  | nil => simp [keys, MountGen.hasSubkey]
  | cons m t ih =>
    have ht' : Plain t := fun x hx => ht x (by simp [hx])
    show MountGen.hasSubkey (Key.parse k) found ((Key.parse m.1, m.2) :: keys t) = true ↔ _
    rw [MountGen.hasSubkey]
    by_cases hb : Below k m.1
    · rw [if_pos ((below_iff k m.1 (ht m (by simp))).mpr hb)]
      simp only [true_iff]
      exact ⟨[], m, t, rfl, hb, by simp⟩
    · rw [if_neg (fun h => hb ((below_iff k m.1 (ht m (by simp))).mp h))]
      by_cases hf : found = some m.2
      · simp only [hf, if_true, Bool.false_eq_true, false_iff]
        rintro ⟨a, x, b, he, hx, hall⟩
        cases a with
        | nil => simp at he; exact hb (he.1 ▸ hx)
        | cons y a =>
          simp at he
          exact hall y (by simp) (by rw [← he.1])
      · simp only [hf, if_false]
        rw [ih ht']
        constructor
        · rintro ⟨a, x, b, rfl, hx, hall⟩
          exact ⟨m :: a, x, b, rfl, hx, by
            intro y hy
            rcases List.mem_cons.mp hy with rfl | hy
            · exact hf
            · exact hall y hy⟩
        · rintro ⟨a, x, b, he, hx, hall⟩
          cases a with
          | nil => simp at he; exact absurd (he.1 ▸ hx) hb
          | cons y a =>
            simp at he
            exact ⟨a, x, b, he.2, hx, fun z hz => hall z (by simp [hz])⟩

theorem hasSubkey_none (t : Table) (ht : Plain t) (k : Text) :
    MountGen.hasSubkey (Key.parse k) none (keys t) = true ↔ ∃ m ∈ t, Below k m.1 := by
  rw [hasSubkey_iff t ht]
  constructor
  · rintro ⟨a, m, b, rfl, h, _⟩; exact ⟨m, by simp, h⟩
  · rintro ⟨m, hm, h⟩
    obtain ⟨a, b, rfl⟩ := List.append_of_mem hm
    exact ⟨a, m, b, rfl, h, by simp⟩

end Mounts
open Mounts

section
variable {σ : Type} (I : IGen σ)

/-- Every operation on a key that some mount covers goes to the newest such mount, with the rest of the key, and to no other
    generator. (`exists` and `haschildren` are also true if something newer is mounted below the key.) -/
theorem C27_routes (s : MountGen.State σ) (t : Table) (hs : s.mounts = keys t) (ht : Plain t) (k : Text) (p : Text) (i : Nat)
    (hn : newest t k = some (p, i)) :
    MountGen.get I s (Key.parse k) = I.get (s.gens i) (Key.parse (rest k (Spec.Path.names p).length)) ∧
    MountGen.iterator I s (Key.parse k) = I.iterator (s.gens i) (Key.parse (rest k (Spec.Path.names p).length)) ∧
    (∀ v, (MountGen.set I s (Key.parse k) v).mounts = s.mounts ∧
      (MountGen.set I s (Key.parse k) v).gens i = I.set (s.gens i) (Key.parse (rest k (Spec.Path.names p).length)) v ∧
      ∀ j, j ≠ i → (MountGen.set I s (Key.parse k) v).gens j = s.gens j) ∧
    (MountGen.exists I s (Key.parse k) = true ↔ I.exists (s.gens i) (Key.parse (rest k (Spec.Path.names p).length)) = true ∨
      ∃ a m b, t = a ++ m :: b ∧ Below k m.1 ∧ ∀ x ∈ a, x.2 ≠ i) ∧
    (MountGen.haschildren I s (Key.parse k) = true ↔ I.haschildren (s.gens i) (Key.parse (rest k (Spec.Path.names p).length)) = true ∨
      ∃ a m b, t = a ++ m :: b ∧ Below k m.1 ∧ ∀ x ∈ a, x.2 ≠ i) := by
  have hf := find_newest s t hs k
  rw [hn] at hf
  simp only [Option.map_some] at hf
  have hp : Spec.Path.dir p = false := ht (p, i) (List.mem_of_find?_eq_some hn)
  have htr := trim_eq p k hp
  have hb : MountGen.hasSubkey (Key.parse k) (some i) s.mounts = true ↔ ∃ a m b, t = a ++ m :: b ∧ Below k m.1 ∧ ∀ x ∈ a, x.2 ≠ i := by
    rw [hs, hasSubkey_iff t ht]
    simp only [ne_eq, Option.some.injEq, eq_comm]
  unfold MountGen.get MountGen.iterator MountGen.set MountGen.exists MountGen.haschildren
  rw [hf]
  simp only [htr]
  refine ⟨trivial, trivial, fun v => ⟨rfl, by simp [MountGen.State.update], fun j hj => by simp [MountGen.State.update, hj]⟩, ?_, ?_⟩
  · rw [← hb]; split <;> simp_all
  · rw [← hb]; split <;> simp_all

/-- On a key no mount covers, nothing is set; it exists, has children, and has the empty value, exactly if something is mounted
    below it. -/
theorem C27_nowhere (s : MountGen.State σ) (t : Table) (hs : s.mounts = keys t) (ht : Plain t) (k : Text) (hn : newest t k = none) :
    (∀ v, MountGen.set I s (Key.parse k) v = s) ∧
    (MountGen.get I s (Key.parse k) = some [] ↔ ∃ m ∈ t, Below k m.1) ∧
    (MountGen.get I s (Key.parse k) = none ↔ ¬ ∃ m ∈ t, Below k m.1) ∧
    (MountGen.exists I s (Key.parse k) = true ↔ ∃ m ∈ t, Below k m.1) ∧
    (MountGen.haschildren I s (Key.parse k) = true ↔ ∃ m ∈ t, Below k m.1) := by
  have hf := find_newest s t hs k
  rw [hn] at hf
  simp only [Option.map_none] at hf
  have hb := hasSubkey_none t ht k
  rw [← hs] at hb
  unfold MountGen.get MountGen.set MountGen.exists MountGen.haschildren
  rw [hf]
  refine ⟨fun _ => rfl, ?_, ?_, hb, hb⟩ <;> rw [← hb] <;> simp

/-- If no mount was made above one that was already there, the newest mount that covers a key is the one whose mount point is the
    longest; of mounts at the same point it is the newest. -/
theorem C27_longest_partial (t : Table) (ho : Ordered t) (k p : Text) (i : Nat) (hn : newest t k = some (p, i)) :
    Covers p k ∧ (∀ m ∈ t, Covers m.1 k → (place m.1).length ≤ (place p).length) ∧
    ∃ a b, t = a ++ (p, i) :: b ∧ ∀ m ∈ a, ¬ Covers m.1 k := by
  obtain ⟨hc, a, b, he, ha⟩ := List.find?_eq_some_iff_append.mp hn
  have hc' : Covers p k := by simpa using hc
  have ha' : ∀ m ∈ a, ¬ Covers m.1 k := by intro m hm; simpa using ha m hm
  refine ⟨hc', ?_, a, b, he, ha'⟩
  intro m hm hmc
  rw [he] at hm ho
  rcases List.mem_append.mp hm with hm | hm
  · exact absurd hmc (ha' m hm)
  · rcases List.mem_cons.mp hm with rfl | hm
    · exact Nat.le_refl _
    · have h1 := (List.pairwise_append.mp ho).2.1
      have h2 := (List.pairwise_cons.mp h1).1 m hm
      refine Decidable.byContradiction fun hlt => h2 ?_
      have hpm : place p <+: place m.1 := List.prefix_of_prefix_length_le hc' hmc (by omega)
      refine ⟨hpm, fun he => hlt ?_⟩
      rw [he]; exact Nat.le_refl _

/-- A table with "a" and then "a/b" mounted is ordered. -/
example : Ordered [(str ['a', '/', 'b'], 1), (str ['a'], 0)] ∧
    newest [(str ['a', '/', 'b'], 1), (str ['a'], 0)] (str ['A', '/', 'B', '/', 'c']) = some (str ['a', '/', 'b'], 1) := by
  constructor
  · simp only [Ordered, List.pairwise_cons, List.mem_cons, List.not_mem_nil, or_false, List.Pairwise.nil, and_true, false_implies, forall_eq,
      implies_true]
    decide +kernel
  · decide +kernel

/-- Otherwise the newest is taken, even if another one is longer: with "a/b" and then "a" mounted, "a/b/c" goes to the latter. -/
theorem C27_longest_fails : ¬ ∀ (s : MountGen.State TempGen.Gen) (t : Table), s.mounts = keys t → Plain t → ∀ (k p : Text) (i : Nat),
    (p, i) ∈ t → Covers p k → (∀ m ∈ t, Covers m.1 k → (place m.1).length ≤ (place p).length) →
    MountGen.get (IGen.temp id) s (Key.parse k) = TempGen.get (s.gens i) (Key.parse (rest k (Spec.Path.names p).length)) := by
  intro h
  have := h ⟨keys [(str ['a'], 0), (str ['a', '/', 'b'], 1)],
      fun i => if i = 1 then (TempGen.set id TempGen.new [str ['c']] (some (str ['1']))).1 else TempGen.new⟩
    [(str ['a'], 0), (str ['a', '/', 'b'], 1)] rfl (by unfold Plain; decide +kernel) (str ['a', '/', 'b', '/', 'c']) (str ['a', '/', 'b']) 1
    (by decide +kernel) (by decide +kernel) (by decide +kernel)
  revert this; decide +kernel

/-- If the mount point has a slash at its end, one name too many is taken off. -/
theorem C27_slash_fails : ¬ ∀ (s : MountGen.State TempGen.Gen) (p k : Text), s.mounts = keys [(p, 0)] → Covers p k →
    MountGen.get (IGen.temp id) s (Key.parse k) = TempGen.get (s.gens 0) (Key.parse (rest k (Spec.Path.names p).length)) := by
  intro h
  have := h ⟨keys [(str ['a', '/'], 0)], fun _ => (TempGen.set id TempGen.new [str ['c']] (some (str ['1']))).1⟩
    (str ['a', '/']) (str ['a', '/', 'c']) rfl (by decide +kernel)
  revert this; decide +kernel

/-! ### Mounting and unmounting -/

namespace Mounts

theorem set_mounts (s : MountGen.State σ) (k : Key) (v : Option TempGen.Value) : (MountGen.set I s k v).mounts = s.mounts := by
  unfold MountGen.set; split <;> rfl

theorem makeLoop_mounts (l : List Key) : ∀ (s : MountGen.State σ) (points : Key), (MountGen.makeLoop I s points l).1.mounts = s.mounts := by
  induction l with
  | nil => intro s p; rfl
  | cons k l ih =>
    intro s p
    rw [MountGen.makeLoop]
    rw [ih]
    split
    · exact set_mounts I s _ _
    · rfl

theorem makemount_mounts (s : MountGen.State σ) (k : Key) : (MountGen.makemount I s k).mounts = s.mounts := by
  have h := makeLoop_mounts I (TempGen.segments k) s []
  unfold MountGen.makemount
  dsimp only
  split
  · exact h
  · split
    · exact h
    · exact h

theorem mountgen_mounts (s : MountGen.State σ) (k : Key) (i : Nat) (r : Bool) :
    (MountGen.mountgen I s k i r).mounts = (k, i) :: s.mounts := by
  unfold MountGen.mountgen
  dsimp only
  have h := makemount_mounts I s k
  split <;> split <;> simp [MountGen.State.update, h]

/-- Calls on the mount generator. -/
inductive Op where
  | mount (point : Text) (what : Nat) (refresh : Bool)
  | unmount (what : Nat) (commit : Bool)
  | set (k : Text) (v : Option Text)
  | setv (order : List Nat) (l : List (Text × Option Text))
  | commit
  | refresh

/-- One call. -/
def exec (s : MountGen.State σ) : Op → Option (MountGen.State σ)
  | .mount p i r => some (MountGen.mountgen I s (Key.parse p) i r)
  | .unmount i c => MountGen.unmount I s i c
  | .set k v => some (MountGen.set I s (Key.parse k) v)
  | .setv o l => some (MountGen.setv I o s (l.map fun x => (Key.parse x.1, x.2)))
  | .commit => some (MountGen.commit I s)
  | .refresh => some (MountGen.refresh I s).1

/-- Some calls. -/
def run (s : MountGen.State σ) : List Op → Option (MountGen.State σ)
  | [] => some s
  | o :: r => (exec I s o).bind fun s => run s r

/-- The mounting and unmounting in them. -/
def tableOps (l : List Op) : List Spec.Mount.Op :=
  l.filterMap fun
    | .mount p i _ => some (.mount p i)
    | .unmount i _ => some (.unmount i)
    | _ => none

theorem refreshLoop_mounts (l : List (Key × Nat)) : ∀ s : MountGen.State σ, (MountGen.refreshLoop I s l).1.mounts = s.mounts := by
  induction l with
  | nil => intro s; rfl
  | cons m l ih =>
    intro s
    rw [MountGen.refreshLoop]
    split
    · rw [ih]; rfl
    · rfl

theorem foldl_mounts {α : Type} (f : MountGen.State σ → α → MountGen.State σ) (hf : ∀ s a, (f s a).mounts = s.mounts) (l : List α) :
    ∀ s, (l.foldl f s).mounts = s.mounts := by
  induction l with
  | nil => intro s; rfl
  | cons a l ih => intro s; rw [List.foldl_cons, ih, hf]

theorem eraseIdx_find (p : Nat → Bool) (t : Table) : ∀ i, (keys t).findIdx? (fun m => p m.2) = some i →
    (keys t).eraseIdx i = keys (t.eraseP fun m => p m.2) := by
  induction t with
  | nil => intro i h; simp [keys] at h
  | cons m t ih =>
    intro i h
    have e : keys (m :: t) = (Key.parse m.1, m.2) :: keys t := rfl
    rw [e, List.findIdx?_cons] at h
    rw [e, List.eraseP_cons]
    cases hp : p m.2 with
    | true =>
      simp only [hp, if_true, Option.some.injEq] at h
      subst h
      simp
    | false =>
      simp only [hp, Bool.false_eq_true, if_false, Option.map_eq_some_iff] at h
      obtain ⟨j, hj, rfl⟩ := h
      simp only [List.eraseIdx_cons_succ, cond_false]
      rw [ih j hj]; rfl

theorem unmount_mounts (s : MountGen.State σ) (t : Table) (hs : s.mounts = keys t) (i : Nat) (c : Bool) :
    (∀ s', MountGen.unmount I s i c = some s' → s'.mounts = keys (t.eraseP fun m => decide (m.2 = i))) ∧
    ((∃ m ∈ t, m.2 = i) → (MountGen.unmount I s i c).isSome = true) := by
  unfold MountGen.unmount
  rw [hs]
  constructor
  · intro s' h
    cases hf : (keys t).findIdx? (fun m => decide (m.2 = i)) with
    | none => rw [hf] at h; cases h
    | some j =>
      rw [hf] at h
      simp only [Option.some.injEq] at h
      rw [← h, foldl_mounts]
      · dsimp only
        have : ∀ b : Bool, (if b = true then s.update i (I.commit (s.gens i)) else s).mounts = keys t := by
          intro b; cases b
          · exact hs
          · exact hs
        rw [this]
        exact eraseIdx_find (fun x => decide (x = i)) t j hf
      · intro s a
        split
        · exact makemount_mounts I s _
        · rfl
  · rintro ⟨m, hm, rfl⟩
    cases hf : (keys t).findIdx? (fun x => decide (x.2 = m.2)) with
    | none =>
      rw [List.findIdx?_eq_none_iff] at hf
      have := hf (Key.parse m.1, m.2) (List.mem_map.mpr ⟨m, hm, rfl⟩)
      simp at this
    | some j => rfl

theorem exec_mounts (s s' : MountGen.State σ) (t : Table) (hs : s.mounts = keys t) (o : Op) (h : exec I s o = some s') :
    s'.mounts = keys (Spec.Mount.run t (tableOps [o])) := by
  cases o with
  | mount p i r => cases h; rw [mountgen_mounts, hs]; rfl
  | unmount i c => exact (unmount_mounts I s t hs i c).1 s' h
  | set k v => cases h; rw [set_mounts, hs]; rfl
  | setv o l =>
    cases h
    unfold MountGen.setv
    rw [foldl_mounts, hs]
    · rfl
    · intro s a; split <;> rfl
  | commit => cases h; unfold MountGen.commit; rw [foldl_mounts, hs]; rfl; intro s a; rfl
  | refresh => cases h; unfold MountGen.refresh; rw [refreshLoop_mounts, hs]; rfl

theorem table_append (a b : List Spec.Mount.Op) : ∀ t, Spec.Mount.run t (a ++ b) = Spec.Mount.run (Spec.Mount.run t a) b := by
  induction a with
  | nil => intro t; rfl
  | cons o a ih => intro t; cases o <;> exact ih _

end Mounts

/-- After any calls that return, what is mounted is what the mounting and unmounting in them says. -/
theorem C27_mounts (l : List Mounts.Op) (s s' : MountGen.State σ) (t : Table) (hs : s.mounts = keys t) (h : Mounts.run I s l = some s') :
    s'.mounts = keys (Spec.Mount.run t (tableOps l)) := by
  induction l generalizing s t with
  | nil => cases h; exact hs
  | cons o l ih =>
    rw [Mounts.run] at h
    cases he : exec I s o with
    | none => rw [he] at h; cases h
    | some s1 =>
      rw [he] at h
      have h1 := exec_mounts I s s1 t hs o he
      have := ih s1 _ h1 h
      rw [this, ← table_append]
      have e : tableOps (o :: l) = tableOps [o] ++ tableOps l := by
        unfold tableOps; rw [← List.filterMap_append]; rfl
      rw [e]

/-- Mounts made only where nothing is mounted below yet. -/
def Tidy (t : Table) : List Spec.Mount.Op → Prop
  | [] => True
  | .mount p i :: r => (∀ m ∈ t, ¬ Below p m.1) ∧ Tidy ((p, i) :: t) r
  | .unmount i :: r => Tidy (t.eraseP fun m => decide (m.2 = i)) r

/-- Then the order of mounts is such that the longest mount point counts, as C27_longest_partial says. -/
theorem C27_tidy (l : List Spec.Mount.Op) (t : Table) (ho : Ordered t) (h : Tidy t l) : Ordered (Spec.Mount.run t l) := by
  induction l generalizing t with
  | nil => exact ho
  | cons o l ih =>
    cases o with
    | mount p i => exact ih _ (List.pairwise_cons.mpr ⟨fun m hm => h.1 m hm, ho⟩) h.2
    | unmount i => exact ih _ (ho.sublist List.eraseP_sublist) h

/-- Unmounting a generator that is not mounted is undefined behaviour: the iterator is used at the end of the list. -/
theorem C27_unmount_fails : ¬ ∀ (s : MountGen.State TempGen.Gen) (i : Nat), (MountGen.unmount (IGen.temp id) s i false).isSome = true := by
  intro h
  have := h ⟨[], fun _ => TempGen.new⟩ 0
  revert this; decide +kernel

namespace Mounts

variable (Rep : σ → Spec.Conf.State → Prop)

/-- All the generators stand for configurations. -/
def Conf (s : MountGen.State σ) (M : Nat → Spec.Conf.State) : Prop := ∀ i, Rep (s.gens i) (M i)

/-- Nothing has changed but that there are new empty values. -/
def Adds (M M' : Nat → Spec.Conf.State) : Prop := ∀ i q, M' i q = M i q ∨ (M i q = none ∧ M' i q = some [])

theorem Adds.refl (M : Nat → Spec.Conf.State) : Adds M M := fun _ _ => Or.inl rfl

theorem Adds.trans {A B C : Nat → Spec.Conf.State} (h : Adds A B) (h' : Adds B C) : Adds A C := by
  intro i q
  rcases h i q with h1 | ⟨h1, h2⟩ <;> rcases h' i q with h3 | ⟨h3, h4⟩
  · exact Or.inl (h3.trans h1)
  · exact Or.inr ⟨h1 ▸ h3, h4⟩
  · exact Or.inr ⟨h1, h3.trans h2⟩
  · rw [h2] at h3; cases h3

theorem Adds.ne {A B : Nat → Spec.Conf.State} (h : Adds A B) (i : Nat) (q : Place) (hq : A i q ≠ none) : B i q ≠ none := by
  rcases h i q with h1 | ⟨h1, h2⟩
  · rw [h1]; exact hq
  · exact absurd h1 hq

variable {I} {Rep} (hI : Behaves I Rep)
include hI

/-- Setting an empty value where there is none, in one of the generators. -/
theorem update_adds (s : MountGen.State σ) (M : Nat → Spec.Conf.State) (h : Conf Rep s M) (i : Nat) (k : Text)
    (hk : Spec.Conf.get (M i) k = none) :
    ∃ M', Conf Rep (s.update i (I.set (s.gens i) (Key.parse k) (some []))) M' ∧ Adds M M' ∧
      (Spec.Path.dir k = false → M' i (place k) ≠ none) := by
  refine ⟨fun j => if j = i then Spec.Conf.set (M i) k (some []) else M j, ?_, ?_, ?_⟩
  · intro j
    by_cases hj : j = i
    · subst hj; simp only [MountGen.State.update, if_true]; exact hI.set _ _ (h j) k _
    · simp only [MountGen.State.update, hj, if_false]; exact h j
  · intro j q
    by_cases hj : j = i
    · subst hj
      simp only [if_true, Spec.Conf.set]
      by_cases hd : Spec.Path.dir k = true
      · simp [hd]
      · simp only [hd, Bool.false_eq_true, if_false]
        simp only [Spec.Conf.get, hd, Bool.false_eq_true, if_false] at hk
        by_cases hq : q = place k
        · subst hq; simp [hk]
        · simp only [hq, if_false]
          split
          · cases hm : M j q with
            | none => exact Or.inr ⟨rfl, rfl⟩
            | some v => exact Or.inl rfl
          · exact Or.inl rfl
    · simp [hj]
  · intro hd; simp [Spec.Conf.set, hd]

theorem get_ne_iff (s : MountGen.State σ) (M : Nat → Spec.Conf.State) (h : Conf Rep s M) (t : Table) (hs : s.mounts = keys t)
    (ht : Plain t) (k : Text) (hk : Spec.Path.dir k = false) :
    MountGen.get I s (Key.parse k) ≠ none ↔ match newest t k with
      | some (p, i) => M i ((place k).drop (place p).length) ≠ none
      | none => ∃ m ∈ t, Below k m.1 := by
  cases hn : newest t k with
  | none =>
    simp only []
    rw [ne_eq, (C27_nowhere I s t hs ht k hn).2.2.1, Classical.not_not]
  | some x =>
    obtain ⟨p, i⟩ := x
    simp only []
    rw [(C27_routes I s t hs ht k p i hn).1, (hI.reads _ _ (h i)).get, Spec.Conf.get, dir_rest, hk, place_rest]
    simp

/-- A key that is read stays so when only empty values are added. -/
theorem get_adds (s s' : MountGen.State σ) (M M' : Nat → Spec.Conf.State) (h : Conf Rep s M) (h' : Conf Rep s' M') (ha : Adds M M')
    (t : Table) (hs : s.mounts = keys t) (hs' : s'.mounts = keys t) (ht : Plain t) (k : Text) (hk : Spec.Path.dir k = false)
    (hg : MountGen.get I s (Key.parse k) ≠ none) : MountGen.get I s' (Key.parse k) ≠ none := by
  rw [get_ne_iff hI s M h t hs ht k hk] at hg
  rw [get_ne_iff hI s' M' h' t hs' ht k hk]
  cases hn : newest t k with
  | none => rw [hn] at hg; exact hg
  | some x => rw [hn] at hg; exact ha.ne _ _ hg

theorem set_empty (s : MountGen.State σ) (M : Nat → Spec.Conf.State) (h : Conf Rep s M) (t : Table) (hs : s.mounts = keys t)
    (ht : Plain t) (k : Text) (hk : Spec.Path.dir k = false) (hg : MountGen.get I s (Key.parse k) = none) :
    ∃ M', Conf Rep (MountGen.set I s (Key.parse k) (some [])) M' ∧ Adds M M' ∧
      ((∃ m ∈ t, Covers m.1 k) → MountGen.get I (MountGen.set I s (Key.parse k) (some [])) (Key.parse k) ≠ none) := by
  cases hn : newest t k with
  | none =>
    rw [(C27_nowhere I s t hs ht k hn).1]
    refine ⟨M, h, Adds.refl M, ?_⟩
    rintro ⟨m, hm, hc⟩
    have := List.find?_eq_none.mp hn m hm
    simp [hc] at this
  | some x =>
    obtain ⟨p, i⟩ := x
    have hf := find_newest s t hs k
    rw [hn] at hf
    simp only [Option.map_some] at hf
    have hp : Spec.Path.dir p = false := ht (p, i) (List.mem_of_find?_eq_some hn)
    have e : MountGen.set I s (Key.parse k) (some []) =
        s.update i (I.set (s.gens i) (Key.parse (rest k (Spec.Path.names p).length)) (some [])) := by
      unfold MountGen.set; rw [hf]; simp only [trim_eq p k hp]
    have hgr : Spec.Conf.get (M i) (rest k (Spec.Path.names p).length) = none := by
      rw [← (hI.reads _ _ (h i)).get, ← (C27_routes I s t hs ht k p i hn).1]; exact hg
    obtain ⟨M', h1, h2, h3⟩ := update_adds hI s M h i _ hgr
    refine ⟨M', by rw [e]; exact h1, h2, fun _ => ?_⟩
    rw [e, get_ne_iff hI _ M' h1 t (by exact hs) ht k hk, hn]
    simp only []
    rw [← place_rest]
    exact h3 (by rw [dir_rest, hk]; rfl)

/-- The names of a path as a text. -/
def path (ns : List Seg) : Text := Spec.Path.write ns false

omit hI in
theorem path_spec (ns : List Seg) (h : Names ns) : Key.parse (path ns) = mk ns false ∧ place (path ns) = fold ns ∧
    Spec.Path.dir (path ns) = false := by
  refine ⟨Key.parse_write ns false h (by simp), ?_, Key.dir_write ns false h (by simp)⟩
  rw [place, path, Key.names_write ns false h, fold_eq]

theorem makeLoop_spec (t : Table) (ht : Plain t) : ∀ (b a : List Seg), Names a → Names b → ∀ (s : MountGen.State σ) (M : Nat → Spec.Conf.State),
    Conf Rep s M → s.mounts = keys t →
    ∃ M', Conf Rep (MountGen.makeLoop I s (mk a false) (TempGen.ones b)).1 M' ∧ Adds M M' ∧
      (MountGen.makeLoop I s (mk a false) (TempGen.ones b)).2 = mk (a ++ b) false ∧
      ∀ n, 0 < n → n ≤ b.length → (∃ m ∈ t, Covers m.1 (path (a ++ b.take n))) →
        MountGen.get I (MountGen.makeLoop I s (mk a false) (TempGen.ones b)).1 (Key.parse (path (a ++ b.take n))) ≠ none := by
  intro b
  induction b with
  | nil =>
    intro a _ _ s M h hs
    exact ⟨M, h, Adds.refl M, by simp [TempGen.ones, MountGen.makeLoop], fun n h1 h2 => by simp at h2; omega⟩
  | cons x b ih =>
    intro a ha hb s M h hs
    have hx : Names [x] := fun y hy => hb y (by simp at hy; simp [hy])
    have hb' : Names b := fun y hy => hb y (by simp [hy])
    have e3 : Key.append (mk a false) [x] = mk (a ++ [x]) false := by
      have e : ([x] : Key) = mk [x] false := rfl
      rw [e]
      unfold Key.append
      rw [Key.filter_mk [x] false hx, Key.isempty_mk [x] false (by simp), Key.trailing_mk [x] false hx]
      have := Key.collapse_mk (a ++ [x]) false (ha.append hx)
      simpa [mk] using this
    obtain ⟨hp1, hp2, hp3⟩ := path_spec (a ++ [x]) (ha.append hx)
    have e : MountGen.makeLoop I s (mk a false) (TempGen.ones (x :: b)) = MountGen.makeLoop I
        (if (MountGen.get I s (Key.parse (path (a ++ [x])))).isNone then MountGen.set I s (Key.parse (path (a ++ [x]))) (some []) else s)
        (mk (a ++ [x]) false) (TempGen.ones b) := by
      show MountGen.makeLoop I s (mk a false) ([x] :: TempGen.ones b) = _
      rw [MountGen.makeLoop, e3, hp1]
    obtain ⟨s1, hs1⟩ : ∃ s1, s1 = (if (MountGen.get I s (Key.parse (path (a ++ [x])))).isNone then
      MountGen.set I s (Key.parse (path (a ++ [x]))) (some []) else s) := ⟨_, rfl⟩
    have hstep : ∃ M1, Conf Rep s1 M1 ∧ Adds M M1 ∧ s1.mounts = keys t ∧
        ((∃ m ∈ t, Covers m.1 (path (a ++ [x]))) → MountGen.get I s1 (Key.parse (path (a ++ [x]))) ≠ none) := by
      cases hg : MountGen.get I s (Key.parse (path (a ++ [x]))) with
      | none =>
        rw [hg] at hs1
        simp only [Option.isNone_none, if_true] at hs1
        obtain ⟨M1, h1, h2, h3⟩ := set_empty hI s M h t hs ht (path (a ++ [x])) hp3 hg
        rw [hs1]
        exact ⟨M1, h1, h2, by rw [set_mounts, hs], h3⟩
      | some v =>
        rw [hg] at hs1
        simp only [Option.isNone_some, Bool.false_eq_true, if_false] at hs1
        rw [hs1]
        exact ⟨M, h, Adds.refl M, hs, fun _ => by rw [hg]; simp⟩
    obtain ⟨M1, h1, h2, h3, h4⟩ := hstep
    rw [← hs1] at e
    obtain ⟨M2, g1, g2, g3, g4⟩ := ih (a ++ [x]) (ha.append hx) hb' s1 M1 h1 h3
    rw [e]
    refine ⟨M2, g1, h2.trans g2, by rw [g3]; simp, ?_⟩
    intro n hn hnl hc
    obtain ⟨n, rfl⟩ : ∃ m, n = m + 1 := ⟨n - 1, by omega⟩
    have etake : a ++ (x :: b).take (n + 1) = a ++ [x] ++ b.take n := by simp
    rw [etake] at hc ⊢
    by_cases hn0 : n = 0
    · subst hn0
      simp only [List.take_zero, List.append_nil] at hc ⊢
      exact get_adds hI s1 _ M1 M2 h1 g1 g2 t h3 (by rw [makeLoop_mounts, h3]) ht _ hp3 (h4 hc)
    · exact g4 n (by omega) (by simpa using hnl) hc

/-- `makemount` for a key without a slash at its end. -/
theorem makemount_spec (t : Table) (ht : Plain t) (p : Text) (hp : Spec.Path.dir p = false) (s : MountGen.State σ) (M : Nat → Spec.Conf.State)
    (h : Conf Rep s M) (hs : s.mounts = keys t) :
    ∃ M', Conf Rep (MountGen.makemount I s (Key.parse p)) M' ∧ Adds M M' ∧
      ∀ q : Text, Spec.Path.dir q = false → place q ≠ [] → place q <+: place p → (∃ m ∈ t, Covers m.1 q) →
        MountGen.get I (MountGen.makemount I s (Key.parse p)) (Key.parse q) ≠ none := by
  have hnm := Key.names_ok p
  have hpm : Key.parse p = mk (Spec.Path.names p) false := by rw [Key.parse_eq, hp]
  have hseg : TempGen.segments (Key.parse p) = TempGen.ones (Spec.Path.names p) := by
    rw [hpm]
    have := TempGen.segments_mk (Spec.Path.names p) false hnm
    simpa using this
  obtain ⟨M1, h1, h2, h3, h4⟩ := makeLoop_spec hI t ht (Spec.Path.names p) [] (by simp [Names]) hnm s M h hs
  have hm1 := makeLoop_mounts I (TempGen.ones (Spec.Path.names p)) s []
  have e0 : mk [] false = [] := rfl
  rw [e0] at h1 h3 h4
  have hloop : ∀ q : Text, Spec.Path.dir q = false → place q ≠ [] → place q <+: place p → (∃ m ∈ t, Covers m.1 q) →
      MountGen.get I (MountGen.makeLoop I s [] (TempGen.ones (Spec.Path.names p))).1 (Key.parse q) ≠ none := by
    intro q hq hq0 hqp hc
    have hlen : (place q).length = (Spec.Path.names q).length := by simp [place]
    have hle : (place q).length ≤ (Spec.Path.names p).length := by simpa [place] using hqp.length_le
    have hpos : 0 < (place q).length := List.length_pos_iff.mpr hq0
    obtain ⟨n1, n2, n3⟩ := path_spec ((Spec.Path.names p).take (place q).length) (hnm.take _)
    have heq : place (path ((Spec.Path.names p).take (place q).length)) = place q := by
      rw [n2, fold_eq, List.map_take]
      exact (List.prefix_iff_eq_take.mp hqp).symm
    have hc' : ∃ m ∈ t, Covers m.1 (path ([] ++ (Spec.Path.names p).take (place q).length)) := by
      obtain ⟨m, hm, hmc⟩ := hc
      exact ⟨m, hm, by unfold Covers at hmc ⊢; rw [List.nil_append, heq]; exact hmc⟩
    have := h4 _ hpos hle hc'
    rw [List.nil_append] at this
    rw [get_ne_iff hI _ M1 h1 t (by rw [hm1, hs]) ht _ n3] at this
    rw [get_ne_iff hI _ M1 h1 t (by rw [hm1, hs]) ht _ hq]
    have hnw : newest t (path ((Spec.Path.names p).take (place q).length)) = newest t q := by
      unfold newest
      congr 1
      funext m
      exact decide_eq_decide.mpr (by unfold Covers; rw [heq])
    rw [hnw] at this
    cases hn : newest t q with
    | none =>
      rw [hn] at this
      obtain ⟨m, hm, hb⟩ := this
      exact ⟨m, hm, by unfold Below at hb ⊢; rw [heq] at hb; exact hb⟩
    | some x => rw [hn] at this; simp only [heq] at this; exact this
  unfold MountGen.makemount
  rw [hseg]
  dsimp only
  split
  · exact ⟨M1, h1, h2, hloop⟩
  · rename_i m hf
    have hmt : m ∈ keys t := by
      have := List.mem_of_find?_eq_some hf
      rw [hm1, hs] at this; exact this
    obtain ⟨⟨mp, mi⟩, hmem, rfl⟩ := List.mem_map.mp hmt
    simp only [trim_eq mp p (ht _ hmem)]
    split
    · rename_i hnone
      have hgr : Spec.Conf.get (M1 mi) (rest p (Spec.Path.names mp).length) = none := by
        rw [← (hI.reads _ _ (h1 mi)).get]; simpa using hnone
      obtain ⟨M2, k1, k2, _⟩ := update_adds hI _ M1 h1 mi _ hgr
      refine ⟨M2, k1, h2.trans k2, ?_⟩
      intro q hq hq0 hqp hc
      exact get_adds hI _ _ M1 M2 h1 k1 k2 t (by rw [hm1, hs]) (by exact hm1.trans hs) ht q hq (hloop q hq hq0 hqp hc)
    · exact ⟨M1, h1, h2, hloop⟩

end Mounts

/-- Mounting a generator changes nothing in any generator but that there are new empty values. Then the mount point exists, and so do
    all keys above it, the root possibly excepted. -/
theorem C27_mountpoint (Rep : σ → Spec.Conf.State → Prop) (hI : Behaves I Rep) (s : MountGen.State σ) (M : Nat → Spec.Conf.State)
    (h : Mounts.Conf Rep s M) (t : Table) (hs : s.mounts = keys t) (ht : Plain t) (p : Text) (hp : Spec.Path.dir p = false) (i : Nat)
    (refresh : Bool) :
    (∃ M', Mounts.Conf Rep (MountGen.mountgen I s (Key.parse p) i refresh) M' ∧ Adds M M') ∧
    ∀ q : Text, Spec.Path.dir q = false → (place q <+: place p ∧ place q ≠ [] ∨ place q = place p) →
      MountGen.get I (MountGen.mountgen I s (Key.parse p) i refresh) (Key.parse q) ≠ none := by
  obtain ⟨M1, h1, h2, h3⟩ := makemount_spec hI t ht p hp s M h hs
  have hmm := makemount_mounts I s (Key.parse p)
  obtain ⟨s2, hs2⟩ : ∃ s2 : MountGen.State σ, s2 = (if refresh then (MountGen.makemount I s (Key.parse p)).update i
    (I.refresh ((MountGen.makemount I s (Key.parse p)).gens i)).1 else MountGen.makemount I s (Key.parse p)) := ⟨_, rfl⟩
  have h2' : Mounts.Conf Rep s2 M1 ∧ s2.mounts = keys t := by
    cases refresh with
    | false => simp only [Bool.false_eq_true, if_false] at hs2; rw [hs2]; exact ⟨h1, hmm.trans hs⟩
    | true =>
      simp only [if_true] at hs2; rw [hs2]
      refine ⟨?_, hmm.trans hs⟩
      intro j
      by_cases hj : j = i
      · subst hj; simp only [MountGen.State.update, if_true]; exact hI.refresh _ _ (h1 j)
      · simp only [MountGen.State.update, hj, if_false]; exact h1 j
  have hroot : Key.parse [ch '/'] = Key.parse [] := by decide +kernel
  obtain ⟨s3, hs3⟩ : ∃ s3 : MountGen.State σ, s3 = ⟨(Key.parse p, i) :: s2.mounts, s2.gens⟩ := ⟨_, rfl⟩
  have e : MountGen.mountgen I s (Key.parse p) i refresh =
      if I.exists (s3.gens i) (Key.parse []) then s3 else s3.update i (I.set (s3.gens i) (Key.parse []) (some [])) := by
    rw [hs3, hs2, ← hroot]; rfl
  have c3 : Mounts.Conf Rep s3 M1 := by rw [hs3]; exact h2'.1
  have m3 : s3.mounts = keys ((p, i) :: t) := by rw [hs3]; simp only [h2'.2]; rfl
  have ht' : Plain ((p, i) :: t) := by
    intro m hm
    rcases List.mem_cons.mp hm with rfl | hm
    · exact hp
    · exact ht m hm
  have e0 : Spec.Path.names [] = [] := Key.names_nil
  have ed : Spec.Path.dir [] = false := by simp [Spec.Path.dir, e0]
  have ep : place [] = [] := by simp [place, e0]
  have hfin : ∃ M', Mounts.Conf Rep (MountGen.mountgen I s (Key.parse p) i refresh) M' ∧ Adds M1 M' ∧
      (MountGen.mountgen I s (Key.parse p) i refresh).mounts = keys ((p, i) :: t) ∧ M' i [] ≠ none := by
    rw [e]
    by_cases hx : I.exists (s3.gens i) (Key.parse []) = true
    · rw [if_pos hx]
      refine ⟨M1, c3, Adds.refl _, m3, ?_⟩
      have := ((hI.reads _ _ (c3 i)).exists_ []).mp hx
      rwa [Spec.Conf.get, ed, ep] at this
    · rw [if_neg hx]
      have hn : Spec.Conf.get (M1 i) [] = none := by
        have := fun e => hx (((hI.reads _ _ (c3 i)).exists_ []).mpr e)
        simpa using this
      obtain ⟨M2, k1, k2, k3⟩ := update_adds hI s3 M1 c3 i [] hn
      exact ⟨M2, k1, k2, m3, by rw [← ep]; exact k3 ed⟩
  obtain ⟨M', f1, f2, f3, f4⟩ := hfin
  refine ⟨⟨M', f1, h2.trans f2⟩, ?_⟩
  intro q hq hqp
  rw [get_ne_iff hI _ M' f1 _ f3 ht' q hq]
  by_cases heq : place q = place p
  · have : newest ((p, i) :: t) q = some (p, i) := by
      unfold newest
      rw [List.find?_cons]
      have : decide (Covers p q) = true := by simp [Covers, heq]
      simp only [this]
    rw [this]
    simp only [heq, List.drop_length]
    exact f4
  · have hq' : place q <+: place p ∧ place q ≠ [] := by
      rcases hqp with h | h
      · exact h
      · exact absurd h heq
    have hnc : ¬ Covers p q := by
      intro hc
      exact heq (hq'.1.eq_of_length (Nat.le_antisymm hq'.1.length_le hc.length_le))
    have hnw : newest ((p, i) :: t) q = newest t q := by
      unfold newest
      rw [List.find?_cons]
      simp [hnc]
    rw [hnw]
    cases hn : newest t q with
    | none => exact ⟨(p, i), by simp, hq'.1, heq⟩
    | some x =>
      have hcov : ∃ m ∈ t, Covers m.1 q := by
        have := List.find?_some hn
        exact ⟨x, List.mem_of_find?_eq_some hn, by simpa using this⟩
      have := h3 q hq hq'.2 hq'.1 hcov
      rw [get_ne_iff hI _ M1 h1 t (hmm.trans hs) ht q hq, hn] at this
      simp only [] at this ⊢
      exact f2.ne _ _ this

/-- The in-memory generator mounted at "a/b" and a second one at the root meet the hypotheses, for mounting a third at "a/b/c/d". -/
example : ∃ (s : MountGen.State TempGen.Gen) (M : Nat → Spec.Conf.State) (t : Table), Mounts.Conf Temp.Holds s M ∧ s.mounts = keys t ∧ Plain t ∧
    t.length = 2 := by
  refine ⟨⟨keys [(str ['a', '/', 'b'], 1), ([], 0)], fun i => if i = 0 then sampleGen else TempGen.new⟩,
    fun i => if i = 0 then Temp.conf sampleCalls else Spec.Conf.empty, [(str ['a', '/', 'b'], 1), ([], 0)], ?_, rfl,
    by unfold Plain; decide +kernel, rfl⟩
  intro i
  by_cases hi : i = 0
  · simp only [hi, if_true]; exact sampleGen_holds
  · simp only [hi, if_false]; exact Temp.new_holds

/-! ### Several keys at once, commit and refresh, when no generator is mounted twice -/

namespace Mounts

theorem nth_inj {t : Table} (hd : (t.map Prod.snd).Nodup) {i j : Nat} {m : Text × Nat} (hi : t[i]? = some m) (hj : t[j]? = some m) : i = j := by
  have hi' : (t.map Prod.snd)[i]? = some m.2 := by simp [hi]
  have hj' : (t.map Prod.snd)[j]? = some m.2 := by simp [hj]
  obtain ⟨hl, e⟩ := List.getElem?_eq_some_iff.mp hi'
  exact (List.getElem?_inj hl hd).mp (hi'.trans hj'.symm)

theorem nth_gen {t : Table} (hd : (t.map Prod.snd).Nodup) {i j : Nat} {m n : Text × Nat} (hi : t[i]? = some m) (hj : t[j]? = some n)
    (h : m.2 = n.2) : i = j := by
  have hi' : (t.map Prod.snd)[i]? = some m.2 := by simp [hi]
  have hj' : (t.map Prod.snd)[j]? = some m.2 := by simp [hj, h]
  obtain ⟨hl, e⟩ := List.getElem?_eq_some_iff.mp hi'
  exact (List.getElem?_inj hl hd).mp (hi'.trans hj'.symm)

theorem pairsFor_eq (t : Table) (ht : Plain t) (hd : (t.map Prod.snd).Nodup) (i : Nat) (m : Text × Nat) (hm : t[i]? = some m)
    (l : List (Text × Option Text)) :
    MountGen.pairsFor (keys t) i (l.map fun p => (Key.parse p.1, p.2)) =
      (l.filter fun p => decide (newest t p.1 = some m)).map fun p => (Key.parse (rest p.1 (Spec.Path.names m.1).length), p.2) := by
  have hfind : ∀ k : Text, (keys t).findIdx? (fun x => Key.suborsame x.1 (Key.parse k)) = t.findIdx? fun x => decide (Covers x.1 k) := by
    intro k
    rw [keys, List.findIdx?_map]
    congr 1
    funext x
    simp only [Function.comp_apply]
    rw [Bool.eq_iff_iff, covers_iff]; simp
  induction l with
  | nil => rfl
  | cons p l ih =>
    unfold MountGen.pairsFor at ih ⊢
    rw [List.map_cons, List.filterMap_cons, ih]
    dsimp only
    rw [hfind]
    cases hx : t.findIdx? fun x => decide (Covers x.1 p.1) with
    | none =>
      have hn : newest t p.1 ≠ some m := by
        intro h
        have h1 := List.findIdx?_eq_none_iff.mp hx m (List.mem_of_find?_eq_some h)
        have h2 := List.find?_some h
        rw [h1] at h2; cases h2
      rw [List.filter_cons_of_neg (by simpa using hn)]
    | some j =>
      obtain ⟨hj, hc, hb⟩ := List.findIdx?_eq_some_iff_getElem.mp hx
      have hn : newest t p.1 = some t[j] := List.find?_eq_some_iff_getElem.mpr ⟨hc, j, hj, rfl, fun q hq => by simpa using hb q hq⟩
      dsimp only
      by_cases hji : j = i
      · subst hji
        have hmj : t[j] = m := by rw [List.getElem?_eq_getElem hj] at hm; exact Option.some.inj hm
        rw [List.filter_cons_of_pos (by simp [hn, hmj])]
        have hk : ((keys t).map Prod.fst).getD j [] = Key.parse m.1 := by
          simp [keys, List.getD, List.getElem?_eq_getElem hj, hmj]
        rw [if_pos rfl, hk, trim_eq m.1 p.1 (ht m (hmj ▸ List.getElem_mem hj))]
        rfl
      · rw [if_neg hji]
        have : newest t p.1 ≠ some m := by
          rw [hn]
          intro h
          refine hji (nth_inj hd (m := m) ?_ hm)
          rw [List.getElem?_eq_getElem hj]; exact h
        rw [List.filter_cons_of_neg (by simpa using this)]

/-- The loop over the mounts in the order of the hash table. -/
theorem setv_loop (t : Table) (hd : (t.map Prod.snd).Nodup) (pairs : List (Key × Option TempGen.Value)) (order : List Nat) (ho : order.Nodup) :
    ∀ s : MountGen.State σ, s.mounts = keys t →
      (MountGen.setv I order s pairs).mounts = keys t ∧
      (∀ i m, t[i]? = some m → (MountGen.setv I order s pairs).gens m.2 =
        if i ∈ order then I.setv (s.gens m.2) (MountGen.pairsFor (keys t) i pairs) else s.gens m.2) ∧
      ∀ n, (∀ m ∈ t, m.2 ≠ n) → (MountGen.setv I order s pairs).gens n = s.gens n := by
  induction order with
  | nil => intro s hs; exact ⟨hs, fun i m _ => rfl, fun n _ => rfl⟩
  | cons o order ih =>
    intro s hs
    have hno := List.nodup_cons.mp ho
    cases hx : t[o]? with
    | none =>
      have e : MountGen.setv I (o :: order) s pairs = MountGen.setv I order s pairs := by
        unfold MountGen.setv
        rw [List.foldl_cons, hs]
        have : (keys t)[o]? = none := by simp [keys, hx]
        rw [this]
      rw [e]
      obtain ⟨h1, h2, h3⟩ := ih hno.2 s hs
      refine ⟨h1, fun i m hi => ?_, h3⟩
      rw [h2 i m hi]
      have : i ≠ o := by rintro rfl; rw [hx] at hi; cases hi
      simp [this]
    | some mo =>
      have e : MountGen.setv I (o :: order) s pairs =
          MountGen.setv I order (s.update mo.2 (I.setv (s.gens mo.2) (MountGen.pairsFor (keys t) o pairs))) pairs := by
        unfold MountGen.setv
        rw [List.foldl_cons, hs]
        have : (keys t)[o]? = some (Key.parse mo.1, mo.2) := by simp [keys, hx]
        rw [this]
      rw [e]
      obtain ⟨h1, h2, h3⟩ := ih hno.2 (s.update mo.2 (I.setv (s.gens mo.2) (MountGen.pairsFor (keys t) o pairs))) hs
      refine ⟨h1, fun i m hi => ?_, fun n hn => ?_⟩
      · rw [h2 i m hi]
        by_cases hio : i = o
        · subst hio
          rw [hx] at hi
          cases hi
          simp [hno.1, MountGen.State.update]
        · have : m.2 ≠ mo.2 := fun h => hio (nth_gen hd hi hx h)
          simp [hio, this, MountGen.State.update]
      · rw [h3 n hn]
        have : n ≠ mo.2 := fun h => hn mo (List.mem_of_getElem? hx) h.symm
        simp [this, MountGen.State.update]

theorem commit_loop (l : List (Key × Nat)) (hd : (l.map Prod.snd).Nodup) : ∀ s : MountGen.State σ,
    let s' := l.foldl (fun (s : MountGen.State σ) m => s.update m.2 (I.commit (s.gens m.2))) s
    s'.mounts = s.mounts ∧ (∀ m ∈ l, s'.gens m.2 = I.commit (s.gens m.2)) ∧ ∀ n, (∀ m ∈ l, m.2 ≠ n) → s'.gens n = s.gens n := by
  induction l with
  | nil => intro s; exact ⟨rfl, (fun m hm => by cases hm), fun n _ => rfl⟩
  | cons x l ih =>
    intro s
    rw [List.map_cons, List.nodup_cons] at hd
    obtain ⟨h1, h2, h3⟩ := ih hd.2 (s.update x.2 (I.commit (s.gens x.2)))
    have hx : ∀ m ∈ l, m.2 ≠ x.2 := fun m hm h => hd.1 (h ▸ List.mem_map_of_mem hm)
    rw [List.foldl_cons]
    refine ⟨h1, fun m hm => ?_, fun n hn => ?_⟩
    · rcases List.mem_cons.mp hm with rfl | hm
      · rw [h3 _ hx]; simp [MountGen.State.update]
      · rw [h2 m hm]; simp [MountGen.State.update, hx m hm]
    · rw [h3 n fun m hm => hn m (by simp [hm])]
      have : n ≠ x.2 := fun h => hn x (by simp) h.symm
      simp [MountGen.State.update, this]

theorem refresh_loop (l : List (Key × Nat)) (hd : (l.map Prod.snd).Nodup) : ∀ s : MountGen.State σ,
    (MountGen.refreshLoop I s l).1.mounts = s.mounts ∧
    ((MountGen.refreshLoop I s l).2 = true ↔ ∀ m ∈ l, (I.refresh (s.gens m.2)).2 = true) ∧
    (∀ a m b, l = a ++ m :: b → (MountGen.refreshLoop I s l).1.gens m.2 =
      if ∀ x ∈ a, (I.refresh (s.gens x.2)).2 = true then (I.refresh (s.gens m.2)).1 else s.gens m.2) ∧
    ∀ n, (∀ m ∈ l, m.2 ≠ n) → (MountGen.refreshLoop I s l).1.gens n = s.gens n := by
  induction l with
  | nil => intro s; exact ⟨rfl, by simp [MountGen.refreshLoop], fun a m b h => by simp at h, fun n _ => rfl⟩
  | cons x l ih =>
    intro s
    rw [List.map_cons, List.nodup_cons] at hd
    have hx : ∀ m ∈ l, m.2 ≠ x.2 := fun m hm h => hd.1 (h ▸ List.mem_map_of_mem hm)
    have hg : ∀ m ∈ l, (s.update x.2 (I.refresh (s.gens x.2)).1).gens m.2 = s.gens m.2 := by
      intro m hm; simp [MountGen.State.update, hx m hm]
    rw [MountGen.refreshLoop]
    cases hr : (I.refresh (s.gens x.2)).2 with
    | true =>
      simp only [if_true]
      obtain ⟨h1, h2, h3, h4⟩ := ih hd.2 (s.update x.2 (I.refresh (s.gens x.2)).1)
      refine ⟨h1, ?_, ?_, ?_⟩
      · rw [h2, List.forall_mem_cons]
        simp only [hr, true_and]
        exact forall_congr' fun m => imp_congr_right fun hm => by rw [hg m hm]
      · intro a m b he
        cases a with
        | nil =>
          simp only [List.nil_append, List.cons.injEq] at he
          obtain ⟨rfl, rfl⟩ := he
          rw [h4 _ hx]
          simp [MountGen.State.update]
        | cons y a =>
          simp only [List.cons_append, List.cons.injEq] at he
          obtain ⟨rfl, he⟩ := he
          have hma : ∀ z ∈ a, z ∈ l := fun z hz => by rw [he]; simp [hz]
          have hml : m ∈ l := by rw [he]; simp
          rw [h3 a m b he, hg m hml]
          have : (∀ z ∈ a, (I.refresh ((s.update x.2 (I.refresh (s.gens x.2)).1).gens z.2)).2 = true) ↔
              ∀ z ∈ x :: a, (I.refresh (s.gens z.2)).2 = true := by
            rw [List.forall_mem_cons]
            simp only [hr, true_and]
            exact forall_congr' fun z => imp_congr_right fun hz => by rw [hg z (hma z hz)]
          simp only [this]
      · intro n hn
        rw [h4 n fun m hm => hn m (by simp [hm])]
        have : n ≠ x.2 := fun h => hn x (by simp) h.symm
        simp [MountGen.State.update, this]
    | false =>
      simp only [Bool.false_eq_true, if_false, false_iff]
      refine ⟨rfl, fun h => absurd (h x (by simp)) (by simp [hr]), ?_, ?_⟩
      · intro a m b he
        cases a with
        | nil =>
          simp only [List.nil_append, List.cons.injEq] at he
          obtain ⟨rfl, rfl⟩ := he
          simp [MountGen.State.update]
        | cons y a =>
          simp only [List.cons_append, List.cons.injEq] at he
          obtain ⟨rfl, he⟩ := he
          have hml : m ∈ l := by rw [he]; simp
          rw [hg m hml, if_neg]
          intro h
          have := h x (by simp); rw [hr] at this; cases this
      · intro n hn
        have : n ≠ x.2 := fun h => hn x (by simp) h.symm
        simp [MountGen.State.update, this]

end Mounts

/-- Setting several keys at once: each mounted generator is given, in the order they came, exactly the pairs whose key it is the newest
    mount to cover, with the rest of the key; no other generator is touched. This is so in whatever order the mounts are in the
    hash table. -/
theorem C27_setv (s : MountGen.State σ) (t : Table) (hs : s.mounts = keys t) (ht : Plain t) (hd : (t.map Prod.snd).Nodup)
    (order : List Nat) (ho : order.Perm (List.range t.length)) (l : List (Text × Option Text)) :
    let s' := MountGen.setv I order s (l.map fun p => (Key.parse p.1, p.2))
    s'.mounts = s.mounts ∧
    (∀ m ∈ t, s'.gens m.2 = I.setv (s.gens m.2)
      ((l.filter fun p => decide (newest t p.1 = some m)).map fun p => (Key.parse (rest p.1 (Spec.Path.names m.1).length), p.2))) ∧
    ∀ n, (∀ m ∈ t, m.2 ≠ n) → s'.gens n = s.gens n := by
  obtain ⟨h1, h2, h3⟩ := setv_loop I t hd (l.map fun p => (Key.parse p.1, p.2)) order (ho.nodup_iff.mpr List.nodup_range) s hs
  refine ⟨h1.trans hs.symm, fun m hm => ?_, h3⟩
  obtain ⟨i, hi⟩ := List.mem_iff_getElem?.mp hm
  have hlt : i < t.length := (List.getElem?_eq_some_iff.mp hi).1
  rw [h2 i m hi, if_pos (ho.mem_iff.mpr (List.mem_range.mpr hlt)), pairsFor_eq t ht hd i m hi]

/-- Commit commits every mounted generator, each once, and no other. -/
theorem C27_commit (s : MountGen.State σ) (hd : (s.mounts.map Prod.snd).Nodup) :
    (MountGen.commit I s).mounts = s.mounts ∧
    (∀ m ∈ s.mounts, (MountGen.commit I s).gens m.2 = I.commit (s.gens m.2)) ∧
    ∀ n, (∀ m ∈ s.mounts, m.2 ≠ n) → (MountGen.commit I s).gens n = s.gens n :=
  commit_loop I s.mounts hd s

/-- Refresh says whether all mounted generators refresh; it refreshes, each once, those mounted no earlier than the newest one that
    fails, and no others. -/
theorem C27_refresh (s : MountGen.State σ) (hd : (s.mounts.map Prod.snd).Nodup) :
    (MountGen.refresh I s).1.mounts = s.mounts ∧
    ((MountGen.refresh I s).2 = true ↔ ∀ m ∈ s.mounts, (I.refresh (s.gens m.2)).2 = true) ∧
    (∀ newer m older, s.mounts = newer ++ m :: older → (MountGen.refresh I s).1.gens m.2 =
      if ∀ x ∈ newer, (I.refresh (s.gens x.2)).2 = true then (I.refresh (s.gens m.2)).1 else s.gens m.2) ∧
    ∀ n, (∀ m ∈ s.mounts, m.2 ≠ n) → (MountGen.refresh I s).1.gens n = s.gens n :=
  refresh_loop I s.mounts hd s

/-- Two mounts, one within the other, satisfy the hypotheses; both get pairs. -/
example : Plain [(str ['a', '/', 'b'], 1), (str ['a'], 0)] ∧ (([(str ['a', '/', 'b'], 1), (str ['a'], 0)] : Table).map Prod.snd).Nodup ∧
    [1, 0].Perm (List.range ([(str ['a', '/', 'b'], 1), (str ['a'], 0)] : Table).length) ∧
    newest [(str ['a', '/', 'b'], 1), (str ['a'], 0)] (str ['a', '/', 'b', '/', 'c']) = some (str ['a', '/', 'b'], 1) ∧
    newest [(str ['a', '/', 'b'], 1), (str ['a'], 0)] (str ['a', '/', 'x']) = some (str ['a'], 0) := by
  refine ⟨by unfold Plain; decide +kernel, by decide, by decide, by decide +kernel, by decide +kernel⟩

/-! ### What does not hold -/

/-- `get` and `exists` may disagree: below a key that was removed again something may be mounted. -/
theorem C27_exists_fails : ¬ ∀ (s : MountGen.State TempGen.Gen) (k : Text),
    MountGen.exists (IGen.temp id) s (Key.parse k) = (MountGen.get (IGen.temp id) s (Key.parse k)).isSome := by
  intro h
  have := h ⟨keys [(str ['a', '/', 'b'], 1), ([], 0)], fun _ => TempGen.new⟩ (str ['a'])
  revert this; decide +kernel

/-- When a generator fails to refresh, those mounted before it are not refreshed. Here a generator is its number of refreshes, and they
    all fail. -/
def counting : IGen Nat where
  get := fun _ _ => none
  «exists» := fun _ _ => true
  haschildren := fun _ _ => false
  iterator := fun _ _ => none
  set := fun s _ _ => s
  setv := fun s _ => s
  commit := fun s => s
  refresh := fun s => (s + 1, false)
  prefetch := fun s _ _ => s
  flush := fun s => s

theorem C27_refresh_fails : ¬ ∀ (s : MountGen.State Nat) (m : Key × Nat), m ∈ s.mounts →
    (MountGen.refresh counting s).1.gens m.2 ≠ s.gens m.2 := by
  intro h
  exact h ⟨keys [(str ['a'], 1), (str ['b'], 0)], fun _ => 0⟩ (Key.parse (str ['b']), 0) (by simp [keys]) (by decide +kernel)

/-- The values an iterator over something no mount covers shows are not those of the keys it lists. -/
theorem C27_iterator_value_fails : ¬ ∀ (s : MountGen.State TempGen.Gen) (k n : Text) (v : Option TempGen.Value)
    (r : List (Key × Option TempGen.Value)),
    MountGen.iterator (IGen.temp id) s (Key.parse k) = some r → (Key.parse n, v) ∈ r →
    v = MountGen.get (IGen.temp id) s (Key.parse (k ++ ch '/' :: n)) := by
  intro h
  have := h ⟨keys [(str ['a', '/', 'b'], 0)], fun _ => (TempGen.set id TempGen.new [] (some (str ['1']))).1⟩ (str ['a']) (str ['b']) none
    [([str ['b']], none)] (by decide +kernel) (by decide +kernel)
  revert this; decide +kernel

/-- A change of the root of a mounted generator is notified with a slash after the mount point, not as a change of the mount point. -/
theorem C27_notify_fails : ¬ ∀ p : Text, Spec.Path.dir p = false → MountGen.callbackKey (Key.parse p) [] = Key.parse p := by
  intro h
  have := h (str ['a']) (by decide +kernel)
  revert this; decide +kernel

/-- Changes of other keys are notified with the key they have here. -/
theorem C27_notify (p k : Text) (hk : Spec.Path.names k ≠ []) (hp : Spec.Path.dir p = false) :
    MountGen.callbackKey (Key.parse p) (Key.parse k) = Key.parse (p ++ Spec.Path.slash :: k) ∧
    MountGen.trimkey (Key.parse p) (MountGen.callbackKey (Key.parse p) (Key.parse k)) = Key.parse k := by
  have h1 : MountGen.callbackKey (Key.parse p) (Key.parse k) = Key.parse (p ++ Spec.Path.slash :: k) := C19_join_text p k
  refine ⟨h1, ?_⟩
  rw [h1, trim_eq p _ hp, C19_parse_same]
  have hn := Key.names_ok k
  have hlt : (Spec.Path.names p).length < (Spec.Path.names (p ++ Spec.Path.slash :: k)).length := by
    rw [Key.names_append, List.length_append]
    have := List.length_pos_iff.mpr hk
    omega
  constructor
  · unfold rest
    rw [Key.names_write _ _ ((Key.names_ok _).drop _), Key.names_append, List.drop_left]
  · rw [dir_rest, dir_append p k hk]
    simp [hlt]

example : Spec.Path.names (str ['b', '/', 'c']) ≠ [] := by decide +kernel

end
end Props
