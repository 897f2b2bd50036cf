import Verif.Lemmas.TransApply
import Verif.Spec.Trans
import Verif.Props.FilterGen
/- C28: transactions. -/
namespace Props
open Wv Wv.TempGen Wv.TransGen Spec.Conf Gens
open Wv.Key (fold Names)
open Spec.Trans (St Ev view)

namespace Transact

/-- A history of a transaction over a generator: each write comes with the orders in which the hash tables are iterated. -/
inductive Op where
  | set (k : Text) (v : Option Text) (ord : List CTree → List CTree) (ordv : List Tree → List Tree)
  | commit
  | refresh
  | below (k : Text) (v : Option Text)

/-- What it is in the specification. -/
def ev : Op → Ev
  | .set k v _ _ => .set k v
  | .commit => .commit
  | .refresh => .refresh
  | .below k v => .below k v

/-- Doing it. -/
def exec {σ : Type} (I : IGen σ) (g : Trans σ) : Op → Trans σ
  | .set k v ord ordv => TransGen.set ord ordv g (Key.parse k) v
  | .commit => TransGen.commit I g
  | .refresh => (TransGen.refresh I g).1
  | .below k v => { g with base := I.set g.base (Key.parse k) v }

/-- Orders are permutations, and keys that are written to through the transaction do not end in a slash. -/
def Fine : Op → Prop
  | .set k _ ord ordv => Spec.Path.dir k = false ∧ (∀ l, (ord l).Perm l) ∧ ∀ l, (ordv l).Perm l
  | _ => True

/-- What the changes make of a configuration. -/
def make : Option CTree → State → State
  | none, s => s
  | some r, s => Tr.den r s

theorem run_append (m : State) (a b : List (Text × Option Text)) : run m (a ++ b) = run (run m a) b := by
  induction a generalizing m with
  | nil => rfl
  | cons x a ih => obtain ⟨k, v⟩ := x; exact ih _

/-- A transaction is in a state of the specification. -/
structure Is {σ : Type} (Rep : σ → State → Prop) (g : Trans σ) (s : St) : Prop where
  base : Rep g.base s.base
  good : ∀ r, g.root = some r → Tr.CGood r
  pending : ∀ m, make g.root m = run m s.pending

theorem new_is {σ : Type} (Rep : σ → State → Prop) (b : σ) (m : State) (h : Rep b m) : Is Rep (TransGen.new b) ⟨m, []⟩ :=
  ⟨h, by simp [TransGen.new], fun _ => rfl⟩

theorem segments_dir (k : Text) (h : Spec.Path.dir k = false) : segments (Key.parse k) = ones (Spec.Path.names k) := by
  rw [Tr.segments_parse, h]; simp [Tr.segs]

theorem exec_is {σ : Type} (I : IGen σ) (Rep : σ → State → Prop) (B : Behaves I Rep) (C : ∀ s m, Rep s m → Tr.Closed m)
    (g : Trans σ) (s : St) (h : Is Rep g s) (o : Op) (ho : Fine o) : Is Rep (exec I g o) (Spec.Trans.step s (ev o)) := by
  cases o with
  | set k v ord ordv =>
    obtain ⟨hd, ho, hov⟩ := ho
    have hn := Key.names_ok k
    have ht : Key.hastrailingslash (Key.parse k) = false := by rw [Key.parse_eq, Key.trailing_mk _ _ hn, hd]
    have hpend : ∀ (r' : CTree), (∀ m q, Tr.den r' m q = Tr.change (make g.root m) (fold (Spec.Path.names k)) v q) →
        ∀ m, Tr.den r' m = run m (s.pending ++ [(k, v)]) := by
      intro r' hr m
      funext q
      rw [hr, h.pending, run_append, ← place_eq, ← Tr.set_eq _ _ hd]
      rfl
    simp only [exec, TransGen.set]
    cases hr : g.root with
    | none =>
      rw [ht, segments_dir k hd]
      simp only [Bool.false_and, Bool.false_eq_true, if_false]
      obtain ⟨c1, _, _, c4⟩ := Tr.createChange_spec v _ hn []
      rw [hr] at hpend
      exact ⟨h.base, by rintro r ⟨⟩; exact c1, hpend _ c4⟩
    | some r =>
      simp only []
      rw [ht, segments_dir k hd]
      obtain ⟨c1, _, _, c4⟩ := Tr.setChange_spec ord ordv ho hov v _ hn [] r (h.good r hr)
      rw [hr] at hpend
      exact ⟨h.base, by rintro r ⟨⟩; exact c1, hpend _ c4⟩
  | commit =>
    simp only [exec, TransGen.commit]
    cases hr : g.root with
    | none =>
      have e : ∀ m, run m s.pending = m := by
        intro m; rw [← h.pending m, hr]; rfl
      refine ⟨?_, h.good, ?_⟩
      · show Rep g.base (run s.base s.pending)
        rw [e]; exact h.base
      · intro m; rw [hr]; rfl
    | some r =>
      refine ⟨?_, by simp, fun _ => rfl⟩
      have h1 := Tr.applyChanges_spec I Rep B C [] (by intro x hx; simp at hx) r (h.good r hr) g.base s.base h.base
        (Or.inr (by intro p hp hp'; exact absurd (List.prefix_nil.mp hp) hp'))
      have h2 := B.commit _ _ h1
      have e : Tr.graft s.base (fold []) (Tr.den r fun q => s.base (fold [] ++ q)) = run s.base s.pending := by
        rw [← h.pending s.base, hr]
        funext q
        simp [Tr.graft, fold, make]
      rw [e] at h2
      exact h2
  | refresh => exact ⟨B.refresh _ _ h.base, by simp [exec, TransGen.refresh], fun _ => rfl⟩
  | below k v => exact ⟨B.set _ _ h.base k v, h.good, h.pending⟩

theorem execs_is {σ : Type} (I : IGen σ) (Rep : σ → State → Prop) (B : Behaves I Rep) (C : ∀ s m, Rep s m → Tr.Closed m)
    (os : List Op) : ∀ (g : Trans σ) (s : St), Is Rep g s → (∀ o ∈ os, Fine o) →
    Is Rep (os.foldl (exec I) g) ((os.map ev).foldl Spec.Trans.step s) := by
  induction os with
  | nil => intro g s h _; exact h
  | cons o os ih =>
    intro g s h ho
    exact ih _ _ (exec_is I Rep B C g s h o (ho o (by simp))) fun x hx => ho x (by simp [hx])

theorem is_get {σ : Type} (I : IGen σ) (Rep : σ → State → Prop) (B : Behaves I Rep) (g : Trans σ) (s : St) (h : Is Rep g s)
    (k : Text) (hd : Spec.Path.dir k = false) : TransGen.get I g (Key.parse k) = Spec.Conf.get (view s) k := by
  have hb := (B.reads _ _ h.base).get k
  have hp := h.pending s.base
  simp only [Spec.Conf.get, hd, view, ← hp] at hb ⊢
  unfold TransGen.get
  cases hr : g.root with
  | none => exact hb
  | some r =>
    simp only []
    rw [segments_dir k hd, Tr.getLoop_spec I g.base _ _ (Key.names_ok k) r s.base (by rw [hb, place_eq]; rfl), place_eq]
    rfl

theorem is_iterator {σ : Type} (I : IGen σ) (Rep : σ → State → Prop) (B : Behaves I Rep) (g : Trans σ) (s : St) (h : Is Rep g s)
    (k : Text) : Tr.Lists (TransGen.iterator I g (Key.parse k)) (fun q => view s (place k ++ q)) := by
  have hb := Tr.reads_lists (B.reads _ _ h.base) k
  have hp := h.pending s.base
  simp only [view, ← hp]
  unfold TransGen.iterator
  cases hr : g.root with
  | none => exact hb
  | some r =>
    simp only []
    rw [Tr.segments_parse]
    rw [place_eq] at hb ⊢
    refine Tr.iterLoop_spec I g.base _ _ _ (Key.names_ok k) r s.base (h.good r hr) hb ?_
    intro n hn
    have hnn : Names [n] := by intro x hx; simp only [List.mem_singleton] at hx; subst hx; exact hn
    have hj : Key.join (Key.parse k) [n] = Spec.Path.names k ++ [n] := by
      have := Key.join_mk (Spec.Path.names k) [n] (Spec.Path.dir k) false (Key.names_ok k) hnn (Tr.nd _)
      rw [← Key.parse_eq, Tr.mk_false] at this
      rw [this]
      simp [Key.mk]
    rw [hj, Tr.bget I Rep B g.base s.base h.base _ ((Key.names_ok k).append hnn)]
    simp [fold]

theorem is_haschildren {σ : Type} (I : IGen σ) (Rep : σ → State → Prop) (B : Behaves I Rep) (g : Trans σ) (s : St) (h : Is Rep g s)
    (k : Text) : TransGen.haschildren I g (Key.parse k) = true ↔ ∃ n, view s (place k ++ [n]) ≠ none := by
  have hl := is_iterator I Rep B g s h k
  unfold TransGen.haschildren
  cases hi : TransGen.iterator I g (Key.parse k) with
  | none =>
    rw [hi] at hl
    have hl : ∀ q, view s (place k ++ q) = none := hl
    simp [hl]
  | some l =>
    rw [hi] at hl
    obtain ⟨_, h2, h3⟩ := hl
    simp only [Bool.not_eq_true', List.isEmpty_eq_false_iff]
    constructor
    · intro hne
      obtain ⟨x, hx⟩ := List.exists_mem_of_ne_nil l hne
      obtain ⟨⟨n, hn, _⟩, hv⟩ := h2 x hx
      obtain ⟨v, hv⟩ := Option.ne_none_iff_exists'.mp hv
      refine ⟨n.map tolower, ?_⟩
      have : view s (place k ++ [n.map tolower]) = some v := (h3 (n.map tolower) v).mpr ⟨x, hx, by rw [hn]; rfl, hv⟩
      rw [this]; simp
    · rintro ⟨n, hn⟩ rfl
      obtain ⟨v, hv⟩ := Option.ne_none_iff_exists'.mp hn
      obtain ⟨x, hx, _⟩ := (h3 n v).mp hv
      simp at hx

/-- What can be read of a transaction is a configuration: as `Reads`, but `get` and `exists` only of keys without a slash at
    the end. -/
structure Shows {σ : Type} (I : IGen σ) (s : σ) (m : State) : Prop where
  get : ∀ k : Text, Spec.Path.dir k = false → I.get s (Key.parse k) = Spec.Conf.get m k
  exists_ : ∀ k : Text, Spec.Path.dir k = false → (I.exists s (Key.parse k) = true ↔ Spec.Conf.get m k ≠ none)
  haschildren : ∀ k : Text, I.haschildren s (Key.parse k) = true ↔ ∃ n, m (place k ++ [n]) ≠ none
  iterator : ∀ k : Text, match I.iterator s (Key.parse k) with
    | none => ∀ q, m (place k ++ q) = none
    | some r => (r.map fun x => fold x.1).Nodup ∧
        (∀ x ∈ r, (∃ n : Seg, x.1 = [n] ∧ n ≠ [] ∧ Spec.Path.slash ∉ n) ∧ x.2 ≠ none) ∧
        ∀ n v, m (place k ++ [n]) = some v ↔ ∃ x ∈ r, fold x.1 = [n] ∧ x.2 = some v

end Transact
open Transact

/-- A transaction over any generator that behaves as a configuration in which nothing is below what does not exist. After any
    history of writes through it, of commits and refreshes, and of writes of others to the generator below: the generator below
    holds what it should by the specification, so uncommitted writes are not in it and committed ones are, all of them, on top of
    what others wrote; what is read through the transaction is the configuration below with the uncommitted writes made on top of
    it. Not so for keys with a slash at their end, see below. -/
theorem C28_transactions_partial {σ : Type} (I : IGen σ) (Rep : σ → Spec.Conf.State → Prop) (B : Behaves I Rep)
    (C : ∀ s m, Rep s m → ∀ p q : Place, m p = none → p <+: q → m q = none) (b : σ) (m : Spec.Conf.State) (hb : Rep b m)
    (os : List Op) (ho : ∀ o ∈ os, Fine o) (ord ordv) :
    Rep (os.foldl (exec I) (TransGen.new b)).base ((os.map ev).foldl Spec.Trans.step ⟨m, []⟩).base ∧
    Shows (TransGen.gen I ord ordv) (os.foldl (exec I) (TransGen.new b)) (view ((os.map ev).foldl Spec.Trans.step ⟨m, []⟩)) := by
  have h := execs_is I Rep B C os _ _ (new_is Rep b m hb) ho
  refine ⟨h.base, ⟨is_get I Rep B _ _ h, ?_, is_haschildren I Rep B _ _ h, is_iterator I Rep B _ _ h⟩⟩
  intro k hd
  show (TransGen.get I _ _).isSome = true ↔ _
  rw [is_get I Rep B _ _ h k hd, Option.isSome_iff_ne_none]

/-- Before a commit the generator below is not touched by the transaction. -/
theorem C28_isolated {σ : Type} (I : IGen σ) (g : Trans σ) (ws : List (Key × Option Value × (List CTree → List CTree) × (List Tree → List Tree))) :
    (ws.foldl (fun g w => TransGen.set w.2.2.1 w.2.2.2 g w.1 w.2.1) g).base = g.base := by
  induction ws generalizing g with
  | nil => rfl
  | cons w ws ih =>
    rw [List.foldl_cons, ih]
    unfold TransGen.set
    cases g.root with
    | none => simp only []; split <;> rfl
    | some r => rfl

/-- The in-memory generator is one it can be over. -/
theorem temp_closed (g : TempGen.Gen) (m : Spec.Conf.State) (h : Temp.Holds g m) (p q : Place) (hp : m p = none) (hq : p <+: q) :
    m q = none := by
  rw [← h.2] at hp ⊢
  cases hr : g.root with
  | none => rfl
  | some t => rw [hr] at hp; exact Temp.look_prefix t p q hp hq

/-- a/b := 1, then x := 2 below, then a := removed, a/c := 3; commit; then x := removed. -/
def sampleOps : List Op :=
  [.set (str ['a', '/', 'b']) (some (str ['1'])) id List.reverse, .below (str ['x']) (some (str ['2'])),
   .set (str ['A']) none List.reverse id, .set (str ['a', '/', 'c']) (some (str ['3'])) id id, .commit, .set (str ['x']) none id id]

theorem sampleOps_fine : ∀ o ∈ sampleOps, Fine o := by
  intro o ho
  simp only [sampleOps, List.mem_cons, List.not_mem_nil, or_false] at ho
  rcases ho with rfl | rfl | rfl | rfl | rfl | rfl <;>
    first | trivial | exact ⟨by decide +kernel, fun l => by first | exact List.Perm.refl _ | exact List.reverse_perm _,
      fun l => by first | exact List.Perm.refl _ | exact List.reverse_perm _⟩

example := C28_transactions_partial (IGen.temp List.reverse) Temp.Holds (temp_behaves _ fun l => List.reverse_perm l) temp_closed
  sampleGen _ sampleGen_holds sampleOps sampleOps_fine id id

/-- What is there afterwards. -/
def sampleTrans : Trans TempGen.Gen := sampleOps.foldl (exec (IGen.temp id)) (TransGen.new TempGen.new)

example : TempGen.get sampleTrans.base [str ['x']] = some (str ['2']) ∧ TransGen.get (IGen.temp id) sampleTrans [str ['x']] = none ∧
    TempGen.get sampleTrans.base [str ['a'], str ['b']] = none ∧
    TransGen.get (IGen.temp id) sampleTrans [str ['a'], str ['c']] = some (str ['3']) ∧
    TransGen.iterator (IGen.temp id) sampleTrans [] = some [([str ['a']], some [])] := by
  decide +kernel

/-- A key with a slash at its end has no value, but a transaction that has a value for the key without it gives that one. -/
theorem C28_get_slash_fails : ¬ ∀ (os : List Op) (k : Text),
    TransGen.get (IGen.temp id) (os.foldl (exec (IGen.temp id)) (TransGen.new TempGen.new)) (Key.parse k) =
      Spec.Conf.get (view ((os.map ev).foldl Spec.Trans.step ⟨Spec.Conf.empty, []⟩)) k := by
  intro h
  have := h [.set (str ['a']) (some (str ['1'])) id id] (str ['a', '/'])
  revert this; decide +kernel

/-- Writing to such a key does nothing, except in a transaction that has changes for the key without the slash. -/
theorem C28_set_slash_fails : ¬ ∀ (os : List Op) (k : Text), Spec.Path.dir k = false →
    TransGen.get (IGen.temp id) (os.foldl (exec (IGen.temp id)) (TransGen.new TempGen.new)) (Key.parse k) =
      Spec.Conf.get (view ((os.map ev).foldl Spec.Trans.step ⟨Spec.Conf.empty, []⟩)) k := by
  intro h
  have := h [.set (str ['a']) (some (str ['1'])) id id, .set (str ['a', '/']) (some (str ['2'])) id id] (str ['a']) (by decide +kernel)
  revert this; decide +kernel

/-- Removing such a key is not seen through the transaction, but the commit does it: what was seen is not what is committed. -/
theorem C28_commit_slash_fails : ¬ ∀ (os : List Op) (k : Key),
    TransGen.get (IGen.temp id) (TransGen.commit (IGen.temp id) (os.foldl (exec (IGen.temp id)) (TransGen.new TempGen.new))) k =
      TransGen.get (IGen.temp id) (os.foldl (exec (IGen.temp id)) (TransGen.new TempGen.new)) k := by
  intro h
  have := h [.set (str ['a']) (some (str ['1'])) id id, .commit, .set (str ['a', '/']) none id id] [str ['a']]
  revert this; decide +kernel

end Props
