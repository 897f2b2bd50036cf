import Verif.Model.IGen
import Verif.Props.TempGen
import Verif.Props.Key
/- What it is for a generator to hold a configuration; the in-memory generator does. -/
namespace Props.Gens
open Wv Spec.Conf
open Wv.Key (fold)

/-- What a generator shows is a given configuration: `get`, `exists`, `haschildren` and `iterator`, for all keys. An iterator lists
    what is one below the key, each name once, in any order; if it is null there is nothing at or below the key. -/
structure Reads {σ : Type} (I : IGen σ) (s : σ) (m : Spec.Conf.State) : Prop where
  get : ∀ k : Text, I.get s (Key.parse k) = Spec.Conf.get m k
  exists_ : ∀ k : Text, I.exists s (Key.parse k) = true ↔ Spec.Conf.get m k ≠ none
  haschildren : ∀ k : Text, I.haschildren s (Key.parse k) = true ↔ ∃ n, m (place k ++ [n]) ≠ none
  iterator : ∀ k : Text, match I.iterator s (Key.parse k) with
    | none => ∀ q, m (place k ++ q) = none
    | some r => (r.map fun x => fold x.1).Nodup ∧
        (∀ x ∈ r, (∃ n : Seg, x.1 = [n] ∧ n ≠ [] ∧ Spec.Path.slash ∉ n) ∧ x.2 ≠ none) ∧
        ∀ n v, m (place k ++ [n]) = some v ↔ ∃ x ∈ r, fold x.1 = [n] ∧ x.2 = some v

/-- A generator behaves as a configuration: its states stand for configurations, shows them, and `set` changes them as it should;
    the other calls change nothing. -/
structure Behaves {σ : Type} (I : IGen σ) (Rep : σ → Spec.Conf.State → Prop) : Prop where
  reads : ∀ s m, Rep s m → Reads I s m
  set : ∀ s m, Rep s m → ∀ (k : Text) v, Rep (I.set s (Key.parse k) v) (Spec.Conf.set m k v)
  commit : ∀ s m, Rep s m → Rep (I.commit s) m
  refresh : ∀ s m, Rep s m → Rep (I.refresh s).1 m
  prefetch : ∀ s m, Rep s m → ∀ k r, Rep (I.prefetch s k r) m
  flush : ∀ s m, Rep s m → Rep (I.flush s) m

/-- `setv` is some calls of `set`. -/
def SetsAll {σ : Type} (I : IGen σ) (Rep : σ → Spec.Conf.State → Prop) : Prop :=
  ∀ s m, Rep s m → ∀ l : List (Text × Option Text), Rep (I.setv s (l.map fun x => (Key.parse x.1, x.2))) (Spec.Conf.run m l)

theorem temp_reads (ord) (g : TempGen.Gen) (m : Spec.Conf.State) (h : Temp.Holds g m) : Reads (IGen.temp ord) g m where
  get := Temp.get_holds g m h
  exists_ := Temp.exists_holds g m h
  haschildren := Temp.haschildren_holds g m h
  iterator := by
    intro k
    have := Temp.iterator_holds g m h k
    have e : (IGen.temp ord).iterator g (Key.parse k) = (TempGen.iterator g (Key.parse k)).map fun l => l.map fun x => (x.1, some x.2) := rfl
    rw [e]
    cases hi : TempGen.iterator g (Key.parse k) with
    | none => rw [hi] at this; exact this
    | some r =>
      rw [hi] at this
      obtain ⟨_, h2, h3, h4⟩ := this
      simp only [Option.map_some]
      refine ⟨by rw [List.map_map]; exact h2, ?_, ?_⟩
      · intro x hx
        obtain ⟨y, hy, rfl⟩ := List.mem_map.mp hx
        exact ⟨h3 y hy, by simp⟩
      · intro n v
        rw [h4]
        constructor
        · rintro ⟨x, hx, h5, rfl⟩; exact ⟨_, List.mem_map.mpr ⟨x, hx, rfl⟩, h5, rfl⟩
        · rintro ⟨x, hx, h5, h6⟩
          obtain ⟨y, hy, rfl⟩ := List.mem_map.mp hx
          exact ⟨y, hy, h5, by simpa using h6⟩

/-- The in-memory generator behaves as a configuration. -/
theorem temp_behaves (ord) (ho : ∀ l, (ord l).Perm l) : Behaves (IGen.temp ord) Temp.Holds where
  reads := fun g m h => temp_reads ord g m h
  set := fun g m h k v => (Temp.call_spec g m h ⟨k, v, ord, ho⟩).1
  commit := fun _ _ h => h
  refresh := fun _ _ h => h
  prefetch := fun _ _ h _ _ => h
  flush := fun _ _ h => h

theorem temp_setsAll (ord) (ho : ∀ l, (ord l).Perm l) : SetsAll (IGen.temp ord) Temp.Holds := by
  intro g m h l
  show Temp.Holds (IGen.setvNaive _ g _) _
  induction l generalizing g m with
  | nil => exact h
  | cons x l ih =>
    obtain ⟨k, v⟩ := x
    exact ih _ _ ((temp_behaves ord ho).set g m h k v)

theorem names_empty (k : Text) : (Key.isempty (Key.parse k) = true) ↔ Spec.Path.names k = [] := by
  rw [Key.parse_eq, Key.isempty_mk _ _ (Key.dir_names k)]; simp

theorem place_append (s t : Text) : place (s ++ Spec.Path.slash :: t) = place s ++ place t := by
  simp [place, Key.names_append]

theorem dir_append (s t : Text) (h : Spec.Path.names t ≠ []) : Spec.Path.dir (s ++ Spec.Path.slash :: t) = Spec.Path.dir t := by
  have ht : t ≠ [] := by rintro rfl; simp [Key.names_nil] at h
  unfold Spec.Path.dir
  rw [Key.names_append, List.getLast?_append, List.getLast?_cons]
  have h1 : (Spec.Path.names s ++ Spec.Path.names t).isEmpty = false := by
    cases hn : Spec.Path.names t with
    | nil => exact absurd hn h
    | cons a l => simp
  have h2 : (Spec.Path.names t).isEmpty = false := by
    cases hn : Spec.Path.names t with
    | nil => exact absurd hn h
    | cons a l => simp
  rw [h1, h2]
  obtain ⟨c, hc⟩ : ∃ c, t.getLast? = some c := by
    cases hl : t.getLast? with
    | none => simp at hl; exact absurd hl ht
    | some c => exact ⟨c, rfl⟩
  simp [hc]

end Props.Gens
