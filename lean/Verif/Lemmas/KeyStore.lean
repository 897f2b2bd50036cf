import Verif.Model.KeyStore
import Verif.Spec.Keys
import Verif.Lemmas.Key
/-
Lemmas about the shared stores of keys: the invariant of the memory and the keys that use it.
-/
namespace Lemmas.KeyStore
open Wv Wv.KeyStore

/-- A key is a range of what its store uses. -/
def Ok (m : Mem) (k : K) : Prop := ∃ s, fetch m k.store = some s ∧ k.left ≤ k.right ∧ k.right ≤ s.used

/-- The keys that use a store. -/
def uses (id : Nat) (ks : List K) : Nat := ks.countP fun k => decide (k.store = id)

/-- The invariant: references are counted, EMPTY_store having two more. -/
structure Inv (m : Mem) (ks : List K) : Prop where
  ok : ∀ k ∈ ks, Ok m k
  counts : ∀ id s, fetch m id = some s → s.refs = uses id ks + (if id = 0 then 2 else 0) ∧ 0 < s.refs
  shape : ∀ id s, fetch m id = some s → s.used ≤ s.vec.length
  zero : ∃ s, fetch m 0 = some s

/-- What an operation on a key gives: the key is there with the value `x` and nothing else changed. -/
def Result (m : Mem) (ks : List K) (r : Option (Mem × K)) (x : Key) : Prop :=
  ∃ m' k, r = some (m', k) ∧ Inv m' (k :: ks) ∧ value m' k = some x ∧ ∀ o ∈ ks, value m' o = value m o

theorem get_lt {m : Mem} {id : Nat} {s : Store} (h : fetch m id = some s) : id < m.length := by
  refine Decidable.byContradiction fun hn => ?_
  unfold fetch at h
  rw [List.getElem?_eq_none (by omega)] at h
  cases h

theorem get_put_self {m : Mem} {id : Nat} (h : id < m.length) (s : Option Store) : fetch (put m id s) id = s := by
  unfold fetch put
  rw [List.getElem?_set_self h]; rfl

theorem get_put_ne (m : Mem) {id j : Nat} (h : j ≠ id) (s : Option Store) : fetch (put m id s) j = fetch m j := by
  unfold fetch put
  rw [List.getElem?_set_ne (Ne.symm h)]

theorem put_put (m : Mem) (id : Nat) (a b : Option Store) : put (put m id a) id b = put m id b := List.set_set ..

theorem get_push_lt (m : Mem) (s : Option Store) {id : Nat} (h : id < m.length) : fetch (m ++ [s]) id = fetch m id := by
  unfold fetch
  rw [List.getElem?_append_left h]

theorem get_push_self (m : Mem) (s : Option Store) : fetch (m ++ [s]) m.length = s := by
  unfold fetch
  simp

theorem get_push_some {m : Mem} {s : Store} {id : Nat} {t : Store} (h : fetch (m ++ [some s]) id = some t) :
    (id < m.length ∧ fetch m id = some t) ∨ (id = m.length ∧ t = s) := by
  have hl := get_lt h
  rw [List.length_append, List.length_singleton] at hl
  by_cases hid : id = m.length
  · subst hid
    rw [get_push_self] at h
    exact Or.inr ⟨rfl, (Option.some.inj h).symm⟩
  · have : id < m.length := by omega
    exact Or.inl ⟨this, by rw [get_push_lt m _ this] at h; exact h⟩

theorem uses_cons (id : Nat) (k : K) (ks : List K) : uses id (k :: ks) = uses id ks + if k.store = id then 1 else 0 := by
  unfold uses
  rw [List.countP_cons]
  congr 1
  by_cases h : k.store = id <;> simp [h]

theorem uses_zero {id : Nat} {ks : List K} (h : uses id ks = 0) : ∀ k ∈ ks, k.store ≠ id := by
  intro k hk e
  have := (List.countP_eq_zero.mp h) k hk
  simp [e] at this

theorem value_congr {m m' : Mem} {k : K} {s s' : Store} (h : fetch m k.store = some s) (h' : fetch m' k.store = some s')
    (e : s'.vec = s.vec) : value m' k = value m k := by
  simp only [value, h, h', Option.bind_some, e]

theorem value_ok {m : Mem} {ks : List K} (hi : Inv m ks) {k : K} (hk : k ∈ ks) :
    ∃ s, fetch m k.store = some s ∧ k.left ≤ k.right ∧ k.right ≤ s.used ∧ s.used ≤ s.vec.length ∧
      value m k = some ((s.vec.take k.right).drop k.left) := by
  obtain ⟨s, hs, h1, h2⟩ := hi.ok k hk
  have h3 := hi.shape _ s hs
  exact ⟨s, hs, h1, h2, h3, by simp only [value, hs, Option.bind_some]; rw [if_pos (by omega)]⟩

theorem Inv.perm {m : Mem} {a b : List K} (h : Inv m a) (hp : a.Perm b) : Inv m b :=
  ⟨fun k hk => h.ok k (hp.mem_iff.mpr hk), fun id s hs => by
    have := h.counts id s hs
    unfold uses at this ⊢
    rw [← hp.countP_eq]; exact this, h.shape, h.zero⟩

/-- A store keeps its segments while its references change. -/
theorem refs_ok {m : Mem} {id : Nat} {s : Store} (hs : fetch m id = some s) (n : Nat) (k : K) (h : Ok m k) :
    Ok (put m id (some { s with refs := n })) k ∧ value (put m id (some { s with refs := n })) k = value m k := by
  obtain ⟨t, ht, h1, h2⟩ := h
  by_cases e : k.store = id
  · rw [e] at ht
    rw [hs] at ht
    have ht := Option.some.inj ht
    subst ht
    have hg : fetch (put m id (some { s with refs := n })) k.store = some { s with refs := n } := by
      rw [e]; exact get_put_self (get_lt hs) _
    exact ⟨⟨_, hg, h1, h2⟩, value_congr (s := s) (by rw [e]; exact hs) hg rfl⟩
  · have hg : fetch (put m id (some { s with refs := n })) k.store = some t := by rw [get_put_ne m e]; exact ht
    exact ⟨⟨_, hg, h1, h2⟩, value_congr ht hg rfl⟩

theorem link_spec (m : Mem) (ks : List K) (k : K) (hi : Inv m ks) (hk : Ok m k) :
    ∃ m', link m k.store = some m' ∧ Inv m' (k :: ks) ∧ (∀ o, Ok m o → Ok m' o ∧ value m' o = value m o) ∧ m'.length = m.length := by
  obtain ⟨s, hs, h1, h2⟩ := hk
  refine ⟨put m k.store (some { s with refs := s.refs + 1 }), by simp only [link, hs, Option.map_some], ⟨?_, ?_, ?_, ?_⟩,
    fun o ho => refs_ok hs _ o ho, by simp [put]⟩
  · intro o ho
    rcases List.mem_cons.mp ho with rfl | ho
    · exact (refs_ok hs _ o ⟨s, hs, h1, h2⟩).1
    · exact (refs_ok hs _ o (hi.ok o ho)).1
  · intro id t ht
    by_cases e : id = k.store
    · subst e
      rw [get_put_self (get_lt hs)] at ht
      cases ht
      have := hi.counts _ s hs
      rw [uses_cons, if_pos rfl]
      dsimp only
      omega
    · rw [get_put_ne m e] at ht
      rw [uses_cons, if_neg (Ne.symm e)]
      exact hi.counts id t ht
  · intro id t ht
    by_cases e : id = k.store
    · subst e
      rw [get_put_self (get_lt hs)] at ht
      cases ht
      exact hi.shape _ s hs
    · rw [get_put_ne m e] at ht
      exact hi.shape id t ht
  · obtain ⟨z, hz⟩ := hi.zero
    by_cases e : 0 = k.store
    · exact ⟨_, by rw [← e]; rw [← e] at hs; exact get_put_self (get_lt hs) _⟩
    · exact ⟨z, by rw [get_put_ne m e]; exact hz⟩

theorem release_spec (m : Mem) (ks : List K) (k : K) (hi : Inv m (k :: ks)) :
    ∃ m', release m k.store = some m' ∧ Inv m' ks ∧ (∀ o ∈ ks, value m' o = value m o) ∧ m'.length = m.length := by
  obtain ⟨s, hs, h1, h2⟩ := hi.ok k (List.mem_cons_self ..)
  obtain ⟨hc, hpos⟩ := hi.counts _ s hs
  rw [uses_cons, if_pos rfl] at hc
  by_cases hone : s.refs = 1
  · -- the last one
    have hne : k.store ≠ 0 := by intro e; rw [if_pos e] at hc; omega
    rw [if_neg hne] at hc
    have hnone := uses_zero (id := k.store) (ks := ks) (by omega)
    have hget : ∀ id t, fetch (put m k.store none) id = some t → id ≠ k.store ∧ fetch m id = some t := by
      intro id t ht
      by_cases e : id = k.store
      · subst e; rw [get_put_self (get_lt hs)] at ht; cases ht
      · exact ⟨e, by rw [get_put_ne m e] at ht; exact ht⟩
    refine ⟨put m k.store none, by simp only [release, hs, Option.bind_some]; rw [if_neg (by omega), if_pos hone], ⟨?_, ?_, ?_, ?_⟩, ?_, by simp [put]⟩
    · intro o ho
      obtain ⟨t, ht, hh⟩ := hi.ok o (List.mem_cons_of_mem _ ho)
      exact ⟨t, by rw [get_put_ne m (hnone o ho)]; exact ht, hh⟩
    · intro id t ht
      obtain ⟨e, ht⟩ := hget id t ht
      have := hi.counts id t ht
      rw [uses_cons, if_neg (Ne.symm e)] at this
      exact this
    · intro id t ht; exact hi.shape id t (hget id t ht).2
    · obtain ⟨z, hz⟩ := hi.zero
      exact ⟨z, by rw [get_put_ne m (Ne.symm hne)]; exact hz⟩
    · intro o ho
      obtain ⟨t, ht, hh⟩ := hi.ok o (List.mem_cons_of_mem _ ho)
      exact value_congr ht (by rw [get_put_ne m (hnone o ho)]; exact ht) rfl
  · refine ⟨put m k.store (some { s with refs := s.refs - 1 }), by
      simp only [release, hs, Option.bind_some]; rw [if_neg (by omega), if_neg hone], ⟨?_, ?_, ?_, ?_⟩, ?_, by simp [put]⟩
    · intro o ho
      exact (refs_ok hs _ o (hi.ok o (List.mem_cons_of_mem _ ho))).1
    · intro id t ht
      by_cases e : id = k.store
      · subst e
        rw [get_put_self (get_lt hs)] at ht
        cases ht
        dsimp only
        omega
      · rw [get_put_ne m e] at ht
        have := hi.counts id t ht
        rw [uses_cons, if_neg (Ne.symm e)] at this
        exact this
    · intro id t ht
      by_cases e : id = k.store
      · subst e
        rw [get_put_self (get_lt hs)] at ht
        cases ht
        exact hi.shape _ s hs
      · rw [get_put_ne m e] at ht
        exact hi.shape id t ht
    · obtain ⟨z, hz⟩ := hi.zero
      by_cases e : 0 = k.store
      · exact ⟨_, by rw [← e]; rw [← e] at hs; exact get_put_self (get_lt hs) _⟩
      · exact ⟨z, by rw [get_put_ne m e]; exact hz⟩
    · intro o ho
      exact (refs_ok hs _ o (hi.ok o (List.mem_cons_of_mem _ ho))).2

theorem empty_spec (m : Mem) (ks : List K) (hi : Inv m ks) : Result m ks (empty m) [] := by
  obtain ⟨z, hz⟩ := hi.zero
  have hok : Ok m ⟨0, 0, 0⟩ := ⟨z, hz, Nat.le_refl _, Nat.zero_le _⟩
  obtain ⟨m', hl, hi', hv, -⟩ := link_spec m ks ⟨0, 0, 0⟩ hi hok
  refine ⟨m', ⟨0, 0, 0⟩, by show (link m 0).map _ = _; rw [hl]; rfl, hi', ?_, fun o ho => (hv o (hi.ok o ho)).2⟩
  rw [(hv _ hok).2]
  simp [value, hz]

theorem copy_spec (m : Mem) (ks : List K) (k : K) (x : Key) (hi : Inv m ks) (hk : k ∈ ks) (hx : value m k = some x) :
    Result m ks (copy m k) x := by
  obtain ⟨m', hl, hi', hv, -⟩ := link_spec m ks k hi (hi.ok k hk)
  exact ⟨m', k, by simp only [copy, hl, Option.map_some], hi', by rw [(hv k (hi.ok k hk)).2, hx], fun o ho => (hv o (hi.ok o ho)).2⟩

/-- A store that one key uses may change with the key. -/
theorem store_spec (m : Mem) (ks : List K) (k : K) (s : Store) (hi : Inv m (k :: ks)) (hs : fetch m k.store = some s) (h1 : s.refs = 1)
    (s' : Store) (k' : K) (hr : s'.refs = 1) (hu : s'.used ≤ s'.vec.length) (hk : k'.store = k.store) (hlr : k'.left ≤ k'.right)
    (hru : k'.right ≤ s'.used) :
    Inv (put m k.store (some s')) (k' :: ks) ∧ (∀ o ∈ ks, value (put m k.store (some s')) o = value m o ∧ o.store ≠ k.store) ∧
      value (put m k.store (some s')) k' = some ((s'.vec.take k'.right).drop k'.left) := by
  obtain ⟨hc, hpos⟩ := hi.counts _ s hs
  rw [uses_cons, if_pos rfl] at hc
  have hne : k.store ≠ 0 := by intro e; rw [if_pos e] at hc; omega
  rw [if_neg hne] at hc
  have hnone := uses_zero (id := k.store) (ks := ks) (by omega)
  have hself : fetch (put m k.store (some s')) k.store = some s' := get_put_self (get_lt hs) _
  refine ⟨⟨?_, ?_, ?_, ?_⟩, ?_, ?_⟩
  · intro o ho
    rcases List.mem_cons.mp ho with rfl | ho
    · exact ⟨s', by rw [hk]; exact hself, hlr, hru⟩
    · obtain ⟨t, ht, hh⟩ := hi.ok o (List.mem_cons_of_mem _ ho)
      exact ⟨t, by rw [get_put_ne m (hnone o ho)]; exact ht, hh⟩
  · intro id t ht
    rw [uses_cons, hk]
    by_cases e : id = k.store
    · subst e
      rw [hself] at ht
      cases ht
      rw [if_pos rfl, if_neg hne]
      omega
    · rw [get_put_ne m e] at ht
      have := hi.counts id t ht
      rw [uses_cons] at this
      exact this
  · intro id t ht
    by_cases e : id = k.store
    · subst e
      rw [hself] at ht
      cases ht
      exact hu
    · rw [get_put_ne m e] at ht
      exact hi.shape id t ht
  · obtain ⟨z, hz⟩ := hi.zero
    exact ⟨z, by rw [get_put_ne m (Ne.symm hne)]; exact hz⟩
  · intro o ho
    obtain ⟨t, ht, -⟩ := hi.ok o (List.mem_cons_of_mem _ ho)
    exact ⟨value_congr ht (by rw [get_put_ne m (hnone o ho)]; exact ht) rfl, hnone o ho⟩
  · simp only [value, hk, hself, Option.bind_some]
    rw [if_pos (by omega)]

/-- A new store. -/
theorem push_spec (m : Mem) (ks : List K) (hi : Inv m ks) (s : Store) (k : K) (hr : s.refs = 1) (hu : s.used ≤ s.vec.length)
    (hk : k.store = m.length) (hlr : k.left ≤ k.right) (hru : k.right ≤ s.used) :
    Inv (m ++ [some s]) (k :: ks) ∧ (∀ o ∈ ks, value (m ++ [some s]) o = value m o) ∧
      value (m ++ [some s]) k = some ((s.vec.take k.right).drop k.left) := by
  have hold : ∀ o ∈ ks, o.store ≠ m.length ∧ ∃ t, fetch m o.store = some t := by
    intro o ho
    obtain ⟨t, ht, -⟩ := hi.ok o ho
    exact ⟨by have := get_lt ht; omega, t, ht⟩
  have hz := hi.zero
  obtain ⟨z, hz⟩ := hz
  have hpos := get_lt hz
  have hzero : uses m.length ks = 0 := by
    unfold uses
    rw [List.countP_eq_zero]
    intro o ho
    simpa using (hold o ho).1
  refine ⟨⟨?_, ?_, ?_, ?_⟩, ?_, ?_⟩
  · intro o ho
    rcases List.mem_cons.mp ho with rfl | ho
    · exact ⟨s, by rw [hk]; exact get_push_self .., hlr, hru⟩
    · obtain ⟨t, ht, hh⟩ := hi.ok o ho
      exact ⟨t, by rw [get_push_lt _ _ (get_lt ht)]; exact ht, hh⟩
  · intro id t ht
    rw [uses_cons, hk]
    rcases get_push_some ht with ⟨hl, ht⟩ | ⟨rfl, rfl⟩
    · rw [if_neg (by omega)]
      exact hi.counts id t ht
    · rw [if_pos rfl, if_neg (by omega), hzero]
      omega
  · intro id t ht
    rcases get_push_some ht with ⟨hl, ht⟩ | ⟨rfl, rfl⟩
    · exact hi.shape id t ht
    · exact hu
  · exact ⟨z, by rw [get_push_lt _ _ hpos]; exact hz⟩
  · intro o ho
    obtain ⟨-, t, ht⟩ := hold o ho
    exact value_congr ht (by rw [get_push_lt _ _ (get_lt ht)]; exact ht) rfl
  · simp only [value, hk, get_push_self, Option.bind_some]
    rw [if_pos (by omega)]

theorem root_eq (k : Key) : Spec.Keys.root k = if k = [[]] ∨ k = [] then [] else k := by
  unfold Spec.Keys.root
  by_cases h : k = [[]]
  · simp [h]
  · by_cases h' : k = []
    · simp [h']
    · simp [h, h']

theorem slice_length {l : Key} {a b : Nat} (h : b ≤ l.length) : ((l.take b).drop a).length = b - a := by
  rw [List.length_drop, List.length_take]; omega

theorem slice_last {l : Key} {a b : Nat} (h : b ≤ l.length) (hab : a < b) : ((l.take b).drop a).getLast? = l[b - 1]? := by
  rw [List.getLast?_eq_getElem?, slice_length h, List.getElem?_drop, List.getElem?_take, if_pos (by omega)]
  congr 1; omega

theorem isroot_spec (m : Mem) (ks : List K) (k : K) (x : Key) (hi : Inv m (k :: ks)) (hx : value m k = some x) :
    isroot m k = some (decide (x = [[]] ∨ x = [])) := by
  obtain ⟨s, hs, h1, h2, h3, hv⟩ := value_ok hi (List.mem_cons_self ..)
  rw [hx] at hv
  have hv := Option.some.inj hv
  have hl : x.length = k.right - k.left := by rw [hv]; exact slice_length (by omega)
  unfold isroot
  by_cases h : k.right - k.left = 1
  · rw [if_pos h]
    have hlast := slice_last (l := s.vec) (a := k.left) (b := k.right) (by omega) (by omega)
    rw [← hv] at hlast
    match x, hl with
    | [y], _ =>
      simp only [List.getLast?_singleton] at hlast
      simp only [segment, hs, Option.bind_some, ← hlast, Option.map_some]
      congr 1
      by_cases hy : y = [] <;> simp [hy]
    | [], hl => rw [h] at hl; simp at hl
    | _ :: _ :: _, hl => rw [h] at hl; simp at hl
  · rw [if_neg h]
    congr 1
    have : ¬ x = [[]] := by intro e; rw [e] at hl; simp at hl; omega
    by_cases hz : x = []
    · rw [hz] at hl
      have : k.right = k.left := by simp at hl; omega
      simp [hz, this]
    · have hne : k.right ≠ k.left := by
        intro e
        rw [e] at hl
        exact hz (List.eq_nil_of_length_eq_zero (by omega))
      simp [hz, this, hne]

theorem collapse_spec (m : Mem) (ks : List K) (k : K) (x : Key) (hi : Inv m (k :: ks)) (hx : value m k = some x) :
    Result m ks (collapse m k) (Spec.Keys.root x) := by
  unfold collapse
  rw [isroot_spec m ks k x hi hx, Option.bind_some, root_eq]
  by_cases h : x = [[]] ∨ x = []
  · simp only [decide_eq_true h, if_true, if_pos h]
    obtain ⟨m1, h1, hi1, hv1, -⟩ := release_spec m ks k hi
    rw [h1, Option.bind_some]
    obtain ⟨m2, k2, h2, hi2, hx2, hv2⟩ := empty_spec m1 ks hi1
    exact ⟨m2, k2, h2, hi2, hx2, fun o ho => (hv2 o ho).trans (hv1 o ho)⟩
  · simp only [decide_eq_false h, if_neg h]
    exact ⟨m, k, by simp, hi, hx, fun _ _ => rfl⟩

theorem unique_spec (m : Mem) (ks : List K) (k : K) (x : Key) (s : Store) (hi : Inv m (k :: ks)) (hs : fetch m k.store = some s)
    (hx : value m k = some x) :
    ∃ m' k' s', unique m k = some (m', k') ∧ Inv m' (k' :: ks) ∧ value m' k' = some x ∧ (∀ o ∈ ks, value m' o = value m o) ∧
      fetch m' k'.store = some s' ∧ s'.refs = 1 ∧ (s.refs = 1 → m' = m ∧ k' = k ∧ s' = s) ∧
      (s.refs ≠ 1 → k'.left = 0 ∧ k'.right = s'.used) := by
  unfold unique
  rw [hs, Option.bind_some]
  by_cases h : s.refs = 1
  · rw [if_pos h]
    exact ⟨m, k, s, rfl, hi, hx, fun _ _ => rfl, hs, h, fun _ => ⟨rfl, rfl, rfl⟩, fun hn => absurd h hn⟩
  · rw [if_neg h]
    have hpos := (hi.counts _ s hs).2
    rw [if_neg (by omega), hx, Option.map_some]
    obtain ⟨s1, hs1, h1, h2, h3, hv⟩ := value_ok hi (List.mem_cons_self ..)
    rw [hs] at hs1
    cases hs1
    rw [hx] at hv
    have hv := Option.some.inj hv
    have hl : x.length = k.right - k.left := by rw [hv]; exact slice_length (by omega)
    obtain ⟨m1, hr1, hi1, hv1, hlen⟩ := release_spec m ks k hi
    have hm1 : m1 = put m k.store (some { s with refs := s.refs - 1 }) := by
      simp only [release, hs, Option.bind_some] at hr1
      rw [if_neg (by omega), if_neg h] at hr1
      exact (Option.some.inj hr1).symm
    obtain ⟨hi2, hv2, hx2⟩ := push_spec m1 ks hi1 ⟨x, x.length, 1⟩ ⟨m1.length, 0, k.right - k.left⟩ rfl (Nat.le_refl _) rfl
      (Nat.zero_le _) (by show k.right - k.left ≤ x.length; omega)
    rw [← hm1, ← hlen]
    refine ⟨_, _, ⟨x, x.length, 1⟩, rfl, hi2, ?_, fun o ho => (hv2 o ho).trans (hv1 o ho), get_push_self .., rfl, fun hn => absurd hn h,
      fun _ => ⟨rfl, hl.symm⟩⟩
    rw [hx2]
    simp only [List.drop_zero]
    rw [← hl, List.take_length]

end Lemmas.KeyStore
