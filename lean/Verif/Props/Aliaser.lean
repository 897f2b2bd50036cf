import Verif.Model.Aliaser
import Mathlib.Data.List.Nodup
import Mathlib.Data.List.Perm.Subperm
/- C92: addresses shared by several objects. -/
namespace Props
open Wv.Aliaser
open Spec.Aliaser (Addr Op upd users added)

namespace Als

/-- The address a pointer of an object's list refers to. -/
def ipOf (all : List Alias) (id : Nat) : Option Addr := (all.find? fun a => a.id = id).map (·.ip)

theorem upd_same {α : Type} (f : Nat → α) (k : Nat) (a : α) : upd f k a k = a := if_pos rfl
theorem upd_other {α : Type} (f : Nat → α) {k j : Nat} (a : α) (h : j ≠ k) : upd f k a j = f j := if_neg h

theorem find_id {all : List Alias} (hn : (all.map (·.id)).Nodup) {a : Alias} (ha : a ∈ all) : all.find? (fun b => b.id = a.id) = some a := by
  induction all with
  | nil => cases ha
  | cons b l ih =>
    rw [List.map_cons, List.nodup_cons] at hn
    by_cases e : b.id = a.id
    · rw [List.find?_cons_of_pos (by simpa using e)]
      rcases List.mem_cons.mp ha with h | h
      · rw [h]
      · exact absurd (List.mem_map.mpr ⟨a, h, e.symm⟩) hn.1
    · rw [List.find?_cons_of_neg (by simpa using e)]
      rcases List.mem_cons.mp ha with h | h
      · exact absurd (by rw [h]) e
      · exact ih hn.2 h

theorem ipOf_mem {all : List Alias} (hn : (all.map (·.id)).Nodup) {a : Alias} (ha : a ∈ all) : ipOf all a.id = some a.ip := by
  unfold ipOf; rw [find_id hn ha]; rfl

theorem ipOf_some {all : List Alias} {id : Nat} {ip : Addr} (h : ipOf all id = some ip) : ∃ a ∈ all, a.id = id ∧ a.ip = ip := by
  unfold ipOf at h
  cases hf : all.find? fun a => a.id = id with
  | none => rw [hf] at h; cases h
  | some a =>
    rw [hf] at h
    refine ⟨a, List.mem_of_find?_eq_some hf, by simpa using List.find?_some hf, Option.some.inj h⟩

/-- A change of the links only. -/
def Same (f : Alias → Alias) : Prop := ∀ a, (f a).id = a.id ∧ (f a).ip = a.ip ∧ (f a).index = a.index

theorem ipOf_map {f : Alias → Alias} (hf : Same f) (all : List Alias) (id : Nat) : ipOf (all.map f) id = ipOf all id := by
  unfold ipOf
  rw [List.find?_map]
  have : ((fun a : Alias => decide (a.id = id)) ∘ f) = fun a => decide (a.id = id) := by
    funext a; simp [(hf a).1]
  rw [this, Option.map_map]
  congr 1
  funext a; exact (hf a).2.1

def bump (L : List Nat) (d : Int) (a : Alias) : Alias := if a.id ∈ L then { a with links := a.links + d } else a

theorem bump_same (L : List Nat) (d : Int) : Same (bump L d) := by
  intro a; unfold bump; split <;> exact ⟨rfl, rfl, rfl⟩

theorem link_eq {all : List Alias} {id : Nat} (d : Int) (h : ∃ a ∈ all, a.id = id) : link all id d = some (all.map (bump [id] d)) := by
  unfold link
  rw [if_pos (by simpa using h)]
  congr 1
  apply List.map_congr_left
  intro a _
  unfold bump; simp

theorem fold_link (L : List Nat) : ∀ all : List Alias, L.Nodup → (∀ id ∈ L, ∃ a ∈ all, a.id = id) →
    L.foldlM (fun all id => link all id (-1)) all = some (all.map (bump L (-1))) := by
  induction L with
  | nil =>
    intro all _ _
    show some all = _
    congr 1
    have : bump [] (-1) = id := by funext a; simp [bump]
    rw [this, List.map_id]
  | cons id L ih =>
    intro all hn hL
    rw [List.nodup_cons] at hn
    rw [List.foldlM_cons, link_eq (-1) (hL id (by simp))]
    show L.foldlM _ (all.map (bump [id] (-1))) = _
    rw [ih _ hn.2]
    · congr 1
      rw [List.map_map]
      apply List.map_congr_left
      intro a _
      show bump L (-1) (bump [id] (-1) a) = bump (id :: L) (-1) a
      by_cases e : a.id = id
      · have e2 : a.id ∉ L := by rw [e]; exact hn.1
        simp [bump, e, hn.1]
      · simp [bump, e]
    · intro j hj
      obtain ⟨a, ha, he⟩ := hL j (by simp [hj])
      exact ⟨bump [id] (-1) a, List.mem_map.mpr ⟨a, ha, rfl⟩, by rw [(bump_same _ _ a).1]; exact he⟩

theorem count_upd (p q : Nat → Bool) (k N : Nat) (hk : k < N) (h : ∀ j, j ≠ k → p j = q j) :
    ((List.range N).countP q : Int) = (List.range N).countP p + (if q k then 1 else 0) - (if p k then 1 else 0) := by
  have small : ∀ M, M ≤ k → (List.range M).countP q = (List.range M).countP p := by
    intro M hM
    apply List.countP_congr
    intro j hj
    have := List.mem_range.mp hj
    rw [h j (by omega)]
  induction N with
  | zero => omega
  | succ N ih =>
    rw [List.range_succ, List.countP_append, List.countP_append, List.countP_singleton, List.countP_singleton]
    by_cases e : k = N
    · subst e
      rw [small k (Nat.le_refl k)]
      by_cases h1 : p k = true <;> by_cases h2 : q k = true <;> simp [h1, h2]
    · have := ih (by omega)
      rw [h N (by omega)]
      by_cases h1 : q N = true <;> simp [h1] <;> omega

/-- What holds of the objects. -/
structure Inv (N : Nat) (s : St) (u : Spec.Aliaser.Users) : Prop where
  ids : (s.all.map (·.id)).Nodup
  fresh : ∀ a ∈ s.all, a.id < s.next
  ips : (s.all.map (·.ip)).Nodup
  nodup : ∀ k, (s.loc k).Nodup
  has : ∀ k, (s.loc k).map (ipOf s.all) = (u.has k).map some
  real : s.real = u.real
  links : ∀ a ∈ s.all, a.links = ((List.range N).countP fun k => decide (a.id ∈ s.loc k) : Nat)
  out : ∀ k, N ≤ k → s.loc k = []

theorem inv_valid {N : Nat} {s : St} {u : Spec.Aliaser.Users} (h : Inv N s u) {k id : Nat} (hid : id ∈ s.loc k) : ∃ a ∈ s.all, a.id = id ∧ a.ip ∈ u.has k := by
  have : ipOf s.all id ∈ (u.has k).map some := by rw [← h.has k]; exact List.mem_map.mpr ⟨id, hid, rfl⟩
  obtain ⟨ip, hip, he⟩ := List.mem_map.mp this
  obtain ⟨a, ha, h1, h2⟩ := ipOf_some he.symm
  exact ⟨a, ha, h1, by rw [h2]; exact hip⟩

/-- An alias is in the list of the objects that have its address. -/
theorem inv_iff {N : Nat} {s : St} {u : Spec.Aliaser.Users} (h : Inv N s u) {a : Alias} (ha : a ∈ s.all) (k : Nat) : a.id ∈ s.loc k ↔ a.ip ∈ u.has k := by
  constructor
  · intro hid
    have : ipOf s.all a.id ∈ (u.has k).map some := by rw [← h.has k]; exact List.mem_map.mpr ⟨_, hid, rfl⟩
    rw [ipOf_mem h.ids ha] at this
    simpa using this
  · intro hip
    have : some a.ip ∈ (s.loc k).map (ipOf s.all) := by rw [h.has k]; exact List.mem_map.mpr ⟨_, hip, rfl⟩
    obtain ⟨id, hid, he⟩ := List.mem_map.mp this
    obtain ⟨b, hb, h1, h2⟩ := ipOf_some he
    have : b = a := List.inj_on_of_nodup_map h.ips hb ha h2
    rw [← this, h1]; exact hid

theorem inv_links_zero {N : Nat} {s : St} {u : Spec.Aliaser.Users} (h : Inv N s u) {a : Alias} (ha : a ∈ s.all) :
    a.links = 0 ↔ ∀ k, a.ip ∉ u.has k := by
  rw [h.links a ha]
  constructor
  · intro h0 k hk
    rw [← inv_iff h ha k] at hk
    have hkN : k < N := by
      refine Nat.lt_of_not_le fun hge => ?_
      rw [h.out k hge] at hk; cases hk
    have := List.countP_pos_iff (p := fun k => decide (a.id ∈ s.loc k)) (l := List.range N)
    have : 0 < (List.range N).countP fun k => decide (a.id ∈ s.loc k) := this.mpr ⟨k, List.mem_range.mpr hkN, by simpa using hk⟩
    omega
  · intro hno
    have : (List.range N).countP (fun k => decide (a.id ∈ s.loc k)) = 0 := by
      rw [List.countP_eq_zero]
      intro k _ hk
      exact hno k ((inv_iff h ha k).mp (by simpa using hk))
    omega

theorem map_ids {f : Alias → Alias} (hf : Same f) (l : List Alias) : (l.map f).map (·.id) = l.map (·.id) := by
  rw [List.map_map]; apply List.map_congr_left; intro a _; exact (hf a).1
theorem map_ips {f : Alias → Alias} (hf : Same f) (l : List Alias) : (l.map f).map (·.ip) = l.map (·.ip) := by
  rw [List.map_map]; apply List.map_congr_left; intro a _; exact (hf a).2.1

theorem start_eq {N : Nat} {s : St} {u : Spec.Aliaser.Users} (h : Inv N s u) (k : Nat) (real : Addr → Bool) :
    startEdit s k real = some { s with all := s.all.map (bump (s.loc k) (-1)), loc := upd s.loc k [], real := upd s.real k real } := by
  unfold startEdit
  rw [fold_link (s.loc k) s.all (h.nodup k)]
  · rfl
  · intro id hid
    obtain ⟨a, ha, he, _⟩ := inv_valid h hid
    exact ⟨a, ha, he⟩

theorem inv_start {N : Nat} {s : St} {u : Spec.Aliaser.Users} (h : Inv N s u) (k : Nat) (hk : k < N) (real : Addr → Bool) :
    Inv N { s with all := s.all.map (bump (s.loc k) (-1)), loc := upd s.loc k [], real := upd s.real k real } ⟨upd u.has k [], upd u.real k real⟩ := by
  have hs := bump_same (s.loc k) (-1)
  refine ⟨by rw [map_ids hs]; exact h.ids, ?_, by rw [map_ips hs]; exact h.ips, ?_, ?_, by show upd s.real k real = _; rw [h.real], ?_, ?_⟩
  · intro a ha
    obtain ⟨b, hb, rfl⟩ := List.mem_map.mp ha
    rw [(hs b).1]; exact h.fresh b hb
  · intro j
    by_cases e : j = k
    · subst e; show (upd s.loc j [] j).Nodup; rw [upd_same]; exact List.nodup_nil
    · show (upd s.loc k [] j).Nodup; rw [upd_other _ _ e]; exact h.nodup j
  · intro j
    show (upd s.loc k [] j).map (ipOf (s.all.map (bump (s.loc k) (-1)))) = (upd u.has k [] j).map some
    by_cases e : j = k
    · subst e; rw [upd_same, upd_same]; rfl
    · rw [upd_other _ _ e, upd_other _ _ e, ← h.has j]
      apply List.map_congr_left
      intro id _; exact ipOf_map hs _ _
  · intro a ha
    obtain ⟨b, hb, rfl⟩ := List.mem_map.mp ha
    show (bump (s.loc k) (-1) b).links = (((List.range N).countP fun j => decide ((bump (s.loc k) (-1) b).id ∈ upd s.loc k [] j) : Nat) : Int)
    rw [(hs b).1]
    have hc := count_upd (fun j => decide (b.id ∈ s.loc j)) (fun j => decide (b.id ∈ upd s.loc k [] j)) k N hk
      (by intro j hj; simp only [upd_other _ _ hj])
    rw [hc, ← h.links b hb]
    simp only [upd_same]
    unfold bump
    by_cases e : b.id ∈ s.loc k
    · simp only [e, if_true]; simp; omega
    · simp only [e, if_false]; simp
  · intro j hj
    show upd s.loc k [] j = []
    rw [upd_other _ _ (by omega)]; exact h.out j hj

theorem inv_done {N : Nat} {s : St} {u : Spec.Aliaser.Users} (h : Inv N s u) : Inv N (doneEdit s).1 u := by
  have hsub : List.Sublist (s.all.filter fun a => a.links ≠ 0) s.all := List.filter_sublist
  have hids : ((s.all.filter fun a => a.links ≠ 0).map (·.id)).Nodup := h.ids.sublist (hsub.map _)
  refine ⟨hids, fun a ha => h.fresh a (hsub.subset ha), h.ips.sublist (hsub.map _), h.nodup, ?_, h.real, fun a ha => h.links a (hsub.subset ha), h.out⟩
  intro k
  rw [← h.has k]
  apply List.map_congr_left
  intro id hid
  obtain ⟨a, ha, he, hip⟩ := inv_valid h hid
  have hne : a.links ≠ 0 := fun h0 => (inv_links_zero h ha).mp h0 k hip
  have hmem : a ∈ s.all.filter fun a => a.links ≠ 0 := List.mem_filter.mpr ⟨ha, by simpa using hne⟩
  show ipOf (s.all.filter fun a => a.links ≠ 0) id = ipOf s.all id
  rw [← he, ipOf_mem hids hmem, ipOf_mem h.ids ha]

theorem has_eq {N : Nat} {s : St} {u : Spec.Aliaser.Users} (h : Inv N s u) (k : Nat) (ip : Addr) : has s.all ip (s.loc k) = some (decide (ip ∈ u.has k)) := by
  have gen : ∀ (L : List Nat) (H : List Addr), L.map (ipOf s.all) = H.map some → has s.all ip L = some (decide (ip ∈ H)) := by
    intro L
    induction L with
    | nil => intro H hH; cases H with
      | nil => rfl
      | cons a H => cases hH
    | cons id L ih =>
      intro H hH
      cases H with
      | nil => cases hH
      | cons a H =>
        rw [List.map_cons, List.map_cons, List.cons.injEq] at hH
        have h1 := hH.1
        unfold ipOf at h1
        cases hf : s.all.find? fun b => b.id = id with
        | none => rw [hf] at h1; cases h1
        | some b =>
          rw [hf] at h1
          have hb : b.ip = a := Option.some.inj h1
          rw [has, hf]
          dsimp only
          rw [hb]
          by_cases e : a = ip
          · rw [if_pos e, e]; simp
          · rw [if_neg e, ih H hH.2]; simp [Ne.symm e]
  exact gen _ _ (h.has k)

/-- Adding an address some object has. -/
theorem inv_share {N : Nat} {s : St} {u : Spec.Aliaser.Users} (h : Inv N s u) (k : Nat) (hk : k < N) (a : Alias) (ha : a ∈ s.all) (hno : a.ip ∉ u.has k) :
    Inv N { s with all := s.all.map (bump [a.id] 1), loc := upd s.loc k (s.loc k ++ [a.id]) } { u with has := upd u.has k (u.has k ++ [a.ip]) } := by
  have hs := bump_same [a.id] 1
  have hid : a.id ∉ s.loc k := fun hx => hno ((inv_iff h ha k).mp hx)
  refine ⟨by rw [map_ids hs]; exact h.ids, ?_, by rw [map_ips hs]; exact h.ips, ?_, ?_, h.real, ?_, ?_⟩
  · intro c hc
    obtain ⟨b, hb, rfl⟩ := List.mem_map.mp hc
    rw [(hs b).1]; exact h.fresh b hb
  · intro j
    show (upd s.loc k (s.loc k ++ [a.id]) j).Nodup
    by_cases e : j = k
    · subst e; rw [upd_same, List.nodup_append]
      exact ⟨h.nodup j, by simp, by rintro x hx y hy rfl; exact hid (List.mem_singleton.mp hy ▸ hx)⟩
    · rw [upd_other _ _ e]; exact h.nodup j
  · intro j
    show (upd s.loc k (s.loc k ++ [a.id]) j).map (ipOf (s.all.map (bump [a.id] 1))) = (upd u.has k (u.has k ++ [a.ip]) j).map some
    have e0 : ipOf (s.all.map (bump [a.id] 1)) = ipOf s.all := by funext id; exact ipOf_map hs _ _
    rw [e0]
    by_cases e : j = k
    · subst e; rw [upd_same, upd_same, List.map_append, List.map_append, h.has j, List.map_singleton, ipOf_mem h.ids ha]; rfl
    · rw [upd_other _ _ e, upd_other _ _ e, ← h.has j]
  · intro c hc
    obtain ⟨b, hb, rfl⟩ := List.mem_map.mp hc
    show (bump [a.id] 1 b).links = (((List.range N).countP fun j => decide ((bump [a.id] 1 b).id ∈ upd s.loc k (s.loc k ++ [a.id]) j) : Nat) : Int)
    rw [(hs b).1]
    have hc := count_upd (fun j => decide (b.id ∈ s.loc j)) (fun j => decide (b.id ∈ upd s.loc k (s.loc k ++ [a.id]) j)) k N hk
      (by intro j hj; simp only [upd_other _ _ hj])
    rw [hc, ← h.links b hb]
    simp only [upd_same]
    unfold bump
    by_cases e : b.id = a.id
    · simp [e, hid]
    · by_cases e2 : b.id ∈ s.loc k <;> simp [e, e2]
  · intro j hj
    show upd s.loc k _ j = []
    rw [upd_other _ _ (by omega)]; exact h.out j hj

theorem ipOf_append {all : List Alias} {id : Nat} {ip : Addr} (h : ipOf all id = some ip) (b : Alias) : ipOf (all ++ [b]) id = some ip := by
  unfold ipOf at h ⊢
  cases hf : all.find? fun a => a.id = id with
  | none => rw [hf] at h; cases h
  | some a => rw [List.find?_append, hf]; rw [hf] at h; exact h

/-- Adding an address nobody has. -/
theorem inv_new {N : Nat} {s : St} {u : Spec.Aliaser.Users} (h : Inv N s u) (k : Nat) (hk : k < N) (ip : Addr) (index : Option Nat) (slots : Nat → Option Addr)
    (hno : ∀ a ∈ s.all, a.ip ≠ ip) :
    Inv N { s with all := s.all ++ [⟨s.next, ip, index, 1⟩], loc := upd s.loc k (s.loc k ++ [s.next]), next := s.next + 1, slots := slots }
      { u with has := upd u.has k (u.has k ++ [ip]) } := by
  have hnl : ∀ j, s.next ∉ s.loc j := by
    intro j hj
    obtain ⟨a, ha, he, _⟩ := inv_valid h hj
    have := h.fresh a ha; omega
  have hids : ((s.all ++ [(⟨s.next, ip, index, 1⟩ : Alias)]).map (·.id)).Nodup := by
    rw [List.map_append, List.nodup_append]
    refine ⟨h.ids, by simp, ?_⟩
    rintro x hx y hy rfl
    obtain ⟨a, ha, rfl⟩ := List.mem_map.mp hx
    have hz : a.id = s.next := by simpa using hy
    have := h.fresh a ha; omega
  refine ⟨hids, ?_, ?_, ?_, ?_, h.real, ?_, ?_⟩
  · intro a ha
    rcases List.mem_append.mp ha with ha | ha
    · have := h.fresh a ha; show a.id < s.next + 1; omega
    · rw [List.mem_singleton.mp ha]; show s.next < s.next + 1; omega
  · show ((s.all ++ [(⟨s.next, ip, index, 1⟩ : Alias)]).map (·.ip)).Nodup
    rw [List.map_append, List.nodup_append]
    refine ⟨h.ips, by simp, ?_⟩
    rintro x hx y hy rfl
    obtain ⟨a, ha, rfl⟩ := List.mem_map.mp hx
    exact hno a ha (by simpa using hy)
  · intro j
    show (upd s.loc k (s.loc k ++ [s.next]) j).Nodup
    by_cases e : j = k
    · subst e; rw [upd_same, List.nodup_append]
      exact ⟨h.nodup j, by simp, by rintro x hx y hy rfl; exact hnl j (List.mem_singleton.mp hy ▸ hx)⟩
    · rw [upd_other _ _ e]; exact h.nodup j
  · intro j
    show (upd s.loc k (s.loc k ++ [s.next]) j).map (ipOf (s.all ++ [(⟨s.next, ip, index, 1⟩ : Alias)])) = (upd u.has k (u.has k ++ [ip]) j).map some
    have old : ∀ j, (s.loc j).map (ipOf (s.all ++ [(⟨s.next, ip, index, 1⟩ : Alias)])) = (u.has j).map some := by
      intro j
      rw [← h.has j]
      apply List.map_congr_left
      intro id hid
      obtain ⟨a, ha, he, _⟩ := inv_valid h hid
      rw [← he, ipOf_append (ipOf_mem h.ids ha), ipOf_mem h.ids ha]
    by_cases e : j = k
    · subst e
      rw [upd_same, upd_same, List.map_append, List.map_append, old j]
      have : ipOf (s.all ++ [(⟨s.next, ip, index, 1⟩ : Alias)]) s.next = some ip :=
        ipOf_mem (a := ⟨s.next, ip, index, 1⟩) hids (by simp)
      simp only [List.map_singleton, List.map_cons, List.map_nil, this]
    · rw [upd_other _ _ e, upd_other _ _ e]; exact old j
  · intro a ha
    show a.links = (((List.range N).countP fun j => decide (a.id ∈ upd s.loc k (s.loc k ++ [s.next]) j) : Nat) : Int)
    have hc := count_upd (fun j => decide (a.id ∈ s.loc j)) (fun j => decide (a.id ∈ upd s.loc k (s.loc k ++ [s.next]) j)) k N hk
      (by intro j hj; simp only [upd_other _ _ hj])
    rw [hc]
    simp only [upd_same]
    rcases List.mem_append.mp ha with ha | ha
    · rw [← h.links a ha]
      have hne : a.id ≠ s.next := by have := h.fresh a ha; omega
      by_cases e2 : a.id ∈ s.loc k <;> simp [hne, e2]
    · rw [List.mem_singleton.mp ha]
      have hz : (List.range N).countP (fun j => decide (s.next ∈ s.loc j)) = 0 := by
        rw [List.countP_eq_zero]; intro j _; simp [hnl j]
      simp [hz, hnl k]
  · intro j hj
    show upd s.loc k _ j = []
    rw [upd_other _ _ (by omega)]; exact h.out j hj

def user : Op → Nat
  | .start k _ => k
  | .add k _ => k
  | .done k => k
  | .destroy k _ => k

/-- What `add` does, in four cases. -/
theorem add_cases {N : Nat} {s : St} {u : Spec.Aliaser.Users} (h : Inv N s u) (k : Nat) (ip : Addr) :
    ((ip = 0 ∨ ip ∈ u.has k ∨ u.real k ip = true) ∧ add s k ip = some (s, false)) ∨
    (¬ (ip = 0 ∨ ip ∈ u.has k ∨ u.real k ip = true) ∧ ∃ a ∈ s.all, a.ip = ip ∧
      add s k ip = some ({ s with all := s.all.map (bump [a.id] 1), loc := upd s.loc k (s.loc k ++ [a.id]) }, false)) ∨
    (¬ (ip = 0 ∨ ip ∈ u.has k ∨ u.real k ip = true) ∧ (∀ a ∈ s.all, a.ip ≠ ip) ∧
      add s k ip = some ({ s with all := s.all ++ [⟨s.next, ip, (Wv.Aliaser.take s.slots s.perm ip).1, 1⟩], loc := upd s.loc k (s.loc k ++ [s.next]), next := s.next + 1, slots := (Wv.Aliaser.take s.slots s.perm ip).2 }, true)) := by
  unfold add
  by_cases h0 : ip = 0
  · left; exact ⟨Or.inl h0, by rw [if_pos h0]⟩
  · rw [if_neg h0, has_eq h k ip]
    by_cases h1 : ip ∈ u.has k
    · left; exact ⟨Or.inr (Or.inl h1), by rw [decide_eq_true h1]⟩
    · rw [decide_eq_false h1]
      dsimp only
      by_cases h2 : u.real k ip = true
      · left; exact ⟨Or.inr (Or.inr h2), by rw [h.real, if_pos h2]⟩
      · right
        have hnot : ¬ (ip = 0 ∨ ip ∈ u.has k ∨ u.real k ip = true) := by
          rintro (hx | hx | hx)
          · exact h0 hx
          · exact h1 hx
          · exact h2 hx
        rw [h.real, if_neg h2]
        cases hf : s.all.find? fun a => a.ip = ip with
        | some a =>
          left
          have ha := List.mem_of_find?_eq_some hf
          refine ⟨hnot, a, ha, by simpa using List.find?_some hf, ?_⟩
          dsimp only
          rw [link_eq 1 ⟨a, ha, rfl⟩]; rfl
        | none =>
          right
          refine ⟨hnot, ?_, rfl⟩
          intro a ha
          have := List.find?_eq_none.mp hf a ha
          simpa using this

theorem inv_step {N : Nat} {s : St} {u : Spec.Aliaser.Users} (h : Inv N s u) (o : Op) (ho : user o < N) :
    ∃ s' b, step s o = some (s', b) ∧ Inv N s' (Spec.Aliaser.step u o) := by
  cases o with
  | start k real => exact ⟨_, _, by rw [step, start_eq h]; rfl, inv_start h k ho real⟩
  | done k => exact ⟨_, _, rfl, inv_done h⟩
  | destroy k real => exact ⟨_, _, by rw [step, start_eq h]; rfl, inv_done (inv_start h k ho real)⟩
  | add k ip =>
    rcases add_cases h k ip with ⟨hc, he⟩ | ⟨hc, a, ha, hip, he⟩ | ⟨hc, hno, he⟩
    · refine ⟨_, _, he, ?_⟩
      rw [Spec.Aliaser.step, if_pos hc]; exact h
    · refine ⟨_, _, he, ?_⟩
      rw [Spec.Aliaser.step, if_neg hc, ← hip]
      exact inv_share h k ho a ha (by rw [hip]; exact fun hx => hc (Or.inr (Or.inl hx)))
    · refine ⟨_, _, he, ?_⟩
      rw [Spec.Aliaser.step, if_neg hc]
      exact inv_new h k ho ip _ _ hno

theorem inv_run {N : Nat} (l : List Op) : ∀ (s : St) (u : Spec.Aliaser.Users), Inv N s u → (∀ o ∈ l, user o < N) →
    ∃ s', run s l = some s' ∧ Inv N s' (l.foldl Spec.Aliaser.step u) := by
  induction l with
  | nil => intro s u h _; exact ⟨s, rfl, h⟩
  | cons o l ih =>
    intro s u h hl
    obtain ⟨s', b, he, h'⟩ := inv_step h o (hl o (by simp))
    obtain ⟨s'', he', h''⟩ := ih s' _ h' (fun o ho => hl o (by simp [ho]))
    exact ⟨s'', by rw [run, he]; exact he', h''⟩

theorem inv_init (N : Nat) (slots : Nat → Option Addr) (perm : Bool) : Inv N (new slots perm) ⟨fun _ => [], fun _ _ => false⟩ :=
  ⟨List.nodup_nil, (by intro a ha; cases ha), List.nodup_nil, fun _ => List.nodup_nil, fun _ => rfl, rfl, (by intro a ha; cases ha), fun _ _ => rfl⟩

/-- A number no user of a history reaches. -/
theorem bound (l : List Op) : ∃ N, ∀ o ∈ l, user o < N := by
  induction l with
  | nil => exact ⟨0, by simp⟩
  | cons o l ih =>
    obtain ⟨N, h⟩ := ih
    refine ⟨max N (user o + 1), ?_⟩
    intro p hp
    rcases List.mem_cons.mp hp with rfl | hp
    · omega
    · have := h p hp; omega

/-! ### The kernel -/

structure Slots (A : List Addr) (s : St) : Prop where
  perm : s.perm = true
  idx : ∀ a ∈ s.all, ∃ i, a.index = some i ∧ i < 256 ∧ s.slots i = some a.ip
  cov : ∀ i ip, s.slots i = some ip → ∃ a ∈ s.all, a.index = some i ∧ a.ip = ip
  sub : ∀ a ∈ s.all, a.ip ∈ A

theorem slotFor_some (slots : Nat → Option Addr) (ip : Addr) (n : Nat) : ∀ (k i : Nat), slotFor slots ip k n = some i →
    k ≤ i ∧ i < k + n ∧ (slots i = none ∨ slots i = some ip) := by
  induction n with
  | zero => intro k i h; cases h
  | succ n ih =>
    intro k i h
    unfold slotFor at h
    cases hs : slots k with
    | none => rw [hs] at h; obtain rfl := Option.some.inj h; exact ⟨Nat.le_refl _, by omega, Or.inl hs⟩
    | some a =>
      rw [hs] at h
      dsimp only at h
      by_cases e : a = ip
      · rw [if_pos e] at h; obtain rfl := Option.some.inj h; exact ⟨Nat.le_refl _, by omega, Or.inr (by rw [hs, e])⟩
      · rw [if_neg e] at h
        obtain ⟨h1, h2, h3⟩ := ih _ _ h
        exact ⟨by omega, by omega, h3⟩

theorem slotFor_none (slots : Nat → Option Addr) (ip : Addr) (n : Nat) : ∀ k, slotFor slots ip k n = none → ∀ i, k ≤ i → i < k + n → ∃ a, slots i = some a := by
  induction n with
  | zero => intro k _ i h1 h2; omega
  | succ n ih =>
    intro k h i h1 h2
    unfold slotFor at h
    cases hs : slots k with
    | none => rw [hs] at h; cases h
    | some a =>
      rw [hs] at h
      dsimp only at h
      by_cases e : a = ip
      · rw [if_pos e] at h; cases h
      · rw [if_neg e] at h
        by_cases e2 : i = k
        · exact ⟨a, by rw [e2]; exact hs⟩
        · exact ih _ h i (by omega) (by omega)

/-- A new address gets an interface that was free. -/
theorem take_new {N : Nat} {A : List Addr} {s : St} {u : Spec.Aliaser.Users} (h : Inv N s u) (hs : Slots A s) (hA : A.eraseDups.length ≤ 256) (ip : Addr)
    (hip : ip ∈ A) (hno : ∀ a ∈ s.all, a.ip ≠ ip) :
    ∃ i, i < 256 ∧ s.slots i = none ∧ Wv.Aliaser.take s.slots s.perm ip = (some i, upd s.slots i (some ip)) := by
  have hlen : s.all.length + 1 ≤ 256 := by
    have hnd : (s.all.map (·.ip) ++ [ip]).Nodup := by
      rw [List.nodup_append]
      refine ⟨h.ips, by simp, ?_⟩
      rintro x hx y hy rfl
      obtain ⟨a, ha, rfl⟩ := List.mem_map.mp hx
      exact hno a ha (by simpa using hy)
    have hsub : (s.all.map (·.ip) ++ [ip]) ⊆ A.eraseDups := by
      intro x hx
      rw [List.mem_eraseDups]
      rcases List.mem_append.mp hx with hx | hx
      · obtain ⟨a, ha, rfl⟩ := List.mem_map.mp hx; exact hs.sub a ha
      · rw [List.mem_singleton.mp hx]; exact hip
    have := (List.subperm_of_subset hnd hsub).length_le
    simp only [List.length_append, List.length_map, List.length_singleton] at this
    omega
  have hfound : ∃ i, slotFor s.slots ip 0 256 = some i := by
    cases hf : slotFor s.slots ip 0 256 with
    | some i => exact ⟨i, rfl⟩
    | none =>
      exfalso
      have hall := slotFor_none s.slots ip 256 0 hf
      have hsub : List.range 256 ⊆ s.all.filterMap (·.index) := by
        intro i hi
        obtain ⟨a, ha⟩ := hall i (by omega) (by have := List.mem_range.mp hi; omega)
        obtain ⟨b, hb, h1, _⟩ := hs.cov i a ha
        exact List.mem_filterMap.mpr ⟨b, hb, h1⟩
      have h1 := (List.subperm_of_subset List.nodup_range hsub).length_le
      rw [List.length_range] at h1
      have h2 := List.length_filterMap_le (fun a : Alias => a.index) s.all
      omega
  obtain ⟨i, hi⟩ := hfound
  obtain ⟨_, h2, h3⟩ := slotFor_some _ _ _ _ _ hi
  have hnone : s.slots i = none := by
    rcases h3 with h3 | h3
    · exact h3
    · obtain ⟨a, ha, _, hx⟩ := hs.cov i ip h3
      exact absurd hx (hno a ha)
  refine ⟨i, by omega, hnone, ?_⟩
  unfold Wv.Aliaser.take
  rw [hi]; dsimp only; rw [hnone]; dsimp only; rw [if_pos hs.perm]

theorem slots_map {A : List Addr} {s : St} (hs : Slots A s) {f : Alias → Alias} (hf : Same f) (loc : Nat → List Nat) (real : Nat → Addr → Bool) :
    Slots A { s with all := s.all.map f, loc := loc, real := real } := by
  refine ⟨hs.perm, ?_, ?_, ?_⟩
  · intro a ha
    obtain ⟨b, hb, rfl⟩ := List.mem_map.mp ha
    obtain ⟨i, h1, h2, h3⟩ := hs.idx b hb
    exact ⟨i, by rw [(hf b).2.2]; exact h1, h2, by rw [(hf b).2.1]; exact h3⟩
  · intro i ip hi
    obtain ⟨b, hb, h1, h2⟩ := hs.cov i ip hi
    exact ⟨f b, List.mem_map.mpr ⟨b, hb, rfl⟩, by rw [(hf b).2.2]; exact h1, by rw [(hf b).2.1]; exact h2⟩
  · intro a ha
    obtain ⟨b, hb, rfl⟩ := List.mem_map.mp ha
    rw [(hf b).2.1]; exact hs.sub b hb

theorem release_fold (Z : List Alias) : ∀ (slots : Nat → Option Addr) (i : Nat),
    (Z.foldl (fun slots a => release slots true a) slots) i = if ∃ a ∈ Z, a.index = some i then none else slots i := by
  induction Z with
  | nil => intro slots i; simp
  | cons a Z ih =>
    intro slots i
    rw [List.foldl_cons, ih]
    by_cases e : ∃ b ∈ Z, b.index = some i
    · rw [if_pos e, if_pos]
      obtain ⟨b, hb, h⟩ := e
      exact ⟨b, by simp [hb], h⟩
    · rw [if_neg e]
      unfold release
      cases hx : a.index with
      | none =>
        dsimp only
        rw [if_neg]
        rintro ⟨b, hb, h⟩
        rcases List.mem_cons.mp hb with rfl | hb
        · rw [hx] at h; cases h
        · exact e ⟨b, hb, h⟩
      | some j =>
        dsimp only
        rw [if_pos rfl]
        by_cases e2 : i = j
        · subst e2; rw [upd_same, if_pos ⟨a, by simp, hx⟩]
        · rw [upd_other _ _ e2, if_neg]
          rintro ⟨b, hb, h⟩
          rcases List.mem_cons.mp hb with rfl | hb
          · rw [hx] at h; exact e2 (Option.some.inj h).symm
          · exact e ⟨b, hb, h⟩

theorem done_slots {A : List Addr} {s : St} (hs : Slots A s) (i : Nat) : (doneEdit s).1.slots i =
    if ∃ a ∈ s.all, a.links = 0 ∧ a.index = some i then none else s.slots i := by
  unfold doneEdit
  dsimp only
  rw [hs.perm, release_fold]
  congr 1
  simp only [List.mem_filter, decide_eq_true_eq, and_assoc]

theorem slot_inj {N : Nat} {A : List Addr} {s : St} {u : Spec.Aliaser.Users} (h : Inv N s u) (hs : Slots A s) {a b : Alias} (ha : a ∈ s.all) (hb : b ∈ s.all) {i : Nat}
    (h1 : a.index = some i) (h2 : b.index = some i) : a = b := by
  obtain ⟨j, e1, _, e2⟩ := hs.idx a ha
  obtain ⟨k, e3, _, e4⟩ := hs.idx b hb
  rw [h1] at e1; obtain rfl := Option.some.inj e1
  rw [h2] at e3; obtain rfl := Option.some.inj e3
  rw [e2] at e4
  exact List.inj_on_of_nodup_map h.ips ha hb (Option.some.inj e4)

theorem slots_done {N : Nat} {A : List Addr} {s : St} {u : Spec.Aliaser.Users} (h : Inv N s u) (hs : Slots A s) : Slots A (doneEdit s).1 := by
  refine ⟨hs.perm, ?_, ?_, ?_⟩
  · intro a ha
    have ha' := List.mem_filter.mp ha
    obtain ⟨i, h1, h2, h3⟩ := hs.idx a ha'.1
    refine ⟨i, h1, h2, ?_⟩
    rw [done_slots hs, if_neg]
    · exact h3
    · rintro ⟨b, hb, h0, hi⟩
      have := slot_inj h hs hb ha'.1 hi h1
      subst this
      simp [h0] at ha'
  · intro i ip hi
    rw [done_slots hs] at hi
    by_cases e : ∃ a ∈ s.all, a.links = 0 ∧ a.index = some i
    · rw [if_pos e] at hi; cases hi
    · rw [if_neg e] at hi
      obtain ⟨a, ha, h1, h2⟩ := hs.cov i ip hi
      refine ⟨a, List.mem_filter.mpr ⟨ha, ?_⟩, h1, h2⟩
      simp only [ne_eq, decide_not, Bool.not_eq_true', decide_eq_false_iff_not]
      exact fun h0 => e ⟨a, ha, h0, h1⟩
  · intro a ha
    exact hs.sub a (List.mem_filter.mp ha).1

/-- An interface stays as long as somebody has its address. -/
theorem done_keeps {N : Nat} {A : List Addr} {s : St} {u : Spec.Aliaser.Users} (h : Inv N s u) (hs : Slots A s) (i : Nat) (ip : Addr) (hi : s.slots i = some ip) :
    (∃ k, ip ∈ u.has k) ↔ (doneEdit s).1.slots i = some ip := by
  rw [done_slots hs]
  obtain ⟨a, ha, h1, h2⟩ := hs.cov i ip hi
  constructor
  · rintro ⟨k, hk⟩
    rw [if_neg]
    · exact hi
    · rintro ⟨b, hb, h0, hb1⟩
      have := slot_inj h hs hb ha hb1 h1
      subst this
      exact (inv_links_zero h hb).mp h0 k (by rw [h2]; exact hk)
  · intro hx
    by_cases e : ∃ a ∈ s.all, a.links = 0 ∧ a.index = some i
    · rw [if_pos e] at hx; cases hx
    · have hne : ¬ a.links = 0 := fun h0 => e ⟨a, ha, h0, h1⟩
      rw [inv_links_zero h ha] at hne
      simp only [not_forall, not_not] at hne
      obtain ⟨k, hk⟩ := hne
      exact ⟨k, by rw [← h2]; exact hk⟩

def news : Op → List Addr
  | .add _ ip => [ip]
  | _ => []

theorem slots_step {N : Nat} {A : List Addr} {s : St} {u : Spec.Aliaser.Users} (h : Inv N s u) (hs : Slots A s) (hA : A.eraseDups.length ≤ 256) (o : Op)
    (ho : user o < N) (hn : ∀ ip ∈ news o, ip ∈ A) (s' : St) (b : Bool) (he : step s o = some (s', b)) : Slots A s' := by
  cases o with
  | start k real =>
    rw [step, start_eq h] at he
    simp only [Option.map_some, Option.some.injEq, Prod.mk.injEq] at he
    rw [← he.1]
    exact slots_map hs (bump_same _ _) _ _
  | done k =>
    rw [step] at he
    have : s' = (doneEdit s).1 := by rw [Option.some.injEq] at he; rw [he]
    rw [this]; exact slots_done h hs
  | destroy k real =>
    rw [step, start_eq h] at he
    simp only [Option.map_some, Option.some.injEq] at he
    have : s' = (doneEdit { s with all := s.all.map (bump (s.loc k) (-1)), loc := upd s.loc k [], real := upd s.real k real }).1 := by rw [he]
    rw [this]
    exact slots_done (inv_start h k ho real) (slots_map hs (bump_same _ _) _ _)
  | add k ip =>
    rw [step] at he
    rcases add_cases h k ip with ⟨hc, he'⟩ | ⟨hc, a, ha, hip, he'⟩ | ⟨hc, hno, he'⟩
    · rw [he'] at he
      simp only [Option.some.injEq, Prod.mk.injEq] at he
      rw [← he.1]; exact hs
    · rw [he'] at he
      simp only [Option.some.injEq, Prod.mk.injEq] at he
      rw [← he.1]
      exact slots_map hs (bump_same _ _) _ s.real
    · obtain ⟨i, hi, hnone, ht⟩ := take_new h hs hA ip (hn ip (by simp [news])) hno
      rw [he', ht] at he
      simp only [Option.some.injEq, Prod.mk.injEq] at he
      rw [← he.1]
      refine ⟨hs.perm, ?_, ?_, ?_⟩
      · intro a ha
        rcases List.mem_append.mp ha with ha | ha
        · obtain ⟨j, h1, h2, h3⟩ := hs.idx a ha
          refine ⟨j, h1, h2, ?_⟩
          show upd s.slots i (some ip) j = _
          rw [upd_other _ _ (by rintro rfl; rw [hnone] at h3; cases h3)]; exact h3
        · rw [List.mem_singleton.mp ha]
          exact ⟨i, rfl, hi, upd_same _ _ _⟩
      · intro j jp hj
        have hj' : upd s.slots i (some ip) j = some jp := hj
        by_cases e : j = i
        · subst e
          rw [upd_same] at hj'
          exact ⟨⟨s.next, ip, some j, 1⟩, by simp, rfl, Option.some.inj hj'⟩
        · rw [upd_other _ _ e] at hj'
          obtain ⟨a, ha, h1, h2⟩ := hs.cov j jp hj'
          exact ⟨a, by simp [ha], h1, h2⟩
      · intro a ha
        rcases List.mem_append.mp ha with ha | ha
        · exact hs.sub a ha
        · rw [List.mem_singleton.mp ha]; exact hn ip (by simp [news])

theorem added_news (l : List Op) : added l = l.flatMap news := by
  induction l with
  | nil => rfl
  | cons o l ih => cases o <;> simp [added, news, ih]

theorem both_run {N : Nat} {A : List Addr} (hA : A.eraseDups.length ≤ 256) (l : List Op) : ∀ (s : St) (u : Spec.Aliaser.Users), Inv N s u → Slots A s → (∀ o ∈ l, user o < N) →
    (∀ ip ∈ added l, ip ∈ A) → ∃ s', run s l = some s' ∧ Inv N s' (l.foldl Spec.Aliaser.step u) ∧ Slots A s' := by
  induction l with
  | nil => intro s u h hs _ _; exact ⟨s, rfl, h, hs⟩
  | cons o l ih =>
    intro s u h hs hl hadd
    obtain ⟨s', b, he, h'⟩ := inv_step h o (hl o (by simp))
    have hn : ∀ ip ∈ news o, ip ∈ A := by
      intro ip hip; apply hadd; rw [added_news, List.flatMap_cons]; exact List.mem_append_left _ hip
    have hs' := slots_step h hs hA o (hl o (by simp)) hn s' b he
    obtain ⟨s'', he', h'', hs''⟩ := ih s' _ h' hs' (fun o ho => hl o (by simp [ho])) (by
      intro ip hip; apply hadd; rw [added_news, List.flatMap_cons]; rw [added_news] at hip; exact List.mem_append_right _ hip)
    exact ⟨s'', by rw [run, he]; exact he', h'', hs''⟩

theorem slots_init (A : List Addr) : Slots A (new (fun _ => none) true) :=
  ⟨rfl, (by intro a ha; cases ha), (by intro i ip h; cases h), (by intro a ha; cases ha)⟩

theorem run_append (l m : List Op) : ∀ s, run s (l ++ m) = (run s l).bind fun s => run s m := by
  induction l with
  | nil => intro s; rfl
  | cons o l ih =>
    intro s
    rw [List.cons_append, run, run]
    cases step s o with
    | none => rfl
    | some r => exact ih r.1

end Als
open Als

/-- C92: no history leads to a pointer that is not valid, and each object has the addresses it was given since it last started over. -/
theorem C92_users (slots : Nat → Option Addr) (perm : Bool) (l : List Op) :
    ∃ s, run (new slots perm) l = some s ∧ ∀ k, (s.loc k).map (ipOf s.all) = ((users l).has k).map some := by
  obtain ⟨N, hN⟩ := bound l
  obtain ⟨s, he, h⟩ := inv_run l _ _ (inv_init N slots perm) hN
  exact ⟨s, he, h.has⟩

example : (run (new (fun _ => none) true) [.start 1 (fun _ => false), .add 1 5, .add 1 6, .done 1, .start 2 (fun _ => false), .add 2 5, .done 2,
    .start 1 (fun _ => false), .add 1 6, .done 1]).map (fun s => (s.slots 0, s.slots 1, s.slots 2)) = some (some 5, some 6, none) := by decide +kernel

/-- C92: as long as the process may make interfaces and at most 256 addresses are ever added: whatever was done, every address some object has is on one
    interface, which no other address is on. -/
theorem C92_up_partial (l : List Op) (hl : (added l).eraseDups.length ≤ 256) (s : St) (he : run (new (fun _ => none) true) l = some s)
    (k : Nat) (ip : Addr) (hk : ip ∈ (users l).has k) : ∃ i, i < 256 ∧ s.slots i = some ip ∧ ∀ j, s.slots j = some ip → j = i := by
  obtain ⟨N, hN⟩ := bound l
  obtain ⟨s', he', h, hs⟩ := both_run hl l _ _ (inv_init N _ _) (slots_init (added l)) hN (fun _ h => h)
  rw [he] at he'
  obtain rfl := Option.some.inj he'
  have : some ip ∈ (s.loc k).map (ipOf s.all) := by rw [h.has k]; exact List.mem_map.mpr ⟨_, hk, rfl⟩
  obtain ⟨id, _, hid⟩ := List.mem_map.mp this
  obtain ⟨a, ha, _, hip⟩ := ipOf_some hid
  obtain ⟨i, h1, h2, h3⟩ := hs.idx a ha
  refine ⟨i, h2, by rw [h3, hip], ?_⟩
  intro j hj
  obtain ⟨b, hb, h4, h5⟩ := hs.cov j ip hj
  have : b = a := List.inj_on_of_nodup_map h.ips hb ha (by show b.ip = a.ip; rw [h5, hip])
  rw [this, h1] at h4
  exact (Option.some.inj h4).symm

/-- C92: after an object ended its changes, or was deleted, the interfaces are those of the addresses some object has. -/
theorem C92_down_partial (l : List Op) (o : Op) (ho : (∃ k, o = .done k) ∨ ∃ k real, o = .destroy k real) (hl : (added l).eraseDups.length ≤ 256) (s : St)
    (he : run (new (fun _ => none) true) (l ++ [o]) = some s) (i : Nat) (ip : Addr) (hi : s.slots i = some ip) : ∃ k, ip ∈ (users (l ++ [o])).has k := by
  obtain ⟨N, hN⟩ := bound (l ++ [o])
  obtain ⟨s', he', h, hs⟩ := both_run hl l _ _ (inv_init N _ _) (slots_init (added l)) (fun o ho => hN o (by simp [ho])) (fun _ h => h)
  rw [run_append, he'] at he
  have huser : user o < N := hN o (by simp)
  have key : ∀ (s1 : St) (u1 : Spec.Aliaser.Users), Inv N s1 u1 → Slots (added l) s1 → (doneEdit s1).1.slots i = some ip → ∃ k, ip ∈ u1.has k := by
    intro s1 u1 h1 hs1 hx
    have hx' := hx
    rw [done_slots hs1] at hx'
    split at hx'
    · cases hx'
    · exact (done_keeps h1 hs1 i ip hx').mpr hx
  unfold users
  rw [List.foldl_append]
  rcases ho with ⟨k, rfl⟩ | ⟨k, real, rfl⟩
  · have e : s = (doneEdit s').1 := by
      have : some (doneEdit s').1 = some s := he
      exact (Option.some.inj this).symm
    rw [e] at hi
    exact key s' _ h hs hi
  · have e : (startEdit s' k real).map (fun s => (doneEdit s).1) = some s := by
      rw [← he]
      show _ = ((startEdit s' k real).map doneEdit).bind fun r => some r.1
      cases startEdit s' k real <;> rfl
    rw [start_eq h] at e
    have e2 := Option.some.inj e
    rw [← e2] at hi
    exact key _ _ (inv_start h k huser real) (slots_map hs (bump_same _ _) _ _) hi

/-- C92: a call never takes away the interface of an address that an object has afterwards, and `start_edit` and `add` take nothing away. -/
theorem C92_kept_partial (l : List Op) (o : Op) (hl : (added (l ++ [o])).eraseDups.length ≤ 256) (s s' : St)
    (he : run (new (fun _ => none) true) l = some s) (he' : run (new (fun _ => none) true) (l ++ [o]) = some s') (i : Nat) (ip : Addr) (hi : s.slots i = some ip) :
    ((∃ k, ip ∈ (users (l ++ [o])).has k) → s'.slots i = some ip) ∧
    ((∃ k real, o = .start k real) ∨ (∃ k ip', o = .add k ip') → s'.slots i = some ip) := by
  obtain ⟨N, hN⟩ := bound (l ++ [o])
  have hsubA : ∀ ip ∈ added l, ip ∈ added (l ++ [o]) := by
    intro ip hip; rw [added_news] at *; rw [List.flatMap_append]; exact List.mem_append_left _ hip
  obtain ⟨t, et, h, hs⟩ := both_run hl l _ _ (inv_init N _ _) (slots_init _) (fun o ho => hN o (by simp [ho])) hsubA
  rw [he] at et
  obtain rfl := Option.some.inj et
  rw [run_append, he] at he'
  have huser : user o < N := hN o (by simp)
  have stepkeep : (∃ k real, o = .start k real) ∨ (∃ k ip', o = .add k ip') → s'.slots i = some ip := by
    rintro (⟨k, real, rfl⟩ | ⟨k, ip', rfl⟩)
    · have e : startEdit s k real = some s' := by
        rw [← he']
        show _ = ((startEdit s k real).map fun s => (s, false)).bind fun r => some r.1
        cases startEdit s k real <;> rfl
      rw [start_eq h] at e
      rw [← Option.some.inj e]; exact hi
    · have e : (add s k ip').map Prod.fst = some s' := by
        rw [← he']
        show _ = (add s k ip').bind fun r => some r.1
        cases add s k ip' <;> rfl
      rcases add_cases h k ip' with ⟨_, ha⟩ | ⟨_, a, _, _, ha⟩ | ⟨_, hno, ha⟩
      · rw [ha] at e; rw [← Option.some.inj e]; exact hi
      · rw [ha] at e; rw [← Option.some.inj e]; exact hi
      · obtain ⟨j, _, hnone, ht⟩ := take_new h hs hl ip' (by rw [added_news, List.flatMap_append]; simp [news]) hno
        rw [ha, ht] at e
        rw [← Option.some.inj e]
        show upd s.slots j (some ip') i = some ip
        rw [upd_other _ _ (by rintro rfl; rw [hnone] at hi; cases hi)]; exact hi
  refine ⟨?_, stepkeep⟩
  intro hk
  cases o with
  | start k real => exact stepkeep (Or.inl ⟨k, real, rfl⟩)
  | add k ip' => exact stepkeep (Or.inr ⟨k, ip', rfl⟩)
  | done k =>
    have e : s' = (doneEdit s).1 := by
      have : some (doneEdit s).1 = some s' := he'
      exact (Option.some.inj this).symm
    rw [e]
    refine (done_keeps h hs i ip hi).mp ?_
    unfold users at hk
    rw [List.foldl_append] at hk
    exact hk
  | destroy k real =>
    have e : (startEdit s k real).map (fun s => (doneEdit s).1) = some s' := by
      rw [← he']
      show _ = ((startEdit s k real).map doneEdit).bind fun r => some r.1
      cases startEdit s k real <;> rfl
    rw [start_eq h] at e
    rw [← Option.some.inj e]
    refine (done_keeps (inv_start h k huser real) (slots_map hs (bump_same _ _) _ _) i ip hi).mp ?_
    unfold users at hk
    rw [List.foldl_append] at hk
    exact hk

/-- C92: `add` returns true exactly if it made an interface, and otherwise leaves the interfaces as they were; `done_edit` returns true exactly if it took
    one away. -/
theorem C92_result_partial (l : List Op) (o : Op) (hl : (added (l ++ [o])).eraseDups.length ≤ 256) (s s' : St) (b : Bool)
    (he : run (new (fun _ => none) true) l = some s) (he' : step s o = some (s', b)) :
    (∀ k ip, o = .add k ip → (b = true → ∃ i, s.slots i = none ∧ s'.slots = upd s.slots i (some ip)) ∧ (b = false → s'.slots = s.slots)) ∧
    (∀ k, o = .done k → (b = true ↔ ∃ i ip, s.slots i = some ip ∧ s'.slots i = none)) := by
  obtain ⟨N, hN⟩ := bound (l ++ [o])
  have hsubA : ∀ ip ∈ added l, ip ∈ added (l ++ [o]) := by
    intro ip hip; rw [added_news] at *; rw [List.flatMap_append]; exact List.mem_append_left _ hip
  obtain ⟨t, et, h, hs⟩ := both_run hl l _ _ (inv_init N _ _) (slots_init _) (fun o ho => hN o (by simp [ho])) hsubA
  rw [he] at et
  obtain rfl := Option.some.inj et
  constructor
  · rintro k ip rfl
    rw [step] at he'
    rcases add_cases h k ip with ⟨_, ha⟩ | ⟨_, a, _, _, ha⟩ | ⟨_, hno, ha⟩
    · rw [ha] at he'
      simp only [Option.some.injEq, Prod.mk.injEq] at he'
      refine ⟨fun hb => ?_, fun _ => by rw [← he'.1]⟩
      rw [← he'.2] at hb; cases hb
    · rw [ha] at he'
      simp only [Option.some.injEq, Prod.mk.injEq] at he'
      refine ⟨fun hb => ?_, fun _ => by rw [← he'.1]⟩
      rw [← he'.2] at hb; cases hb
    · obtain ⟨j, _, hnone, ht⟩ := take_new h hs hl ip (by rw [added_news, List.flatMap_append]; simp [news]) hno
      rw [ha, ht] at he'
      simp only [Option.some.injEq, Prod.mk.injEq] at he'
      refine ⟨fun _ => ⟨j, hnone, by rw [← he'.1]⟩, fun hb => ?_⟩
      rw [← he'.2] at hb; cases hb
  · rintro k rfl
    have e1 : s' = (doneEdit s).1 := by rw [step, Option.some.injEq] at he'; rw [he']
    have e2 : b = s.all.any fun a => a.links = 0 := by
      rw [step, Option.some.injEq] at he'
      have : b = (doneEdit s).2 := by rw [he']
      exact this
    rw [e1, e2]
    simp only [List.any_eq_true, decide_eq_true_eq]
    constructor
    · rintro ⟨a, ha, h0⟩
      obtain ⟨i, h1, h2, h3⟩ := hs.idx a ha
      exact ⟨i, a.ip, h3, by rw [done_slots hs, if_pos ⟨a, ha, h0, h1⟩]⟩
    · rintro ⟨i, ip, h1, h2⟩
      rw [done_slots hs] at h2
      split at h2
      · rename_i hx
        obtain ⟨a, ha, h0, _⟩ := hx
        exact ⟨a, ha, h0⟩
      · rw [h1] at h2; cases h2

/-- C92: without permission `add` returns true although no interface was made. -/
theorem C92_created_fails : (step (new (fun _ => none) false) (.add 1 5)).map (fun r => (r.2, r.1.slots 0)) = some (true, none) := by decide +kernel

/-- C92: an address goes away for a while, although the object that has it always adds it again, if another object ends its changes in between. -/
theorem C92_temporary_fails : ∃ l m : List Op, (∀ o ∈ m, o = .start 2 (fun _ => false) ∨ o = .done 2) ∧
    (run (new (fun _ => none) true) l).map (fun s => s.slots 0) = some (some 5) ∧
    (run (new (fun _ => none) true) (l ++ [.start 1 (fun _ => false)] ++ m)).map (fun s => s.slots 0) = some none ∧
    (run (new (fun _ => none) true) (l ++ [.start 1 (fun _ => false)] ++ m ++ [.add 1 5, .done 1])).map (fun s => s.slots 0) = some (some 5) :=
  ⟨[.start 1 (fun _ => false), .add 1 5, .done 1], [.start 2 (fun _ => false), .done 2],
    by intro o ho; simpa using ho, by decide +kernel, by decide +kernel, by decide +kernel⟩

/-- C92: an interface with the address that was there before is taken over, and taken away in the end. -/
theorem C92_foreign_fails : (run (new (fun i => if i = 0 then some 5 else none) true) [.start 1 (fun _ => false), .add 1 5, .done 1, .destroy 1 (fun _ => false)]).map
    (fun s => s.slots 0) = some none := by decide +kernel

end Props
