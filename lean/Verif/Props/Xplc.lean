import Verif.Model.Xplc
import Verif.Spec.Xplc
import Verif.Lemmas.Basic
/- C85: the registry of components. -/
namespace Props
open Wv Wv.Xplc

namespace Xp

/-- How often an object is referenced according to a ledger. -/
def balance (l : Ledger) (o : Obj) : Int := (l.map fun e => if e.1 = o then e.2 else 0).sum

theorem balance_append (a b : Ledger) (o : Obj) : balance (a ++ b) o = balance a o + balance b o := by
  simp [balance]

/-- What the program does for a call. -/
def call (s : List Node × Ledger) : Spec.Xplc.Call → List Node × Ledger
  | .add h => ((addHandler s.1 h).1, s.2 ++ (addHandler s.1 h).2)
  | .addFirst h => ((addFirst s.1 h).1, s.2 ++ (addFirst s.1 h).2)
  | .addLast h => ((addLast s.1 h).1, s.2 ++ (addLast s.1 h).2)
  | .remove h => ((remove h s.1).1, s.2 ++ (remove h s.1).2)

/-- The nodes are in order. -/
def nodes (o : Spec.Xplc.Order) : List Node := o.firsts.map (⟨·, true⟩) ++ (o.others ++ o.lasts).map (⟨·, false⟩)

theorem nodes_handlers (o : Spec.Xplc.Order) : (nodes o).map (·.handler) = o.all := by
  simp [nodes, Spec.Xplc.Order.all, Function.comp_def]

theorem any_iff (o : Spec.Xplc.Order) (h : Obj) : (nodes o).any (·.handler == h) = true ↔ h ∈ o.all := by
  rw [← nodes_handlers o, List.any_eq_true, List.mem_map]
  constructor
  · rintro ⟨x, hx, e⟩; exact ⟨x, hx, eq_of_beq e⟩
  · rintro ⟨x, hx, e⟩; exact ⟨x, hx, by rw [e]; simp⟩

theorem putIn_nodes (h : Obj) (r : List Obj) : ∀ f : List Obj, putIn ⟨h, false⟩ (f.map (⟨·, true⟩) ++ r.map (⟨·, false⟩)) =
    f.map (⟨·, true⟩) ++ ⟨h, false⟩ :: r.map (⟨·, false⟩)
  | [] => by
    cases r with
    | nil => rfl
    | cons x r =>
      simp only [List.map_nil, List.nil_append, List.map_cons, putIn]
      rw [if_neg]
      simp
  | a :: f => by
    simp only [List.map_cons, List.cons_append, putIn]
    rw [if_pos (by simp), putIn_nodes h r f]

theorem remove_eq (h : Obj) : ∀ l : List Node, (l.map (·.handler)).Nodup →
    (remove h l).1 = l.filter (·.handler ≠ h) ∧
    ∀ x, balance (remove h l).2 x = if x = h ∧ h ∈ l.map (·.handler) then -1 else 0
  | [], _ => ⟨rfl, fun x => by simp [remove, balance]⟩
  | n :: l, hn => by
    rw [List.map_cons, List.nodup_cons] at hn
    obtain ⟨h1, h2⟩ := remove_eq h l hn.2
    rw [remove]
    by_cases e : n.handler = h
    · rw [if_pos (by simp [e])]
      constructor
      · rw [List.filter_cons_of_neg (by simp [e])]
        refine (List.filter_eq_self.mpr ?_).symm
        intro y hy
        simp only [decide_eq_true_eq, ne_eq]
        intro h'
        exact hn.1 (by rw [e, ← h']; exact List.mem_map_of_mem hy)
      · intro x
        by_cases hx : x = h
        · simp [balance, hx, e]
        · have : ¬ h = x := fun h' => hx h'.symm
          simp [balance, hx, this]
    · rw [if_neg (by simp [e])]
      constructor
      · rw [List.filter_cons_of_pos (by simp [e]), h1]
      · intro x
        rw [h2 x]
        have : ¬ h = n.handler := fun h' => e h'.symm
        simp [this]

theorem filter_map (b : Bool) (h : Obj) (l : List Obj) :
    (l.map (⟨·, b⟩ : Obj → Node)).filter (·.handler ≠ h) = (l.filter (· ≠ h)).map (⟨·, b⟩) := by
  rw [List.filter_map]; rfl

/-- The invariant. -/
structure Inv (s : List Node × Ledger) (o : Spec.Xplc.Order) : Prop where
  nodes : s.1 = nodes o
  nodup : o.all.Nodup
  refs : ∀ h, balance s.2 h = if h ∈ o.all then 1 else 0

theorem all_add (o : Spec.Xplc.Order) (h x : Obj) (c : Spec.Xplc.Call) (hc : c = .add h ∨ c = .addFirst h ∨ c = .addLast h) (hn : h ∉ o.all) :
    x ∈ (Spec.Xplc.step o c).all ↔ x = h ∨ x ∈ o.all := by
  rcases hc with rfl | rfl | rfl
  · have e : Spec.Xplc.step o (.add h) = ⟨o.firsts, h :: o.others, o.lasts⟩ := if_neg hn
    rw [e]; simp only [Spec.Xplc.Order.all, List.mem_append, List.mem_cons]
    constructor
    · rintro ((h' | h' | h') | h')
      · exact .inr (.inl (.inl h'))
      · exact .inl h'
      · exact .inr (.inl (.inr h'))
      · exact .inr (.inr h')
    · rintro (h' | (h' | h') | h')
      · exact .inl (.inr (.inl h'))
      · exact .inl (.inl h')
      · exact .inl (.inr (.inr h'))
      · exact .inr h'
  · have e : Spec.Xplc.step o (.addFirst h) = ⟨h :: o.firsts, o.others, o.lasts⟩ := if_neg hn
    rw [e]; simp only [Spec.Xplc.Order.all, List.mem_append, List.mem_cons, or_assoc]
  · have e : Spec.Xplc.step o (.addLast h) = ⟨o.firsts, o.others, o.lasts ++ [h]⟩ := if_neg hn
    rw [e]; simp only [Spec.Xplc.Order.all, List.mem_append, List.mem_singleton]
    constructor
    · rintro (h' | h' | h')
      · exact .inr (.inl h')
      · exact .inr (.inr h')
      · exact .inl h'
    · rintro (h' | h' | h')
      · exact .inr (.inr h')
      · exact .inl h'
      · exact .inr (.inl h')

theorem nodup_insert (a b : List Obj) (h : Obj) (hn : (a ++ b).Nodup) (hh : h ∉ a ++ b) : (a ++ h :: b).Nodup := by
  rw [List.nodup_append] at hn ⊢
  simp only [List.mem_append, not_or] at hh
  refine ⟨hn.1, List.nodup_cons.mpr ⟨hh.2, hn.2.1⟩, ?_⟩
  intro x hx y hy
  rcases List.mem_cons.mp hy with rfl | hy
  · exact fun e => hh.1 (e ▸ hx)
  · exact hn.2.2 x hx y hy

theorem inv_step (s : List Node × Ledger) (o : Spec.Xplc.Order) (hi : Inv s o) (c : Spec.Xplc.Call) :
    Inv (call s c) (Spec.Xplc.step o c) := by
  obtain ⟨h1, h2, h3⟩ := hi
  have hadd : ∀ (h : Obj) (c : Spec.Xplc.Call), (c = .add h ∨ c = .addFirst h ∨ c = .addLast h) → h ∉ o.all →
      ∀ x, balance (s.2 ++ [(h, 1)]) x = if x ∈ (Spec.Xplc.step o c).all then 1 else 0 := by
    intro h c hc hn x
    rw [balance_append, h3 x]
    simp only [all_add o h x c hc hn]
    by_cases hx : x = h
    · subst hx; simp [hn, balance]
    · have : ¬ h = x := fun e => hx e.symm
      simp [hx, this, balance]
  cases c with
  | add h =>
    by_cases hh : h ∈ o.all
    · have hany : s.1.any (·.handler == h) = true := by rw [h1]; exact (any_iff o h).mpr hh
      have e1 : call s (.add h) = s := by simp [call, addHandler, hany]
      have e2 : Spec.Xplc.step o (.add h) = o := by simp [Spec.Xplc.step, hh]
      rw [e1, e2]; exact ⟨h1, h2, h3⟩
    · have hany : ¬ s.1.any (·.handler == h) = true := by rw [h1, any_iff]; exact hh
      have e : Spec.Xplc.step o (.add h) = ⟨o.firsts, h :: o.others, o.lasts⟩ := if_neg hh
      have e2 : addHandler s.1 h = (putIn ⟨h, false⟩ s.1, [(h, 1)]) := if_neg hany
      refine ⟨?_, ?_, ?_⟩
      · simp only [call, e2]
        rw [e, h1, nodes, putIn_nodes]; simp [nodes]
      · rw [e]
        simp only [Spec.Xplc.Order.all] at h2 hh ⊢
        rw [List.append_assoc, List.cons_append]
        exact nodup_insert _ _ h (by rw [← List.append_assoc]; exact h2) (by rw [← List.append_assoc]; exact hh)
      · simp only [call, e2]
        exact hadd h _ (.inl rfl) hh
  | addFirst h =>
    by_cases hh : h ∈ o.all
    · have hany : s.1.any (·.handler == h) = true := by rw [h1]; exact (any_iff o h).mpr hh
      have e1 : call s (.addFirst h) = s := by simp [call, addFirst, hany]
      have e2 : Spec.Xplc.step o (.addFirst h) = o := by simp [Spec.Xplc.step, hh]
      rw [e1, e2]; exact ⟨h1, h2, h3⟩
    · have hany : ¬ s.1.any (·.handler == h) = true := by rw [h1, any_iff]; exact hh
      have e : Spec.Xplc.step o (.addFirst h) = ⟨h :: o.firsts, o.others, o.lasts⟩ := if_neg hh
      have e2 : addFirst s.1 h = (⟨h, true⟩ :: s.1, [(h, 1)]) := if_neg hany
      refine ⟨?_, ?_, ?_⟩
      · simp only [call, e2]
        rw [e, h1]; simp [nodes]
      · rw [e]
        simp only [Spec.Xplc.Order.all] at h2 hh ⊢
        rw [List.append_assoc, List.cons_append]
        exact List.nodup_cons.mpr ⟨by rw [← List.append_assoc]; exact hh, by rw [← List.append_assoc]; exact h2⟩
      · simp only [call, e2]
        exact hadd h _ (.inr (.inl rfl)) hh
  | addLast h =>
    by_cases hh : h ∈ o.all
    · have hany : s.1.any (·.handler == h) = true := by rw [h1]; exact (any_iff o h).mpr hh
      have e1 : call s (.addLast h) = s := by simp [call, addLast, hany]
      have e2 : Spec.Xplc.step o (.addLast h) = o := by simp [Spec.Xplc.step, hh]
      rw [e1, e2]; exact ⟨h1, h2, h3⟩
    · have hany : ¬ s.1.any (·.handler == h) = true := by rw [h1, any_iff]; exact hh
      have e : Spec.Xplc.step o (.addLast h) = ⟨o.firsts, o.others, o.lasts ++ [h]⟩ := if_neg hh
      have e2 : addLast s.1 h = (s.1 ++ [⟨h, false⟩], [(h, 1)]) := if_neg hany
      refine ⟨?_, ?_, ?_⟩
      · simp only [call, e2]
        rw [e, h1]; simp [nodes]
      · rw [e]
        simp only [Spec.Xplc.Order.all] at h2 hh ⊢
        rw [← List.append_assoc]
        exact nodup_insert _ [] h (by simpa using h2) (by simpa using hh)
      · simp only [call, e2]
        exact hadd h _ (.inr (.inr rfl)) hh
  | remove h =>
    have hnd : (s.1.map (·.handler)).Nodup := by rw [h1, nodes_handlers]; exact h2
    obtain ⟨r1, r2⟩ := remove_eq h s.1 hnd
    have hall : (Spec.Xplc.step o (.remove h)).all = o.all.filter (· ≠ h) := by
      simp only [Spec.Xplc.step, Spec.Xplc.Order.all, List.filter_append]
    refine ⟨?_, ?_, ?_⟩
    · simp only [call]
      rw [r1, h1]
      simp only [nodes, Spec.Xplc.step]
      rw [List.filter_append, filter_map, filter_map, List.filter_append]
    · rw [hall]; exact h2.filter _
    · intro x
      simp only [call]
      rw [balance_append, h3 x, r2 x, hall, h1, nodes_handlers]
      simp only [List.mem_filter, decide_eq_true_eq, ne_eq]
      by_cases hx : x = h
      · subst hx
        by_cases hm : x ∈ o.all <;> simp [hm]
      · by_cases hm : x ∈ o.all <;> simp [hm, hx]

end Xp
open Xp

/-- C85: after any calls the handlers are asked in the order that the calls ask for, and the first answer counts. -/
theorem C85_get (cs : List Spec.Xplc.Call) (ask : Nat → Nat → Option Nat) (u : Nat) :
    getObject ask u (cs.foldl call ([], [])).1 = (cs.foldl Spec.Xplc.step ⟨[], [], []⟩).all.findSome? fun h => ask h u := by
  have hinv : ∀ (cs : List Spec.Xplc.Call) s o, Inv s o → Inv (cs.foldl call s) (cs.foldl Spec.Xplc.step o) := by
    intro cs
    induction cs with
    | nil => intro s o h; exact h
    | cons c cs ih => intro s o h; exact ih _ _ (inv_step s o h c)
  have h := hinv cs ([], []) ⟨[], [], []⟩ ⟨rfl, List.nodup_nil, fun h => by simp [balance, Spec.Xplc.Order.all]⟩
  rw [← nodes_handlers, ← h.nodes]
  generalize (cs.foldl call ([], [])).1 = l
  induction l with
  | nil => rfl
  | cons n l ih =>
    simp only [getObject, List.map_cons, List.findSome?_cons]
    cases ask n.handler u with
    | none => exact ih
    | some o => rfl

/-- C85: and each handler that is there is referenced once, all others are not. -/
theorem C85_handler_refs (cs : List Spec.Xplc.Call) (h : Nat) :
    balance (cs.foldl call ([], [])).2 h = if h ∈ (cs.foldl Spec.Xplc.step ⟨[], [], []⟩).all then 1 else 0 := by
  have hinv : ∀ (cs : List Spec.Xplc.Call) s o, Inv s o → Inv (cs.foldl call s) (cs.foldl Spec.Xplc.step o) := by
    intro cs
    induction cs with
    | nil => intro s o h; exact h
    | cons c cs ih => intro s o h; exact ih _ _ (inv_step s o h c)
  exact (hinv cs ([], []) ⟨[], [], []⟩ ⟨rfl, List.nodup_nil, fun h => by simp [balance, Spec.Xplc.Order.all]⟩).refs h

/-- Three handlers that are added are asked the latest first, but between the first and the last one. -/
example : ([.add 1, .addLast 2, .add 3, .addFirst 4, .add 5, .remove 3, .add 1].foldl Spec.Xplc.step ⟨[], [], []⟩).all = [4, 5, 1, 2] := by
  decide

/-! ### Objects under a UUID -/

namespace Xp

/-- What the program does for a call. -/
def putCall (s : List (Uuid × Obj) × Ledger) : Spec.Xplc.Put → List (Uuid × Obj) × Ledger
  | .add u o => ((staticAdd s.1 u o).1, s.2 ++ (staticAdd s.1 u o).2)
  | .remove u => ((staticRemove u s.1).1, s.2 ++ (staticRemove u s.1).2)

theorem any_map (l : List (Uuid × Obj)) (u : Uuid) : l.any (·.1 == u) = true ↔ u ∈ l.map (·.1) := by
  rw [List.any_eq_true, List.mem_map]
  constructor
  · rintro ⟨x, hx, e⟩; exact ⟨x, hx, eq_of_beq e⟩
  · rintro ⟨x, hx, e⟩; exact ⟨x, hx, by rw [e]; simp⟩

theorem get_iff (l : List (Uuid × Obj)) (hn : (l.map (·.1)).Nodup) (u : Uuid) (o : Obj) :
    (staticGet u l).1 = some o ↔ (u, o) ∈ l := by
  induction l with
  | nil => simp [staticGet]
  | cons e l ih =>
    obtain ⟨v, p⟩ := e
    rw [List.map_cons, List.nodup_cons] at hn
    simp only [staticGet]
    by_cases h : v = u
    · subst h
      rw [if_pos (by simp)]
      simp only [Option.some.injEq, List.mem_cons, Prod.mk.injEq, true_and]
      constructor
      · intro h; exact .inl h.symm
      · rintro (h | h)
        · exact h.symm
        · exact absurd (List.mem_map_of_mem (f := (·.1)) h) hn.1
    · rw [if_neg (by simpa using h), ih hn.2]
      have : ¬ u = v := fun e => h e.symm
      simp [this]

theorem get_none (l : List (Uuid × Obj)) (u : Uuid) : (staticGet u l).1 = none ↔ u ∉ l.map (·.1) := by
  induction l with
  | nil => simp [staticGet]
  | cons e l ih =>
    obtain ⟨v, p⟩ := e
    simp only [staticGet]
    by_cases h : v = u
    · simp [h]
    · have : ¬ u = v := fun e => h e.symm
      rw [if_neg (by simpa using h), ih]
      simp [this]

theorem removed (u : Uuid) (l : List (Uuid × Obj)) (hn : (l.map (·.1)).Nodup) :
    (staticRemove u l).1 = l.filter (·.1 ≠ u) ∧
    ∀ o, ((l.filter (·.1 ≠ u)).filter (·.2 = o)).length = (l.filter (·.2 = o)).length + balance (staticRemove u l).2 o := by
  induction l with
  | nil => exact ⟨rfl, fun o => by simp [staticRemove, balance]⟩
  | cons e l ih =>
    obtain ⟨v, p⟩ := e
    rw [List.map_cons, List.nodup_cons] at hn
    obtain ⟨h1, h2⟩ := ih hn.2
    simp only [staticRemove]
    by_cases h : v = u
    · subst h
      rw [if_pos (by simp)]
      have hf : l.filter (·.1 ≠ v) = l := by
        refine List.filter_eq_self.mpr ?_
        intro y hy
        simp only [decide_eq_true_eq, ne_eq]
        intro h'
        exact hn.1 (List.mem_map.mpr ⟨y, hy, h'⟩)
      rw [List.filter_cons_of_neg (by simp), hf]
      refine ⟨rfl, fun o => ?_⟩
      by_cases hp : p = o
      · simp [hp, balance]; omega
      · simp [hp, balance]
    · rw [if_neg (by simpa using h), List.filter_cons_of_pos (by simpa using h), h1]
      refine ⟨rfl, fun o => ?_⟩
      have := h2 o
      by_cases hp : p = o
      · rw [List.filter_cons_of_pos (by simpa using hp), List.filter_cons_of_pos (by simpa using hp), List.length_cons, List.length_cons]
        push_cast
        omega
      · rw [List.filter_cons_of_neg (by simpa using hp), List.filter_cons_of_neg (by simpa using hp)]
        exact this

/-- The invariant. -/
structure Stores (s : List (Uuid × Obj) × Ledger) (m : Nat → Option Nat) : Prop where
  nodup : (s.1.map (·.1)).Nodup
  get : ∀ u, (staticGet u s.1).1 = m u
  refs : ∀ o, balance s.2 o = (s.1.filter (·.2 = o)).length

theorem stores_step (s : List (Uuid × Obj) × Ledger) (m : Nat → Option Nat) (h : Stores s m) (c : Spec.Xplc.Put) :
    Stores (putCall s c) (Spec.Xplc.put m c) := by
  obtain ⟨h1, h2, h3⟩ := h
  cases c with
  | add u o =>
    cases o with
    | none =>
      have e1 : putCall s (.add u none) = s := by simp [putCall, staticAdd]
      have e2 : Spec.Xplc.put m (.add u none) = m := by
        funext v; simp only [Spec.Xplc.put]; split
        · rename_i h; rw [h.1, h.2]
        · rfl
      rw [e1, e2]; exact ⟨h1, h2, h3⟩
    | some o =>
      by_cases hu : s.1.any (·.1 == u) = true
      · have hm : m u ≠ none := by
          rw [← h2 u, ne_eq, get_none]
          exact fun h' => h' ((any_map s.1 u).mp hu)
        have e1 : putCall s (.add u (some o)) = s := by simp [putCall, staticAdd, hu]
        have e2 : Spec.Xplc.put m (.add u (some o)) = m := by
          funext v; simp only [Spec.Xplc.put]; rw [if_neg (fun h => hm h.2)]
        rw [e1, e2]; exact ⟨h1, h2, h3⟩
      · have hnot : u ∉ s.1.map (·.1) := fun h' => hu ((any_map s.1 u).mpr h')
        have hm : m u = none := by rw [← h2 u, get_none]; exact hnot
        have e2 : staticAdd s.1 u (some o) = ((u, o) :: s.1, [(o, 1)]) := by simp only [staticAdd, if_neg hu]
        refine ⟨?_, ?_, ?_⟩
        · simp only [putCall, e2]
          rw [List.map_cons]
          exact List.nodup_cons.mpr ⟨hnot, h1⟩
        · intro v
          simp only [putCall, e2, staticGet, Spec.Xplc.put]
          by_cases hv : v = u
          · subst hv; simp [hm]
          · have : ¬ u = v := fun e => hv e.symm
            rw [if_neg (by simpa using this), if_neg (fun h => hv h.1), h2]
        · intro x
          simp only [putCall, e2]
          rw [balance_append, h3 x]
          by_cases hx : o = x
          · rw [List.filter_cons_of_pos (by simpa using hx), List.length_cons]
            simp [balance, hx]
          · rw [List.filter_cons_of_neg (by simpa using hx)]
            simp [balance, hx]
  | remove u =>
    obtain ⟨r1, r2⟩ := removed u s.1 h1
    refine ⟨?_, ?_, ?_⟩
    · simp only [putCall, r1]
      exact (List.filter_sublist.map _).nodup h1
    · intro v
      simp only [putCall, r1, Spec.Xplc.put]
      by_cases hv : v = u
      · subst hv
        rw [if_pos rfl, get_none]
        simp
      · rw [if_neg hv, ← h2 v]
        apply Option.ext
        intro o
        have hn2 : ((s.1.filter (·.1 ≠ u)).map (·.1)).Nodup := (List.filter_sublist.map _).nodup h1
        rw [get_iff _ hn2, get_iff _ h1, List.mem_filter]
        simp [hv]
    · intro o
      simp only [putCall]
      rw [balance_append, h3 o, r1, r2 o]

theorem stores_all : ∀ (cs : List Spec.Xplc.Put) (s : List (Uuid × Obj) × Ledger) (m : Nat → Option Nat), Stores s m →
    Stores (cs.foldl putCall s) (cs.foldl Spec.Xplc.put m)
  | [], _, _, h => h
  | c :: cs, s, m, h => stores_all cs _ _ (stores_step s m h c)

theorem stores_nil : Stores ([], []) (fun _ => none) := ⟨List.nodup_nil, fun _ => rfl, fun _ => rfl⟩

end Xp

/-- C85: a static handler gives, for a UUID, the first object that was added under it since it was last removed, and the caller a
    reference to it. -/
theorem C85_static_get (cs : List Spec.Xplc.Put) (u : Nat) :
    (staticGet u (cs.foldl putCall ([], [])).1).1 = cs.foldl Spec.Xplc.put (fun _ => none) u ∧
    ∀ o, balance (staticGet u (cs.foldl putCall ([], [])).1).2 o = if cs.foldl Spec.Xplc.put (fun _ => none) u = some o then 1 else 0 := by
  have h := (stores_all cs _ _ stores_nil).get u
  refine ⟨h, fun o => ?_⟩
  rw [← h]
  generalize (cs.foldl putCall ([], [])).1 = l
  induction l with
  | nil => simp [staticGet, balance]
  | cons e l ih =>
    obtain ⟨v, p⟩ := e
    by_cases hv : (v == u) = true
    · have e : staticGet u ((v, p) :: l) = (some p, [(p, 1)]) := if_pos hv
      rw [e]; simp [balance]
    · have e : staticGet u ((v, p) :: l) = staticGet u l := if_neg hv
      rw [e]; exact ih

/-- C85: and it holds one reference to an object for each UUID under which it has it. -/
theorem C85_static_refs (cs : List Spec.Xplc.Put) (o : Nat) :
    ∃ us : List Nat, us.Nodup ∧ (∀ u, u ∈ us ↔ cs.foldl Spec.Xplc.put (fun _ => none) u = some o) ∧
      balance (cs.foldl putCall ([], [])).2 o = us.length := by
  obtain ⟨h1, h2, h3⟩ := stores_all cs _ _ stores_nil
  refine ⟨((cs.foldl putCall ([], [])).1.filter (·.2 = o)).map (·.1), (List.filter_sublist.map _).nodup h1, ?_, ?_⟩
  · intro u
    rw [← h2 u, get_iff _ h1, List.mem_map]
    constructor
    · rintro ⟨⟨v, p⟩, hx, rfl⟩
      have := List.mem_filter.mp hx
      have hp : p = o := by simpa using this.2
      rw [← hp]; exact this.1
    · intro hx
      exact ⟨(u, o), List.mem_filter.mpr ⟨hx, by simp⟩, rfl⟩
  · rw [h3 o, List.length_map]

example : ([.add 1 (some 7), .add 1 (some 8), .add 2 (some 7), .remove 1, .add 1 (some 9)] : List Spec.Xplc.Put).foldl Spec.Xplc.put
    (fun _ => none) 1 = some 9 := by decide

/-! ### Categories -/

namespace Xp

/-- What the program does for a registration. -/
def reg (cats : List Cat) (r : Spec.Xplc.Reg) : List Cat := register cats r.1 r.2.1 r.2.2

theorem registerIn_none (cat comp : Uuid) (t : Option (List Byte)) : ∀ cats : List Cat, registerIn cat comp t cats = none →
    getCategory cat cats = []
  | [], _ => rfl
  | c :: cats, h => by
    simp only [registerIn] at h
    by_cases hc : (c.category == cat) = true
    · rw [if_pos hc] at h; cases h
    · rw [if_neg hc, Option.map_eq_none_iff] at h
      simp only [getCategory]
      rw [if_neg hc]
      exact registerIn_none cat comp t cats h

theorem registerIn_some (cat comp : Uuid) (t : Option (List Byte)) : ∀ cats new : List Cat, registerIn cat comp t cats = some new →
    ∀ k, getCategory k new = if k = cat then addEntry comp t (getCategory k cats) else getCategory k cats
  | [], _, h => by simp [registerIn] at h
  | c :: cats, new, h => by
    intro k
    simp only [registerIn] at h
    by_cases hc : (c.category == cat) = true
    · rw [if_pos hc] at h
      have hc' : c.category = cat := eq_of_beq hc
      cases h
      simp only [getCategory]
      by_cases hk : k = cat
      · subst hk; rw [if_pos hc, if_pos hc, if_pos rfl]
      · have : ¬ (c.category == k) = true := by rw [hc']; simpa using fun e => hk e.symm
        rw [if_neg this, if_neg this, if_neg hk]
    · rw [if_neg hc, Option.map_eq_some_iff] at h
      obtain ⟨n', hn, rfl⟩ := h
      have ih := registerIn_some cat comp t cats n' hn k
      simp only [getCategory]
      by_cases hk : (c.category == k) = true
      · have : ¬ k = cat := fun e => hc (by rw [← e]; exact hk)
        rw [if_pos hk, if_pos hk, if_neg this]
      · rw [if_neg hk, if_neg hk, ih]

theorem register_get (cats : List Cat) (r : Spec.Xplc.Reg) (k : Uuid) :
    getCategory k (reg cats r) = if k = r.1 then addEntry r.2.1 r.2.2 (getCategory k cats) else getCategory k cats := by
  obtain ⟨cat, comp, t⟩ := r
  simp only [reg, register]
  cases h : registerIn cat comp t cats with
  | some new => exact registerIn_some cat comp t cats new h k
  | none =>
    simp only [Option.getD_none, getCategory]
    by_cases hk : k = cat
    · subst hk
      rw [if_pos (by simp), if_pos rfl, registerIn_none k comp t cats h]
    · rw [if_neg (by simpa using fun e => hk e.symm), if_neg hk]

theorem addEntry_suffix (comp : Uuid) (t : Option (List Byte)) (l : List Entry) : l <:+ addEntry comp t l := by
  unfold addEntry
  split
  · exact List.suffix_refl _
  · exact List.suffix_cons _ _

theorem reg_suffix (k : Uuid) : ∀ (hist : List Spec.Xplc.Reg) (cats : List Cat), getCategory k cats <:+ getCategory k (hist.foldl reg cats)
  | [], _ => List.suffix_refl _
  | r :: hist, cats => by
    refine List.IsSuffix.trans ?_ (reg_suffix k hist (reg cats r))
    rw [register_get]
    split
    · exact addEntry_suffix _ _ _
    · exact List.suffix_refl _

/-- What a category holds. -/
structure Holds (l : List Entry) (hist : List Spec.Xplc.Reg) (k : Uuid) : Prop where
  nodup : (l.map (·.1)).Nodup
  mem : ∀ x t, (x, t) ∈ l ↔ Spec.Xplc.firstIn hist k x = some t

theorem firstIn_concat (hist : List Spec.Xplc.Reg) (r : Spec.Xplc.Reg) (k x : Nat) :
    Spec.Xplc.firstIn (hist ++ [r]) k x = (Spec.Xplc.firstIn hist k x).or (if r.1 = k ∧ r.2.1 = x then some r.2.2 else none) := by
  simp only [Spec.Xplc.firstIn, List.find?_append]
  cases hist.find? (fun r => r.1 == k && r.2.1 == x) with
  | some y => rfl
  | none =>
    simp only [Option.none_or, Option.map_none, List.find?_cons, List.find?_nil]
    by_cases h : r.1 = k ∧ r.2.1 = x
    · rw [if_pos h]; simp [h.1, h.2]
    · rw [if_neg h]
      have : (r.1 == k && r.2.1 == x) = false := by
        rw [Bool.eq_false_iff]
        intro h'
        rw [Bool.and_eq_true] at h'
        exact h ⟨eq_of_beq h'.1, eq_of_beq h'.2⟩
      rw [this]; rfl

theorem holds_step (cats : List Cat) (hist : List Spec.Xplc.Reg) (k : Uuid) (r : Spec.Xplc.Reg)
    (h : Holds (getCategory k cats) hist k) : Holds (getCategory k (reg cats r)) (hist ++ [r]) k := by
  obtain ⟨h1, h2⟩ := h
  rw [register_get]
  by_cases hk : k = r.1
  · rw [if_pos hk]
    unfold addEntry
    by_cases ha : (getCategory k cats).any (·.1 == r.2.1) = true
    · rw [if_pos ha]
      refine ⟨h1, fun x t => ?_⟩
      rw [h2, firstIn_concat]
      by_cases hx : r.1 = k ∧ r.2.1 = x
      · rw [List.any_eq_true] at ha
        obtain ⟨⟨y, t'⟩, hy, e⟩ := ha
        have e' : y = r.2.1 := eq_of_beq e
        have := (h2 y t').mp hy
        rw [← hx.2, ← e', this]
        simp
      · rw [if_neg hx, Option.or_none]
    · rw [if_neg ha]
      have hno : ∀ t, (r.2.1, t) ∉ getCategory k cats := fun t hm => ha (List.any_eq_true.mpr ⟨_, hm, by simp⟩)
      refine ⟨?_, fun x t => ?_⟩
      · rw [List.map_cons, List.nodup_cons]
        refine ⟨fun hm => ?_, h1⟩
        obtain ⟨⟨y, t⟩, hy, e⟩ := List.mem_map.mp hm
        have e : y = r.2.1 := e
        subst e
        exact hno t hy
      · rw [List.mem_cons, h2, firstIn_concat]
        by_cases hx : r.2.1 = x
        · have hn : Spec.Xplc.firstIn hist k x = none := by
            cases hf : Spec.Xplc.firstIn hist k x with
            | none => rfl
            | some t' => rw [← hx] at hf; exact absurd ((h2 _ _).mpr hf) (hno t')
          rw [hn, if_pos ⟨hk.symm, hx⟩]
          simp only [Option.none_or, Prod.mk.injEq, Option.some.injEq]
          constructor
          · rintro (h | h)
            · exact h.2.symm
            · cases h
          · intro h; exact .inl ⟨hx.symm, h.symm⟩
        · rw [if_neg (fun h => hx h.2), Option.or_none]
          simp only [Prod.mk.injEq]
          constructor
          · rintro (h | h)
            · exact absurd h.1.symm hx
            · exact h
          · exact .inr
  · rw [if_neg hk]
    refine ⟨h1, fun x t => ?_⟩
    rw [h2, firstIn_concat, if_neg (fun h => hk h.1.symm), Option.or_none]

theorem holds_all (k : Uuid) : ∀ (rs hist : List Spec.Xplc.Reg) (cats : List Cat), Holds (getCategory k cats) hist k →
    Holds (getCategory k (rs.foldl reg cats)) (hist ++ rs) k
  | [], hist, _, h => by rw [List.append_nil]; exact h
  | r :: rs, hist, cats, h => by
    have := holds_all k rs (hist ++ [r]) (reg cats r) (holds_step cats hist k r h)
    rw [List.append_assoc, List.singleton_append] at this
    exact this

theorem holds_nil (k : Uuid) : Holds (getCategory k []) [] k :=
  ⟨List.nodup_nil, fun x t => by simp [getCategory, Spec.Xplc.firstIn]⟩

theorem iterAll_eq : ∀ (l : List Entry) (n : Nat), l.length ≤ n → iterAll n l = l
  | [], 0, _ => rfl
  | [], _ + 1, _ => rfl
  | e :: l, 0, h => by simp at h
  | e :: l, n + 1, h => by
    have e1 : ¬ iterDone (e :: l) = true := by simp [iterDone]
    rw [iterAll, if_neg e1]
    show (e.1, e.2) :: iterAll n l = e :: l
    rw [iterAll_eq l n (by simpa using h)]

end Xp

/-- C85: going through a category shows each component that was ever registered in it once, with the string with which it was
    registered first, and nothing else. -/
theorem C85_category (hist : List Spec.Xplc.Reg) (k n : Nat) (hn : (getCategory k (hist.foldl reg [])).length ≤ n) :
    ((iterAll n (getCategory k (hist.foldl reg []))).map (·.1)).Nodup ∧
    ∀ x t, (x, t) ∈ iterAll n (getCategory k (hist.foldl reg [])) ↔ Spec.Xplc.firstIn hist k x = some t := by
  rw [iterAll_eq _ _ hn]
  have := holds_all k hist [] [] (holds_nil k)
  rw [List.nil_append] at this
  exact ⟨this.nodup, this.mem⟩

/-- C85: a category that was asked for earlier shows the same, whatever is registered afterwards: what is added comes before it. -/
theorem C85_category_later (hist later : List Spec.Xplc.Reg) (k : Nat) :
    getCategory k (hist.foldl reg []) <:+ getCategory k ((hist ++ later).foldl reg []) := by
  rw [List.foldl_append]
  exact reg_suffix k later _

example : (getCategory 5 ([(5, 1, some (str ['a'])), (6, 1, none), (5, 2, none), (5, 1, none)].foldl reg [])) =
    [(2, none), (1, some (str ['a']))] := by decide

/-! ### Names -/

namespace Xp

/-- The environment of the program, in the words of the specification. -/
def envOf (W : World) : Spec.Xplc.Env where
  get := W.get
  service o := W.kind o = .service
  new o := W.kind o = .new
  other o rest := match W.kind o with | .moniker f => f rest | _ => none
  makes o := match W.kind o with | .factory p => p | _ => none
  monikers := W.monikers

/-- What the program does for the registrations. -/
def namesOf (hist : List (List Byte × Nat)) : List (List Byte × Uuid) := hist.foldl (fun l r => registerName l r.1 r.2) []

theorem firstName_concat (hist : List (List Byte × Nat)) (r : List Byte × Nat) (n : List Byte) :
    Spec.Xplc.firstName (hist ++ [r]) n = (Spec.Xplc.firstName hist n).or (if r.1 = n then some r.2 else none) := by
  simp only [Spec.Xplc.firstName, List.find?_append]
  cases hist.find? (fun r => r.1 == n) with
  | some y => rfl
  | none =>
    simp only [Option.none_or, Option.map_none, List.find?_cons, List.find?_nil]
    by_cases h : r.1 = n
    · rw [if_pos h]; simp [h]
    · rw [if_neg h]
      have : (r.1 == n) = false := by simpa using h
      rw [this]; rfl

theorem lookup_any (n : List Byte) (l : List (List Byte × Uuid)) : l.any (·.1 == n) = true ↔ lookup n l ≠ none := by
  induction l with
  | nil => simp [lookup]
  | cons e l ih =>
    obtain ⟨m, u⟩ := e
    simp only [lookup, List.any_cons, Bool.or_eq_true]
    by_cases h : n = m
    · simp [h]
    · have h' : ¬ m = n := fun e => h e.symm
      rw [if_neg (by simpa using h), ← ih]
      simp [h']

theorem lookup_all (n : List Byte) : ∀ (rs hist : List (List Byte × Nat)) (l : List (List Byte × Uuid)),
    (∀ n, lookup n l = Spec.Xplc.firstName hist n) →
    lookup n (rs.foldl (fun l r => registerName l r.1 r.2) l) = Spec.Xplc.firstName (hist ++ rs) n
  | [], hist, l, h => by rw [List.append_nil]; exact h n
  | r :: rs, hist, l, h => by
    have := lookup_all n rs (hist ++ [r]) (registerName l r.1 r.2) (by
      intro m
      rw [firstName_concat, ← h m]
      unfold registerName
      by_cases ha : l.any (·.1 == r.1) = true
      · rw [if_pos ha]
        by_cases hm : r.1 = m
        · have := (lookup_any r.1 l).mp ha
          rw [hm] at this
          cases hl : lookup m l with
          | none => exact absurd hl this
          | some _ => rfl
        · rw [if_neg hm, Option.or_none]
      · rw [if_neg ha]
        simp only [lookup]
        by_cases hm : r.1 = m
        · have : lookup m l = none := by
            cases hl : lookup m l with
            | none => rfl
            | some _ => exact absurd ((lookup_any r.1 l).mpr (by rw [hm, hl]; simp)) ha
          rw [if_pos (by simp [hm]), this, if_pos hm]; rfl
        · rw [if_neg (by simpa using fun e => hm e.symm), if_neg hm, Option.or_none])
    rw [List.append_assoc, List.singleton_append] at this
    exact this

theorem lookup_names (hist : List (List Byte × Nat)) (n : List Byte) : lookup n (namesOf hist) = Spec.Xplc.firstName hist n :=
  lookup_all n hist [] [] (fun _ => rfl)

theorem colon_none (s : List Byte) : (colon s).2 = none → (colon s).1 = s ∧ ch ':' ∉ s := by
  induction s with
  | nil => intro _; exact ⟨rfl, by simp⟩
  | cons c s ih =>
    simp only [colon]
    by_cases hc : c = ch ':'
    · rw [if_pos (by simp [hc])]; intro h; cases h
    · rw [if_neg (by simpa using hc)]
      intro h
      obtain ⟨h1, h2⟩ := ih h
      refine ⟨by rw [h1], ?_⟩
      rw [List.mem_cons, not_or]
      exact ⟨fun e => hc e.symm, h2⟩

theorem colon_some (s r : List Byte) : (colon s).2 = some r → s = (colon s).1 ++ ch ':' :: r ∧ ch ':' ∉ (colon s).1 := by
  induction s with
  | nil => intro h; cases h
  | cons c s ih =>
    simp only [colon]
    by_cases hc : c = ch ':'
    · rw [if_pos (by simp [hc])]; intro h; cases h; exact ⟨by rw [hc]; rfl, by simp⟩
    · rw [if_neg (by simpa using hc)]
      intro h
      obtain ⟨h1, h2⟩ := ih h
      refine ⟨?_, ?_⟩
      · show c :: s = c :: ((colon s).1 ++ ch ':' :: r)
        rw [← h1]
      · show ch ':' ∉ c :: (colon s).1
        rw [List.mem_cons, not_or]
        exact ⟨fun e => hc e.symm, h2⟩

theorem colon_plain (n : List Byte) (h : ch ':' ∉ n) : colon n = (n, none) := by
  induction n with
  | nil => rfl
  | cons c s ih =>
    rw [List.mem_cons, not_or] at h
    simp only [colon]
    rw [if_neg (by simpa using fun e => h.1 e.symm), ih h.2]

theorem colon_at (n r : List Byte) (h : ch ':' ∉ n) : colon (n ++ ch ':' :: r) = (n, some r) := by
  induction n with
  | nil => simp [colon]
  | cons c s ih =>
    rw [List.mem_cons, not_or] at h
    simp only [List.cons_append, colon]
    rw [if_neg (by simpa using fun e => h.1 e.symm), ih h.2]

/-- One step of resolving. -/
theorem resolve_plain (W : World) (names : List (List Byte × Uuid)) (fuel : Nat) (n : List Byte) (h : ch ':' ∉ n) :
    (resolve W names (fuel + 1) n).1 = (lookup n names).bind W.get := by
  rw [resolve]
  simp only [colon_plain n h]
  cases lookup n names <;> rfl

/-- What the moniker service at the UUID of "new" makes of a name. -/
def viaService (W : World) (names : List (List Byte × Uuid)) (fuel : Nat) (rest : List Byte) (s : Obj) : Option Obj :=
  match W.kind s with
  | .service => (resolve W names fuel rest).1
  | .moniker f => f rest
  | _ => none

def product (W : World) (o : Obj) : Option Obj := match W.kind o with | .factory p => p | _ => none

/-- What a moniker makes of a name. -/
def viaMoniker (W : World) (names : List (List Byte × Uuid)) (fuel : Nat) (rest : List Byte) (o : Obj) : Option Obj :=
  match W.kind o with
  | .service => (resolve W names fuel rest).1
  | .moniker f => f rest
  | .new => ((W.get W.monikers).bind (viaService W names fuel rest)).bind (product W)
  | _ => none

theorem resolve_colon (W : World) (names : List (List Byte × Uuid)) (fuel : Nat) (n rest : List Byte) (h : ch ':' ∉ n) :
    (resolve W names (fuel + 1) (n ++ ch ':' :: rest)).1 = ((lookup n names).bind W.get).bind (viaMoniker W names fuel rest) := by
  rw [resolve]
  simp only [colon_at n rest h]
  cases lookup n names with
  | none => rfl
  | some u =>
    simp only [Option.bind_some]
    cases W.get u with
    | none => rfl
    | some m =>
      simp only [Option.bind_some, viaMoniker, asMoniker]
      cases hk : W.kind m with
      | plain => rfl
      | factory p => rfl
      | service => simp only [hk]
      | moniker f => simp only [hk]
      | new =>
        simp only [hk]
        cases W.get W.monikers with
        | none => rfl
        | some s =>
          simp only [Option.bind_some, viaService, viaMonikers]
          cases hs : W.kind s with
          | plain => rfl
          | factory p => rfl
          | new => simp only [hs]; rfl
          | service =>
            simp only [hs]
            cases (resolve W names fuel rest).1 with
            | none => rfl
            | some x =>
              simp only [Option.bind_some, asFactory, product]
              cases W.kind x <;> rfl
          | moniker f =>
            simp only [hs]
            cases f rest with
            | none => rfl
            | some x =>
              simp only [Option.bind_some, asFactory, product]
              cases W.kind x <;> rfl

theorem balance_given (r : Option Obj) (x : Obj) : balance (given r) x = if r = some x then 1 else 0 := by
  cases r with
  | none => simp [given, balance]
  | some o => simp [given, balance]

theorem balance_asMoniker (W : World) (r : Option Obj) (x : Obj) :
    balance (asMoniker W r).2 x = (if (asMoniker W r).1 = some x then 1 else 0) - (if r = some x then 1 else 0) := by
  cases r with
  | none => simp [asMoniker, balance]
  | some o =>
    cases hk : W.kind o <;> simp [asMoniker, hk, balance] <;> split <;> simp

theorem balance_asFactory (W : World) (r : Option Obj) (x : Obj) :
    balance (asFactory W r).2 x = (if (asFactory W r).1.map (·.1) = some x then 1 else 0) - (if r = some x then 1 else 0) := by
  cases r with
  | none => simp [asFactory, balance]
  | some o =>
    cases hk : W.kind o <;> simp [asFactory, hk, balance] <;> split <;> simp

theorem balance_one (o : Obj) (i : Int) (x : Obj) : balance [(o, i)] x = if o = x then i else 0 := by simp [balance]
theorem balance_two (o p : Obj) (i j : Int) (x : Obj) : balance [(o, i), (p, j)] x = (if o = x then i else 0) + if p = x then j else 0 := by
  simp [balance]
theorem balance_three (o p q : Obj) (i j k : Int) (x : Obj) :
    balance [(o, i), (p, j), (q, k)] x = (if o = x then i else 0) + ((if p = x then j else 0) + if q = x then k else 0) := by
  simp [balance]
theorem balance_nil (x : Obj) : balance [] x = 0 := rfl

/-- Every reference that is taken is given back, but for one to the result. -/
def Fair (x : Obj) (r : Option Obj × Ledger) : Prop := balance r.2 x = if r.1 = some x then 1 else 0

theorem fair_resolve (W : World) (names : List (List Byte × Uuid)) (x : Obj) : ∀ (fuel : Nat) (name : List Byte),
    Fair x (resolve W names fuel name)
  | 0, _ => by simp [resolve, balance, Fair]
  | fuel + 1, name => by
    have ih := fun r => fair_resolve W names x fuel r
    rw [resolve]
    dsimp only
    cases lookup (colon name).1 names with
    | none => simp [balance, Fair]
    | some u =>
      dsimp only
      cases (colon name).2 with
      | none =>
        dsimp only
        unfold Fair
        dsimp only
        rw [balance_append, balance_append, balance_given, balance_one, balance_one]
        split <;> split <;> simp
      | some rest =>
        dsimp only
        have hm := balance_asMoniker W (W.get u) x
        cases hmk : (asMoniker W (W.get u)).1 with
        | none =>
          dsimp only
          rw [hmk] at hm
          unfold Fair
          dsimp only
          rw [balance_append, balance_append, balance_append, balance_given, balance_one, balance_one, hm]
          simp only [reduceCtorEq, if_false]
          split <;> split <;> simp
        | some o =>
          dsimp only
          rw [hmk] at hm
          have key : ∀ r : Option Obj × Ledger, Fair x r →
              Fair x (r.1, [(W.mgr, 1)] ++ given (W.get u) ++ [(W.mgr, -1)] ++ (asMoniker W (W.get u)).2 ++ r.2 ++ [(o, -1)]) := by
            intro r hr
            unfold Fair at hr ⊢
            dsimp only
            rw [balance_append, balance_append, balance_append, balance_append, balance_append, balance_given, balance_one, balance_one,
              balance_one, hm, hr]
            simp only [Option.some.injEq]
            generalize (if r.1 = some x then (1 : Int) else 0) = g
            generalize (if W.get u = some x then (1 : Int) else 0) = g2
            split <;> split <;> omega
          refine key _ ?_
          cases W.kind o with
          | plain => simp [balance, Fair]
          | factory p => simp [balance, Fair]
          | service => exact ih rest
          | moniker f => exact balance_given _ _
          | new =>
            dsimp only
            have hm2 := balance_asMoniker W (W.get W.monikers) x
            cases hmk2 : (asMoniker W (W.get W.monikers)).1 with
            | none =>
              dsimp only
              rw [hmk2] at hm2
              unfold Fair
              dsimp only
              rw [balance_append, balance_append, balance_append, balance_given, balance_one, balance_one, hm2]
              simp only [reduceCtorEq, if_false]
              split <;> split <;> simp
            | some s =>
              dsimp only
              rw [hmk2] at hm2
              have hy : Fair x (viaMonikers W s rest (resolve W names fuel rest)) := by
                unfold viaMonikers
                cases W.kind s with
                | service => exact ih rest
                | moniker f => exact balance_given _ _
                | plain => simp [balance, Fair]
                | factory p => simp [balance, Fair]
                | new => simp [balance, Fair]
              revert hy
              generalize viaMonikers W s rest (resolve W names fuel rest) = y
              intro hy
              have hf := balance_asFactory W y.1 x
              unfold Fair at hy
              cases hfk : (asFactory W y.1).1 with
              | none =>
                rw [hfk] at hf
                unfold Fair
                dsimp only
                rw [balance_append, balance_append, balance_append, balance_append, balance_append, balance_given, balance_one,
                  balance_two, hm2, hy, hf]
                simp only [Option.some.injEq, Option.map_none, reduceCtorEq, if_false]
                generalize (if y.1 = some x then (1 : Int) else 0) = g2
                generalize (if W.get W.monikers = some x then (1 : Int) else 0) = g3
                split <;> split <;> omega
              | some q =>
                obtain ⟨fo, p⟩ := q
                rw [hfk] at hf
                unfold Fair
                dsimp only
                rw [balance_append, balance_append, balance_append, balance_append, balance_append, balance_append, balance_given,
                  balance_given, balance_one, balance_three, hm2, hy, hf]
                simp only [Option.some.injEq, Option.map_some]
                generalize (if p = some x then (1 : Int) else 0) = g
                generalize (if y.1 = some x then (1 : Int) else 0) = g2
                generalize (if W.get W.monikers = some x then (1 : Int) else 0) = g3
                split <;> split <;> split <;> omega

end Xp

/-- C85: a name is resolved to what it stands for. -/
theorem C85_resolve (W : World) (hist : List (List Byte × Nat)) (name : List Byte) (fuel : Nat) (hf : name.length < fuel) (o : Nat) :
    (resolve W (namesOf hist) fuel name).1 = some o ↔ Spec.Xplc.Names (envOf W) hist name o := by
  induction fuel generalizing name o with
  | zero => omega
  | succ fuel ih =>
    have split_name : (ch ':' ∉ name) ∨ ∃ n rest, name = n ++ ch ':' :: rest ∧ ch ':' ∉ n := by
      cases h : (colon name).2 with
      | none => exact .inl (colon_none name h).2
      | some rest => exact .inr ⟨_, rest, colon_some name rest h⟩
    rcases split_name with hn | ⟨n, rest, rfl, hn⟩
    · rw [resolve_plain W _ fuel name hn, lookup_names]
      constructor
      · intro h
        rw [Option.bind_eq_some_iff] at h
        obtain ⟨u, h1, h2⟩ := h
        exact .plain name u o hn h1 h2
      · intro h
        cases h with
        | plain _ u _ _ h1 h2 => rw [h1]; exact h2
        | service => exact absurd (by simp) hn
        | other => exact absurd (by simp) hn
        | new => exact absurd (by simp) hn
        | newOther => exact absurd (by simp) hn
    · rw [resolve_colon W _ fuel n rest hn, lookup_names]
      have hlen : rest.length < fuel := by simp at hf; omega
      have ih := fun o => ih rest hlen o
      constructor
      · intro h
        rw [Option.bind_eq_some_iff] at h
        obtain ⟨m, h, h3⟩ := h
        rw [Option.bind_eq_some_iff] at h
        obtain ⟨u, h1, h2⟩ := h
        unfold viaMoniker at h3
        cases hk : W.kind m with
        | plain => rw [hk] at h3; cases h3
        | factory p => rw [hk] at h3; cases h3
        | service => rw [hk] at h3; exact .service n rest u m o hn h1 h2 hk ((ih o).mp h3)
        | moniker f =>
          rw [hk] at h3
          exact .other n rest u m o hn h1 h2 (by show (match W.kind m with | .moniker f => f rest | _ => none) = some o; rw [hk]; exact h3)
        | new =>
          rw [hk] at h3
          replace h3 : ((W.get W.monikers).bind (viaService W (namesOf hist) fuel rest)).bind (product W) = some o := h3
          rw [Option.bind_eq_some_iff] at h3
          obtain ⟨f, h3, h4⟩ := h3
          rw [Option.bind_eq_some_iff] at h3
          obtain ⟨s, h5, h6⟩ := h3
          have hmk : (envOf W).makes f = some o := by
            unfold product at h4
            show (match W.kind f with | .factory p => p | _ => none) = some o
            cases hp : W.kind f <;> rw [hp] at h4 <;> first | exact h4 | cases h4
          unfold viaService at h6
          cases hs : W.kind s with
          | plain => rw [hs] at h6; cases h6
          | factory p => rw [hs] at h6; cases h6
          | new => rw [hs] at h6; cases h6
          | service => rw [hs] at h6; exact .new n rest u m s f o hn h1 h2 hk h5 hs ((ih f).mp h6) hmk
          | moniker g =>
            rw [hs] at h6
            exact .newOther n rest u m s f o hn h1 h2 hk h5
              (by show (match W.kind s with | .moniker f => f rest | _ => none) = some f; rw [hs]; exact h6) hmk
      · intro h
        have hprod : ∀ f, (envOf W).makes f = some o → product W f = some o := by
          intro f h
          replace h : (match W.kind f with | .factory p => p | _ => none) = some o := h
          unfold product
          cases hp : W.kind f <;> rw [hp] at h <;> first | exact h | cases h
        have hother : ∀ s f, (envOf W).other s rest = some f → ∃ g, W.kind s = .moniker g ∧ g rest = some f := by
          intro s f h
          replace h : (match W.kind s with | .moniker f => f rest | _ => none) = some f := h
          cases hp : W.kind s with
          | moniker g => rw [hp] at h; exact ⟨g, rfl, h⟩
          | _ => rw [hp] at h; cases h
        have huniq : ∀ n' rest', ch ':' ∉ n' → n ++ ch ':' :: rest = n' ++ ch ':' :: rest' → n' = n ∧ rest' = rest := by
          intro n' rest' hn' e
          have := colon_at n rest hn
          rw [e, colon_at n' rest' hn'] at this
          cases this
          exact ⟨rfl, rfl⟩
        generalize hname : n ++ ch ':' :: rest = name at h
        cases h with
        | plain _ u _ h0 => rw [← hname] at h0; exact absurd (by simp) h0
        | service n' rest' u m _ hn' h1 h2 h3 h4 =>
          obtain ⟨rfl, rfl⟩ := huniq n' rest' hn' hname
          rw [h1]
          simp only [Option.bind_some]
          have h2 : W.get u = some m := h2
          have h3 : W.kind m = .service := h3
          rw [h2]
          simp only [Option.bind_some, viaMoniker, h3]
          exact (ih o).mpr h4
        | other n' rest' u m _ hn' h1 h2 h3 =>
          obtain ⟨rfl, rfl⟩ := huniq n' rest' hn' hname
          rw [h1]
          simp only [Option.bind_some]
          have h2 : W.get u = some m := h2
          obtain ⟨g, h4, h5⟩ := hother m o h3
          rw [h2]
          simp only [Option.bind_some, viaMoniker, h4]
          exact h5
        | new n' rest' u m s f _ hn' h1 h2 h3 h4 h5 h6 h7 =>
          obtain ⟨rfl, rfl⟩ := huniq n' rest' hn' hname
          rw [h1]
          simp only [Option.bind_some]
          have h2 : W.get u = some m := h2
          have h3 : W.kind m = .new := h3
          have h4 : W.get W.monikers = some s := h4
          have h5 : W.kind s = .service := h5
          rw [h2]
          simp only [Option.bind_some, viaMoniker, h3, h4, viaService, h5]
          rw [(ih f).mpr h6]
          exact hprod f h7
        | newOther n' rest' u m s f _ hn' h1 h2 h3 h4 h5 h6 =>
          obtain ⟨rfl, rfl⟩ := huniq n' rest' hn' hname
          rw [h1]
          simp only [Option.bind_some]
          have h2 : W.get u = some m := h2
          have h3 : W.kind m = .new := h3
          have h4 : W.get W.monikers = some s := h4
          obtain ⟨g, h7, h8⟩ := hother s f h5
          rw [h2]
          simp only [Option.bind_some, viaMoniker, h3, h4, viaService, h7]
          rw [h8]
          exact hprod f h6

/-- C85: resolving a name gives back every reference that it takes, but for one to the result, which is the caller's. -/
theorem C85_resolve_refs (W : World) (hist : List (List Byte × Nat)) (name : List Byte) (fuel : Nat) (x : Nat) :
    balance (resolve W (namesOf hist) fuel name).2 x = if (resolve W (namesOf hist) fuel name).1 = some x then 1 else 0 :=
  fair_resolve W _ x fuel name

/-- C85 does not hold for every name: a name with a colon that was registered for an object can be without effect. -/
theorem C85_colon_fails : ∃ (W : World) (n : List Byte) (u o : Nat), W.get u = some o ∧
    (resolve W (namesOf [(n, u)]) (n.length + 1) n).1 = none :=
  ⟨⟨fun _ => some 7, fun _ => .plain, 0, 0⟩, str ['a', ':', 'b'], 1, 7, rfl, by decide⟩

/-- "new:x" makes an object. -/
example : (resolve ⟨fun u => some u, fun o => if o = 1 then .new else if o = 2 then .service else .factory (some 9), 0, 2⟩
    (namesOf [(str ['n'], 1), (str ['x'], 3)]) 5 (str ['n', ':', 'x'])).1 = some 9 := by decide

end Props
