import Verif.Model.HashTable
namespace Wv.HashTable
open Spec.Dict (Call Out has changeFirst)
set_option linter.unusedSectionVars false
set_option linter.unusedSimpArgs false
variable {α κ : Type} [DecidableEq κ]

theorem slides_le : ∀ (n m b : Nat), n < 2 ^ b → 1 ≤ b → slides n m ≤ m + b - 1 := by
  intro n
  induction n using Nat.strongRecOn with
  | ind n ih =>
    intro m b h hb
    rw [slides]
    split
    · omega
    · rename_i hne
      obtain ⟨c, rfl⟩ : ∃ c, b = c + 1 := ⟨b - 1, by omega⟩
      have h2 : n / 2 < 2 ^ c := by rw [Nat.pow_succ] at h; omega
      have hc : 1 ≤ c := by
        by_cases h0 : c = 0
        · subst h0; simp at h2; omega
        · omega
      have := ih (n / 2) (by omega) (m + 1) c h2 hc
      omega

theorem slides_ge : ∀ (n m : Nat), m ≤ slides n m := by
  intro n
  induction n using Nat.strongRecOn with
  | ind n ih =>
    intro m
    rw [slides]
    split
    · omega
    · have := ih (n / 2) (by omega) (m + 1); omega

theorem new_spec (numslots : Nat) (h : numslots < 2 ^ 30) :
    ∃ n, 0 < n ∧ (new numslots : Option (Table α)) = some ⟨n, fun _ => []⟩ := by
  have h1 := slides_le numslots 1 30 h (by omega)
  have h2 := slides_ge numslots 1
  refine ⟨2 ^ slides numslots 1 - 1, ?_, by simp [new]; omega⟩
  have : 2 ^ 1 ≤ 2 ^ slides numslots 1 := Nat.pow_le_pow_right (by omega) h2
  omega

/-- Slot `i` has the elements that belong there, in the order they were added. -/
structure Rel (k : Kind α κ) (t : Table α) (c : List (α × Bool)) : Prop where
  pos : 0 < t.numslots
  slot : ∀ i, i < t.numslots → t.slots i = c.filter fun p => slotOf k t (k.key p.1) = i

theorem slot_lt (k : Kind α κ) (t : Table α) (h : 0 < t.numslots) (key : κ) : slotOf k t key < t.numslots := Nat.mod_lt _ h

theorem prevlink_find (k : Kind α κ) (key : κ) (l : List (α × Bool)) : l[prevlink k key l]? = l.find? (has k.key key) := by
  induction l with
  | nil => rfl
  | cons p l ih =>
    rw [prevlink, List.find?_cons]
    by_cases h : key = k.key p.1
    · rw [if_pos h]; simp [has, h]
    · have : has k.key key p = false := by simp [has]; exact fun hc => h hc.symm
      rw [if_neg h, this]; simpa using ih

theorem prevlink_erase (k : Kind α κ) (key : κ) (l : List (α × Bool)) : l.eraseIdx (prevlink k key l) = l.eraseP (has k.key key) := by
  induction l with
  | nil => rfl
  | cons p l ih =>
    rw [prevlink, List.eraseP_cons]
    by_cases h : key = k.key p.1
    · rw [if_pos h]; simp [has, h]
    · have : has k.key key p = false := by simp [has]; exact fun hc => h hc.symm
      rw [if_neg h, this]; simpa using ih

theorem prevlink_modify (k : Kind α κ) (key : κ) (a : Bool) (l : List (α × Bool)) :
    l.modify (prevlink k key l) (fun p => (p.1, a)) = changeFirst k.key key a l := by
  induction l with
  | nil => rfl
  | cons p l ih =>
    rw [prevlink, changeFirst]
    by_cases h : key = k.key p.1
    · rw [if_pos h]; simp [has, h]
    · have : has k.key key p = false := by simp [has]; exact fun hc => h hc.symm
      rw [if_neg h, this]; simpa using ih

/-- A filter that keeps what is looked for. -/
theorem find_filter (f g : α × Bool → Bool) (h : ∀ p, f p = true → g p = true) (c : List (α × Bool)) :
    (c.filter g).find? f = c.find? f := by
  induction c with
  | nil => rfl
  | cons p c ih =>
    rw [List.filter_cons, List.find?_cons]
    by_cases hg : g p = true
    · rw [if_pos hg, List.find?_cons, ih]
    · have hf : f p = false := by
        cases hfp : f p
        · rfl
        · exact absurd (h p hfp) hg
      rw [if_neg hg, hf, ih]

theorem eraseP_filter (f g : α × Bool → Bool) (h : ∀ p, f p = true → g p = true) (c : List (α × Bool)) :
    (c.eraseP f).filter g = (c.filter g).eraseP f := by
  induction c with
  | nil => rfl
  | cons p c ih =>
    rw [List.eraseP_cons, List.filter_cons]
    by_cases hf : f p = true
    · simp [hf, h p hf]
    · by_cases hg : g p = true
      · simp [hf, hg, ih]
      · simp [hf, hg, ih]

theorem eraseP_filter_not (f g : α × Bool → Bool) (h : ∀ p, f p = true → g p = false) (c : List (α × Bool)) :
    (c.eraseP f).filter g = c.filter g := by
  induction c with
  | nil => rfl
  | cons p c ih =>
    rw [List.eraseP_cons, List.filter_cons]
    by_cases hf : f p = true
    · simp [hf, h p hf]
    · by_cases hg : g p = true
      · simp [hf, hg, ih]
      · simp [hf, hg, ih]

/-- The slot filter does not look at the flag. -/
def belongs (k : Kind α κ) (t : Table α) (i : Nat) (p : α × Bool) : Bool := decide (slotOf k t (k.key p.1) = i)

theorem changeFirst_filter (k : Kind α κ) (t : Table α) (key : κ) (a : Bool) (c : List (α × Bool)) :
    (changeFirst k.key key a c).filter (belongs k t (slotOf k t key)) = changeFirst k.key key a (c.filter (belongs k t (slotOf k t key))) := by
  induction c with
  | nil => rfl
  | cons p c ih =>
    rw [changeFirst, List.filter_cons]
    by_cases h : k.key p.1 = key
    · simp [has, h, belongs, changeFirst]
    · by_cases hb : belongs k t (slotOf k t key) p = true
      · simp only [has, h, decide_false, Bool.false_eq_true, if_false, hb, if_true, changeFirst, List.filter_cons, ih]
      · simp only [has, h, decide_false, Bool.false_eq_true, if_false, hb, List.filter_cons, ih]

theorem changeFirst_filter_not (k : Kind α κ) (t : Table α) (key : κ) (a : Bool) (i : Nat) (hi : i ≠ slotOf k t key) (c : List (α × Bool)) :
    (changeFirst k.key key a c).filter (belongs k t i) = c.filter (belongs k t i) := by
  induction c with
  | nil => rfl
  | cons p c ih =>
    rw [changeFirst]
    by_cases h : k.key p.1 = key
    · have : ∀ b : Bool, belongs k t i (p.1, b) = false := by intro b; simp [belongs, h]; exact fun hc => hi hc.symm
      have h2 : belongs k t i p = false := this p.2
      simp [has, h, List.filter_cons, this, h2]
    · simp only [has, h, decide_false, Bool.false_eq_true, if_false, List.filter_cons, ih]

/- Iteration. -/

/-- All elements from slot `i` on. -/
def flat (t : Table α) (i : Nat) : List (α × Bool) :=
  if h : i < t.numslots then t.slots i ++ flat t (i + 1) else []
termination_by t.numslots - i

theorem countFrom_flat (t : Table α) (i : Nat) : countFrom t i = (flat t i).length := by
  generalize hd : t.numslots - i = d
  induction d generalizing i with
  | zero => rw [countFrom, flat, dif_neg (by omega), dif_neg (by omega)]; rfl
  | succ d ih =>
    rw [countFrom, flat, dif_pos (by omega), dif_pos (by omega), ih (i + 1) (by omega), List.length_append]

theorem isemptyFrom_flat (t : Table α) (i : Nat) : isemptyFrom t i = (flat t i).isEmpty := by
  generalize hd : t.numslots - i = d
  induction d generalizing i with
  | zero => rw [isemptyFrom, flat, dif_neg (by omega), dif_neg (by omega)]; rfl
  | succ d ih =>
    rw [isemptyFrom, flat, dif_pos (by omega), dif_pos (by omega), ih (i + 1) (by omega)]
    cases t.slots i <;> simp

theorem nextSlot_flat (t : Table α) (cur : Nat) (h : cur < t.numslots) :
    match nextSlot t cur with
    | (i, true) => cur < i ∧ i < t.numslots ∧ flat t (cur + 1) = flat t i ∧ t.slots i ≠ []
    | (_, false) => flat t (cur + 1) = [] := by
  generalize hd : t.numslots - cur = d
  induction d using Nat.strongRecOn generalizing cur with
  | ind d ih =>
    rw [nextSlot]
    by_cases hc : cur < t.numslots - 1
    · rw [dif_pos hc]
      by_cases he : (t.slots (cur + 1)).isEmpty = true
      · rw [if_pos he]
        have := ih (t.numslots - (cur + 1)) (by omega) (cur + 1) (by omega) rfl
        have hf : flat t (cur + 1) = flat t (cur + 2) := by
          rw [flat, dif_pos (by omega), List.isEmpty_iff.mp he]; rfl
        rw [hf]
        cases hn : nextSlot t (cur + 1) with
        | mk i b =>
          rw [hn] at this
          cases b with
          | true => exact ⟨by have := this.1; omega, this.2⟩
          | false => exact this
      · rw [if_neg he]
        exact ⟨by omega, by omega, rfl, by simpa using he⟩
    · rw [dif_neg hc, flat, dif_neg (by omega)]

theorem iterate_flat (t : Table α) (fuel : Nat) : ∀ (i n : Nat), i < t.numslots → n ≤ (t.slots i).length →
    ((t.slots i).drop n ++ flat t (i + 1)).length < fuel →
    iterate t i n fuel = some ((t.slots i).drop n ++ flat t (i + 1)) := by
  induction fuel with
  | zero => intro i n _ _ h; omega
  | succ fuel ih =>
    intro i n hi hn hf
    rw [iterate, next]
    by_cases hlt : n < (t.slots i).length
    · rw [if_pos hlt]
      have hd : (t.slots i).drop n = (t.slots i)[n] :: (t.slots i).drop (n + 1) := List.drop_eq_getElem_cons hlt
      rw [hd] at hf ⊢
      dsimp only
      rw [ih i (n + 1) hi (by omega) (by simp at hf ⊢; omega), Nat.add_sub_cancel, List.getElem?_eq_getElem hlt]
      rfl
    · rw [if_neg hlt]
      have hnil : (t.slots i).drop n = [] := List.drop_eq_nil_of_le (by omega)
      rw [hnil] at hf ⊢
      have := nextSlot_flat t i hi
      cases hs : nextSlot t i with
      | mk j b =>
        rw [hs] at this
        cases b with
        | true =>
          obtain ⟨h1, h2, h3, h4⟩ := this
          have hfl : flat t j = t.slots j ++ flat t (j + 1) := by rw [flat, dif_pos h2]
          obtain ⟨p, l, hl⟩ := List.exists_cons_of_ne_nil h4
          dsimp only
          rw [h3, hfl, hl] at hf
          rw [ih j 1 h2 (by rw [hl]; simp) (by rw [hl]; simp at hf ⊢; omega), h3, hfl, hl]
          rfl
        | false => simp only [List.nil_append]; rw [show flat t (i + 1) = [] from this]

theorem flat_perm (k : Kind α κ) (t : Table α) (c : List (α × Bool)) (h : Rel k t c) (i : Nat) :
    (flat t i).Perm (c.filter fun p => decide (i ≤ slotOf k t (k.key p.1))) := by
  generalize hd : t.numslots - i = d
  induction d generalizing i with
  | zero =>
    rw [flat, dif_neg (by omega)]
    have : c.filter (fun p => decide (i ≤ slotOf k t (k.key p.1))) = [] := by
      rw [List.filter_eq_nil_iff]
      intro p _
      have := slot_lt k t h.pos (k.key p.1)
      simp; omega
    rw [this]
  | succ d ih =>
    rw [flat, dif_pos (by omega), h.slot i (by omega)]
    refine ((List.Perm.refl _).append (ih (i + 1) (by omega))).trans ?_
    have := List.filter_append_perm (fun p : α × Bool => decide (slotOf k t (k.key p.1) = i))
      (c.filter fun p => decide (i ≤ slotOf k t (k.key p.1)))
    refine List.Perm.trans ?_ this
    rw [List.filter_filter, List.filter_filter]
    refine List.Perm.append (List.Perm.of_eq ?_) (List.Perm.of_eq ?_)
    · apply List.filter_congr; intro p _; simp; omega
    · apply List.filter_congr; intro p _
      by_cases h1 : slotOf k t (k.key p.1) = i
      · simp [h1]
      · simp [h1]; omega

theorem flat_key (k : Kind α κ) (t : Table α) (c : List (α × Bool)) (h : Rel k t c) (key : κ) (i : Nat) :
    (flat t i).filter (has k.key key) = if i ≤ slotOf k t key then c.filter (has k.key key) else [] := by
  generalize hd : t.numslots - i = d
  have hlt := slot_lt k t h.pos key
  induction d generalizing i with
  | zero => rw [flat, dif_neg (by omega), if_neg (by omega)]; rfl
  | succ d ih =>
    rw [flat, dif_pos (by omega), List.filter_append, ih (i + 1) (by omega), h.slot i (by omega), List.filter_filter]
    by_cases he : slotOf k t key = i
    · rw [if_neg (by omega), if_pos (by omega), List.append_nil]
      apply List.filter_congr
      intro p _
      by_cases hp : k.key p.1 = key
      · simp [has, hp, he]
      · simp [has, hp]
    · have : c.filter (fun p => has k.key key p && decide (slotOf k t (k.key p.1) = i)) = [] := by
        rw [List.filter_eq_nil_iff]
        intro p _
        by_cases hp : k.key p.1 = key
        · simp [has, hp, he]
        · simp [has, hp]
      rw [this, List.nil_append]
      by_cases h1 : i ≤ slotOf k t key
      · rw [if_pos h1, if_pos (by omega)]
      · rw [if_neg h1, if_neg (by omega)]

theorem flat_all (k : Kind α κ) (t : Table α) (c : List (α × Bool)) (h : Rel k t c) : (flat t 0).Perm c := by
  have := flat_perm k t c h 0
  rw [List.filter_eq_self.mpr (by intro p _; simp)] at this
  exact this

/- Calls. -/

theorem Rel.set {k : Kind α κ} {t : Table α} {c c' : List (α × Bool)} (h : Rel k t c) (i : Nat) (l : List (α × Bool))
    (h1 : c'.filter (belongs k t i) = l) (h2 : ∀ j, j ≠ i → c'.filter (belongs k t j) = c.filter (belongs k t j)) :
    Rel k (t.set i l) c' := by
  refine ⟨h.pos, ?_⟩
  intro j hj
  change (if j = i then l else t.slots j) = c'.filter (belongs k t j)
  by_cases hji : j = i
  · rw [if_pos hji, hji, h1]
  · rw [if_neg hji, h2 j hji]; exact h.slot j hj

theorem Rel.slotKey {k : Kind α κ} {t : Table α} {c : List (α × Bool)} (h : Rel k t c) (key : κ) :
    t.slots (slotOf k t key) = c.filter (belongs k t (slotOf k t key)) := h.slot _ (slot_lt k t h.pos key)

theorem has_belongs (k : Kind α κ) (t : Table α) (key : κ) (p : α × Bool) (h : has k.key key p = true) :
    belongs k t (slotOf k t key) p = true := by
  simp only [has, decide_eq_true_eq] at h
  simp [belongs, h]

theorem Rel.exec {k : Kind α κ} {t : Table α} {c : List (α × Bool)} (h : Rel k t c) (op : Call α κ) :
    (exec k t op).2 = (Spec.Dict.step k.key c op).2 ∧ Rel k (exec k t op).1 (Spec.Dict.step k.key c op).1 := by
  cases op with
  | add x a =>
    refine ⟨rfl, ?_⟩
    refine h.set _ _ ?_ ?_
    · rw [h.slotKey]
      simp [Spec.Dict.step, List.filter_append, belongs]
    · intro j hj
      have : belongs k t j (x, a) = false := by simp [belongs]; exact fun hc => hj hc.symm
      simp [Spec.Dict.step, List.filter_append, List.filter_cons, this]
  | remove x =>
    simp only [HashTable.exec, Spec.Dict.step, HashTable.remove]
    rw [prevlink_find, h.slotKey, find_filter _ _ (has_belongs k t (k.key x)), prevlink_erase]
    cases hf : c.find? (has k.key (k.key x)) with
    | none =>
      refine ⟨rfl, ?_⟩
      have : c.eraseP (has k.key (k.key x)) = c := by
        apply List.eraseP_of_forall_not
        intro p hp
        have := List.find?_eq_none.mp hf p hp
        simpa using this
      rw [this]; exact h
    | some p =>
      refine ⟨by cases p with | mk y b => cases b <;> rfl, ?_⟩
      refine h.set _ _ (eraseP_filter _ _ (has_belongs k t (k.key x)) c) ?_
      intro j hj
      refine eraseP_filter_not _ _ ?_ c
      intro p hp
      simp only [has, decide_eq_true_eq] at hp
      simp [belongs, hp]; exact fun hc => hj hc.symm
  | setAutofree key a =>
    refine ⟨rfl, ?_⟩
    simp only [HashTable.exec, Spec.Dict.step, HashTable.setAutofree]
    rw [prevlink_modify, h.slotKey]
    exact h.set _ _ (changeFirst_filter k t key a c) (fun j hj => changeFirst_filter_not k t key a j hj c)
  | getAutofree key =>
    refine ⟨?_, h⟩
    simp only [HashTable.exec, Spec.Dict.step, HashTable.getAutofree]
    rw [prevlink_find, h.slotKey, find_filter _ _ (has_belongs k t key)]
    cases c.find? (has k.key key) <;> rfl
  | find key =>
    refine ⟨?_, h⟩
    simp only [HashTable.exec, Spec.Dict.step, HashTable.find]
    rw [prevlink_find, h.slotKey, find_filter _ _ (has_belongs k t key)]
  | count =>
    refine ⟨?_, h⟩
    simp only [HashTable.exec, Spec.Dict.step]
    rw [countFrom_flat, (flat_all k t c h).length_eq]
  | isempty =>
    refine ⟨?_, h⟩
    simp only [HashTable.exec, Spec.Dict.step]
    rw [isemptyFrom_flat]
    have := (flat_all k t c h).length_eq
    cases hf : flat t 0 <;> cases c <;> simp [hf] at this ⊢

theorem Rel.run {k : Kind α κ} (ops : List (Call α κ)) : ∀ {t : Table α} {c : List (α × Bool)}, Rel k t c →
    (run k t ops).2 = (Spec.Dict.run k.key c ops).2 ∧ Rel k (run k t ops).1 (Spec.Dict.run k.key c ops).1 := by
  induction ops with
  | nil => intro t c h; exact ⟨rfl, h⟩
  | cons op ops ih =>
    intro t c h
    obtain ⟨h1, h2⟩ := h.exec op
    obtain ⟨h3, h4⟩ := ih h2
    exact ⟨by simp only [HashTable.run, Spec.Dict.run, h1, h3], h4⟩

theorem new_rel (k : Kind α κ) (numslots : Nat) (h : numslots < 2 ^ 30) : ∃ t : Table α, new numslots = some t ∧ Rel k t [] := by
  obtain ⟨n, hn, hnew⟩ := new_spec (α := α) numslots h
  exact ⟨_, hnew, hn, by intro i _; rfl⟩

theorem zap_perm (k : Kind α κ) (t : Table α) (c : List (α × Bool)) (h : Rel k t c) :
    (zap t).2.Perm ((c.filter Prod.snd).map Prod.fst) := by
  have h1 : (zap t).2.Perm (((List.range t.numslots).flatMap t.slots).filter Prod.snd |>.map Prod.fst) := by
    simp only [zap]
    have hp : ((List.range t.numslots).reverse.flatMap fun i => ((t.slots i).filter Prod.snd).map Prod.fst).Perm
        ((List.range t.numslots).flatMap fun i => ((t.slots i).filter Prod.snd).map Prod.fst) :=
      (List.reverse_perm _).flatMap_right _
    refine hp.trans (List.Perm.of_eq ?_)
    rw [List.filter_flatMap, List.map_flatMap]
  refine h1.trans ?_
  refine List.Perm.map _ (List.Perm.filter _ ?_)
  have h2 : ∀ d i, t.numslots - i = d → ((List.range t.numslots).drop i).flatMap t.slots = flat t i := by
    intro d
    induction d with
    | zero => intro i hd; rw [flat, dif_neg (by omega), List.drop_eq_nil_of_le (by simp; omega)]; rfl
    | succ d ih =>
      intro i hd
      rw [flat, dif_pos (by omega), List.drop_eq_getElem_cons (by simp; omega), List.flatMap_cons, ih (i + 1) (by omega)]
      simp
  have := h2 _ 0 rfl
  simp only [List.drop_zero] at this
  rw [this]
  exact flat_all k t c h

end Wv.HashTable
