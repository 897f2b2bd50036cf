import Verif.Model.Moniker
import Verif.Lemmas.Basic
/- C48: monikers. -/
namespace Props
open Wv Wv.Moniker Spec.Moniker

namespace Mon

/-- The factories of a prefix in a registry. -/
def funcs (id : Text) (l : List (Text × Nat)) : List Nat := (l.filter fun x => x.1 == id).map (·.2)

/-- The list of a registry. -/
def listOf (r : Regs) (iid : Nat) : List (Text × Nat) := ((r iid).map (·.list)).getD []

/-- How many objects use an interface. -/
def users (iid : Nat) (l : List Obj) : Nat := (l.filter fun o => o.iid = iid).length

/-- Registries exist while used, and count their users; objects are found in them. -/
structure Good (s : State) : Prop where
  names : (s.objs.map (·.obj)).Nodup
  regs : ∀ iid, (users iid s.objs = 0 ∧ s.regs iid = none) ∨ ∃ g, s.regs iid = some g ∧ 0 < users iid s.objs ∧ g.refcount = users iid s.objs + 1
  cnt : ∀ iid id, (funcs id (listOf s.regs iid)).length = (of iid id s.objs).length

theorem any_funcs (l : List (Text × Nat)) (id : Text) : l.any (fun x => x.1 == id) = true ↔ funcs id l ≠ [] := by
  unfold funcs
  induction l with
  | nil => simp
  | cons x l ih =>
    by_cases h : (x.1 == id) = true
    · simp [List.any_cons, h]
    · rw [List.any_cons, List.filter_cons_of_neg (by simpa using h)]
      have : (x.1 == id) = false := by simpa using h
      simp only [this, Bool.false_or]
      exact ih

theorem find_funcs (l : List (Text × Nat)) (id : Text) : (l.find? fun x => x.1 == id).map (·.2) = (funcs id l).head? := by
  unfold funcs
  induction l with
  | nil => rfl
  | cons x l ih =>
    by_cases h : (x.1 == id) = true
    · rw [List.find?_cons_of_pos (by simpa using h), List.filter_cons_of_pos (by simpa using h)]; rfl
    · rw [List.find?_cons_of_neg (by simpa using h), List.filter_cons_of_neg (by simpa using h), ih]

theorem erase_funcs (l : List (Text × Nat)) (id id' : Text) :
    funcs id' (l.eraseP fun x => x.1 == id) = if id' = id then (funcs id' l).tail else funcs id' l := by
  unfold funcs
  induction l with
  | nil => simp
  | cons x l ih =>
    by_cases h : (x.1 == id) = true
    · rw [List.eraseP_cons_of_pos (by simpa using h)]
      by_cases e : id' = id
      · subst e
        rw [if_pos rfl, List.filter_cons_of_pos (by simpa using h)]; rfl
      · rw [if_neg e, List.filter_cons_of_neg]
        have : x.1 = id := by simpa using h
        simp only [this]
        intro e2; exact e (eq_of_beq e2).symm
    · rw [List.eraseP_cons_of_neg (by simpa using h)]
      by_cases h' : (x.1 == id') = true
      · have e : id' ≠ id := by
          intro e; subst e; exact h h'
        rw [if_neg e] at ih ⊢
        rw [List.filter_cons_of_pos (by simpa using h'), List.filter_cons_of_pos (by simpa using h'), List.map_cons, List.map_cons, ih]
      · rw [List.filter_cons_of_neg (by simpa using h'), List.filter_cons_of_neg (by simpa using h'), ih]

theorem of_length_le (iid : Nat) (id : Text) (l : List Obj) : (of iid id l).length ≤ users iid l := by
  unfold of users
  induction l with
  | nil => simp
  | cons x l ih =>
    by_cases h : x.iid = iid
    · by_cases h2 : x.id = id
      · simp only [List.filter_cons, h, h2, and_self, decide_true, if_true, List.length_cons]; omega
      · simp only [List.filter_cons, h, h2, and_false, decide_true, decide_false, if_true, List.length_cons, Bool.false_eq_true, if_false]; omega
    · simp only [List.filter_cons, h, false_and, decide_false, Bool.false_eq_true, if_false]; exact ih

theorem new_good : Good new := by
  refine ⟨by simp [new], fun iid => Or.inl ⟨rfl, rfl⟩, fun iid id => rfl⟩

theorem findReg_self (r : Regs) (iid : Nat) : ∃ g, findReg r iid iid = some g ∧ g.list = listOf r iid ∧
    g.refcount = (match r iid with | none => 2 | some g => g.refcount + 1) ∧ ∀ i, i ≠ iid → findReg r iid i = r i := by
  unfold findReg listOf
  cases h : r iid with
  | none =>
    refine ⟨⟨2, []⟩, by simp [Regs.put], by simp, rfl, ?_⟩
    intro i hi; simp [Regs.put, hi]
  | some g =>
    refine ⟨⟨g.refcount + 1, g.list⟩, by simp [Regs.put], by simp, rfl, ?_⟩
    intro i hi; simp [Regs.put, hi]

/-- What `make` does. -/
theorem make_spec (s : State) (h : Good s) (o : Obj) (b : Bool) (h1 : ∀ x ∈ s.objs, x.obj ≠ o.obj) (h2 : b = false → of o.iid o.id s.objs = []) :
    ∃ s', step s (.make o b) = some s' ∧ s'.objs = o :: s.objs ∧ Good s' ∧ (∀ iid, iid ≠ o.iid → listOf s'.regs iid = listOf s.regs iid) ∧
      listOf s'.regs o.iid = (o.id, o.func) :: listOf s.regs o.iid := by
  obtain ⟨g, e1, e2, e3, e4⟩ := findReg_self s.regs o.iid
  have hadd : add g.list o.id o.func b = some ((o.id, o.func) :: g.list) := by
    unfold add
    rw [if_neg]
    cases b with
    | true => simp
    | false =>
      have h0 := h.cnt o.iid o.id
      rw [h2 rfl] at h0
      intro hc
      simp only [Bool.not_false, Bool.true_and] at hc
      rw [any_funcs, e2] at hc
      exact hc (List.eq_nil_of_length_eq_zero h0)
  obtain ⟨r, hr⟩ : ∃ r, r = (findReg s.regs o.iid).put o.iid (some ⟨g.refcount, (o.id, o.func) :: g.list⟩) := ⟨_, rfl⟩
  have hr1 : r o.iid = some ⟨g.refcount, (o.id, o.func) :: g.list⟩ := by rw [hr]; simp [Regs.put]
  have hr2 : ∀ i, i ≠ o.iid → r i = s.regs i := by
    intro i hi; rw [hr]; simp only [Regs.put, hi, if_false]; exact e4 i hi
  have hl1 : listOf r o.iid = (o.id, o.func) :: listOf s.regs o.iid := by unfold listOf at e2 ⊢; rw [hr1]; simp [e2]
  have hl2 : ∀ i, i ≠ o.iid → listOf r i = listOf s.regs i := by intro i hi; unfold listOf; rw [hr2 i hi]
  refine ⟨⟨r, o :: s.objs⟩, ?_, rfl, ⟨?_, ?_, ?_⟩, hl2, hl1⟩
  · unfold step make
    simp only []
    rw [e1, Option.bind_some, hadd, Option.map_some, Option.map_some, ← hr]
  · rw [List.map_cons, List.nodup_cons]
    refine ⟨?_, h.names⟩
    intro hm
    obtain ⟨x, hx, e⟩ := List.mem_map.mp hm
    exact h1 x hx e
  · intro iid
    by_cases hi : iid = o.iid
    · subst hi
      right
      refine ⟨_, hr1, ?_, ?_⟩
      · simp [users]
      · simp only []
        rw [e3]
        have hu : users o.iid (o :: s.objs) = users o.iid s.objs + 1 := by simp [users]
        rw [hu]
        rcases h.regs o.iid with ⟨u0, u1⟩ | ⟨g', u1, u2, u3⟩
        · rw [u1, u0]
        · rw [u1]; simp only []; omega
    · have hu : users iid (o :: s.objs) = users iid s.objs := by
        unfold users; rw [List.filter_cons_of_neg (by simpa using fun e : o.iid = iid => hi e.symm)]
      simp only []
      rw [hu, hr2 iid hi]
      exact h.regs iid
  · intro iid id
    simp only []
    by_cases hi : iid = o.iid
    · subst hi
      rw [hl1]
      have h0 := h.cnt o.iid id
      unfold funcs of at h0 ⊢
      by_cases hd : o.id = id
      · rw [List.filter_cons_of_pos (by simpa using hd), List.filter_cons_of_pos (by simpa using hd)]
        simp only [List.map_cons, List.length_cons]; omega
      · rw [List.filter_cons_of_neg (by simpa using hd), List.filter_cons_of_neg (by simpa using hd)]
        exact h0
    · rw [hl2 iid hi, h.cnt]
      unfold of
      rw [List.filter_cons_of_neg (by simpa using fun (e : o.iid = iid) => absurd e.symm hi)]

theorem filter_split (l : List Obj) (hn : (l.map (·.obj)).Nodup) (o : Obj) (ho : o ∈ l) (p : Obj → Bool) :
    ((l.filter fun x => x.obj ≠ o.obj).filter p).length + (if p o then 1 else 0) = (l.filter p).length := by
  induction l with
  | nil => simp at ho
  | cons x l ih =>
    rw [List.map_cons, List.nodup_cons] at hn
    rcases List.mem_cons.mp ho with rfl | ho
    · have : (l.filter fun y => decide (y.obj ≠ o.obj)) = l := by
        apply List.filter_eq_self.mpr
        intro y hy
        simp only [ne_eq, decide_eq_true_eq]
        intro e; exact hn.1 (e ▸ List.mem_map_of_mem hy)
      rw [List.filter_cons_of_neg (by simp), this]
      by_cases hp : p o = true
      · rw [List.filter_cons_of_pos hp]; simp [hp]
      · rw [List.filter_cons_of_neg hp]; simp [hp]
    · have hx : x.obj ≠ o.obj := fun e => hn.1 (e ▸ List.mem_map_of_mem ho)
      rw [List.filter_cons_of_pos (by simpa using hx)]
      have := ih hn.2 ho
      by_cases hp : p x = true
      · rw [List.filter_cons_of_pos hp, List.filter_cons_of_pos hp, List.length_cons, List.length_cons]; omega
      · rw [List.filter_cons_of_neg hp, List.filter_cons_of_neg hp]; exact this

theorem nodup_inj (l : List Obj) (hn : (l.map (·.obj)).Nodup) {x y : Obj} (hx : x ∈ l) (hy : y ∈ l) (e : x.obj = y.obj) : x = y := by
  induction l with
  | nil => simp at hx
  | cons z l ih =>
    rw [List.map_cons, List.nodup_cons] at hn
    rcases List.mem_cons.mp hx with e1 | hx'
    · rcases List.mem_cons.mp hy with e2 | hy'
      · rw [e1, e2]
      · exact absurd (by rw [← e1, e]; exact List.mem_map_of_mem hy') hn.1
    · rcases List.mem_cons.mp hy with e2 | hy'
      · exact absurd (by rw [← e2, ← e]; exact List.mem_map_of_mem hx') hn.1
      · exact ih hn.2 hx' hy'

/-- What `destroy` does. -/
theorem destroy_spec (s : State) (h : Good s) (o : Obj) (ho : o ∈ s.objs) :
    ∃ s', step s (.destroy o.obj) = some s' ∧ s'.objs = s.objs.filter (fun x => x.obj ≠ o.obj) ∧ Good s' ∧
      (∀ iid, iid ≠ o.iid → listOf s'.regs iid = listOf s.regs iid) ∧
      (∀ id, funcs id (listOf s'.regs o.iid) = if id = o.id then (funcs id (listOf s.regs o.iid)).tail else funcs id (listOf s.regs o.iid)) ∧
      (listOf s'.regs o.iid = (listOf s.regs o.iid).eraseP fun x => x.1 == o.id) := by
  have hfind : s.objs.find? (fun x => x.obj = o.obj) = some o := by
    have hn := h.names
    generalize s.objs = l at ho hn
    induction l with
    | nil => simp at ho
    | cons x l ih =>
      rw [List.map_cons, List.nodup_cons] at hn
      rcases List.mem_cons.mp ho with rfl | ho
      · simp
      · have hx : x.obj ≠ o.obj := fun e => hn.1 (e ▸ List.mem_map_of_mem ho)
        rw [List.find?_cons_of_neg (by simpa using hx)]
        exact ih ho hn.2
  obtain ⟨objs, hobjs⟩ : ∃ l, l = s.objs.filter (fun x => x.obj ≠ o.obj) := ⟨_, rfl⟩
  have hu : users o.iid objs + 1 = users o.iid s.objs := by
    have := filter_split s.objs h.names o ho (fun x => x.iid = o.iid)
    rw [hobjs]; simpa [users] using this
  have hu' : ∀ iid, iid ≠ o.iid → users iid objs = users iid s.objs := by
    intro iid hi
    have := filter_split s.objs h.names o ho (fun x => x.iid = iid)
    have h2 : ¬ o.iid = iid := fun e => hi e.symm
    rw [hobjs]; simpa [users, h2] using this
  have hof : ∀ iid id, (of iid id objs).length + (if o.iid = iid ∧ o.id = id then 1 else 0) = (of iid id s.objs).length := by
    intro iid id
    have := filter_split s.objs h.names o ho (fun x => x.iid = iid ∧ x.id = id)
    rw [hobjs]; simpa [of] using this
  obtain ⟨g, hg, hg0, hgc⟩ : ∃ g, s.regs o.iid = some g ∧ 0 < users o.iid s.objs ∧ g.refcount = users o.iid s.objs + 1 := by
    rcases h.regs o.iid with ⟨u0, u1⟩ | hh
    · omega
    · exact hh
  have hlist : listOf s.regs o.iid = g.list := by unfold listOf; rw [hg]; rfl
  have hne : funcs o.id g.list ≠ [] := by
    intro e
    have h0 := h.cnt o.iid o.id
    rw [hlist, e] at h0
    have h1 := hof o.iid o.id
    simp only [and_self, if_true] at h1
    simp only [List.length_nil] at h0
    omega
  have hdel : del g.list o.id = some (g.list.eraseP fun x => x.1 == o.id) := by
    unfold del
    rw [if_pos ((any_funcs _ _).mpr hne)]
  obtain ⟨l, hl⟩ : ∃ l, l = g.list.eraseP (fun x => x.1 == o.id) := ⟨_, rfl⟩
  obtain ⟨r, hr, hr1, hr2⟩ : ∃ r, release (s.regs.put o.iid (some ⟨g.refcount, l⟩)) o.iid = some r ∧
      (∀ i, i ≠ o.iid → r i = s.regs i) ∧ ((users o.iid objs = 0 ∧ r o.iid = none) ∨
        (0 < users o.iid objs ∧ r o.iid = some ⟨users o.iid objs + 1, l⟩)) := by
    unfold release
    have : (s.regs.put o.iid (some ⟨g.refcount, l⟩)) o.iid = some ⟨g.refcount, l⟩ := by simp [Regs.put]
    rw [this, Option.bind_some]
    by_cases h0 : users o.iid objs = 0
    · rw [if_neg (by simp only []; omega)]
      refine ⟨_, rfl, ?_, Or.inl ⟨h0, by simp [Regs.put]⟩⟩
      intro i hi; simp [Regs.put, hi]
    · rw [if_pos (by simp only []; omega)]
      refine ⟨_, rfl, ?_, Or.inr ⟨by omega, ?_⟩⟩
      · intro i hi; simp [Regs.put, hi]
      · simp only [Regs.put, if_true]
        congr 2; omega
  have hlr : listOf r o.iid = l := by
    unfold listOf
    rcases hr2 with ⟨u0, u1⟩ | ⟨u0, u1⟩
    · rw [u1]
      have : ∀ id, funcs id l = [] := by
        intro id
        apply List.eq_nil_of_length_eq_zero
        have h3 := h.cnt o.iid id
        rw [hlist] at h3
        have h4 := hof o.iid id
        have h5 := of_length_le o.iid id objs
        rw [hl, erase_funcs]
        by_cases hi : id = o.id
        · rw [if_pos hi, List.length_tail]
          rw [if_pos ⟨rfl, hi.symm⟩] at h4
          omega
        · rw [if_neg hi]
          rw [if_neg (fun e => hi e.2.symm)] at h4
          omega
      cases l with
      | nil => rfl
      | cons x l =>
        have := this x.1
        simp [funcs] at this
    · rw [u1]; rfl
  have hlr2 : ∀ i, i ≠ o.iid → listOf r i = listOf s.regs i := by intro i hi; unfold listOf; rw [hr1 i hi]
  refine ⟨⟨r, objs⟩, ?_, hobjs, ⟨?_, ?_, ?_⟩, hlr2, ?_, ?_⟩
  · unfold step destroy
    simp only []
    rw [hfind, Option.bind_some, hg, Option.bind_some, hdel, Option.bind_some, ← hl, hr, Option.map_some, ← hobjs]
  · simp only []
    rw [hobjs]
    exact List.Nodup.sublist (List.filter_sublist.map _) h.names
  · intro iid
    simp only []
    by_cases hi : iid = o.iid
    · subst hi
      rcases hr2 with u | ⟨u0, u1⟩
      · exact Or.inl u
      · exact Or.inr ⟨_, u1, u0, rfl⟩
    · rw [hu' iid hi, hr1 iid hi]
      exact h.regs iid
  · intro iid id
    simp only []
    have h4 := hof iid id
    by_cases hi : iid = o.iid
    · subst hi
      have h3 := h.cnt o.iid id
      rw [hlr, hl, erase_funcs]
      rw [hlist] at h3
      by_cases hd : id = o.id
      · rw [if_pos hd, List.length_tail]
        rw [if_pos ⟨rfl, hd.symm⟩] at h4
        omega
      · rw [if_neg hd]
        rw [if_neg (fun e => hd e.2.symm)] at h4
        omega
    · rw [hlr2 iid hi, h.cnt]
      rw [if_neg (fun e => hi e.1.symm)] at h4
      omega
  · intro id
    simp only []
    rw [hlr, hlist, hl, erase_funcs]
  · simp only []
    rw [hlr, hlist, hl]

/-- All histories. -/
theorem run_spec (h : List Op) : ∀ (s : State), Good s → Valid s.objs h →
    ∃ s', run s h = some s' ∧ Good s' ∧ s'.objs = h.foldl alive s.objs ∧
      ∀ iid id, funcs id (listOf s'.regs iid) = stack iid id s.objs (funcs id (listOf s.regs iid)) h := by
  induction h with
  | nil => intro s hs _; exact ⟨s, rfl, hs, rfl, fun _ _ => rfl⟩
  | cons op h ih =>
    intro s hs hv
    cases op with
    | make o b =>
      obtain ⟨v1, v2, v3⟩ := hv
      obtain ⟨s1, e1, e2, e3, e4, e5⟩ := make_spec s hs o b v1 v2
      have : alive s.objs (.make o b) = s1.objs := by rw [e2]; rfl
      rw [this] at v3
      obtain ⟨s2, k1, k2, k3, k4⟩ := ih s1 e3 v3
      refine ⟨s2, by rw [run, e1, Option.bind_some, k1], k2, by rw [List.foldl_cons, this, k3], ?_⟩
      intro iid id
      rw [k4, stack, this]
      congr 1
      by_cases hi : iid = o.iid
      · subst hi
        rw [e5]
        unfold funcs
        by_cases hd : o.id = id
        · rw [List.filter_cons_of_pos (by simpa using hd), if_pos ⟨rfl, hd⟩]; rfl
        · rw [List.filter_cons_of_neg (by simpa using hd), if_neg (fun e => hd e.2)]
      · rw [e4 iid hi, if_neg (fun e => hi e.1.symm)]
    | destroy i =>
      obtain ⟨⟨o, ho, hoi⟩, v3⟩ := hv
      subst hoi
      obtain ⟨s1, e1, e2, e3, e4, e5, _⟩ := destroy_spec s hs o ho
      have : alive s.objs (.destroy o.obj) = s1.objs := by rw [e2]; rfl
      rw [this] at v3
      obtain ⟨s2, k1, k2, k3, k4⟩ := ih s1 e3 v3
      refine ⟨s2, by rw [run, e1, Option.bind_some, k1], k2, by rw [List.foldl_cons, this, k3], ?_⟩
      intro iid id
      rw [k4, stack, this]
      congr 1
      have hany : s.objs.any (fun x => x.obj = o.obj ∧ x.iid = iid ∧ x.id = id) = true ↔ iid = o.iid ∧ id = o.id := by
        rw [List.any_eq_true]
        constructor
        · rintro ⟨x, hx, hp⟩
          simp only [decide_eq_true_eq] at hp
          have : x = o := by
            have hn := hs.names
            exact nodup_inj s.objs hn hx ho hp.1
          subst this
          exact ⟨hp.2.1.symm, hp.2.2.symm⟩
        · rintro ⟨rfl, rfl⟩
          exact ⟨o, ho, by simp⟩
      by_cases hi : iid = o.iid
      · subst hi
        rw [e5]
        by_cases hd : id = o.id
        · rw [if_pos hd, if_pos (hany.mpr ⟨rfl, hd⟩)]
        · rw [if_neg hd, if_neg (fun e => hd (hany.mp e).2)]
      · rw [e4 iid hi, if_neg (fun e => hi (hany.mp e).1)]

/-- `wvcreate` does not change the registries. -/
theorem wvcreate_spec (s : State) (h : Good s) (iid : Nat) (m : Text) :
    Wv.Moniker.wvcreate s.regs iid m = some (create (listOf s.regs iid) m, s.regs) := by
  obtain ⟨g, e1, e2, e3, e4⟩ := findReg_self s.regs iid
  unfold Wv.Moniker.wvcreate
  simp only []
  rw [e1, Option.bind_some, e2]
  unfold release
  rw [e1, Option.bind_some, e3]
  rcases h.regs iid with ⟨u0, u1⟩ | ⟨g', u1, u2, u3⟩
  · rw [u1]
    simp only []
    rw [if_neg (by omega), Option.map_some]
    congr 2
    funext i
    by_cases hi : i = iid
    · subst hi; simp [Regs.put, u1]
    · simp only [Regs.put, hi, if_false]; exact e4 i hi
  · rw [u1]
    simp only []
    rw [if_pos (by omega), Option.map_some]
    congr 2
    funext i
    by_cases hi : i = iid
    · subst hi
      simp only [Regs.put, if_true, u1, e2]
      congr 1
      cases g'
      simp [listOf, u1]
    · simp only [Regs.put, hi, if_false]; exact e4 i hi

theorem trim_pad (a t b : Text) (ha : ∀ c ∈ a, isspace c = true) (hb : ∀ c ∈ b, isspace c = true)
    (h1 : ∀ c, t.head? = some c → isspace c = false) (h2 : ∀ c, t.getLast? = some c → isspace c = false) : trimString (a ++ t ++ b) = t := by
  unfold trimString
  rw [List.reverse_append, List.dropWhile_append_of_pos (by intro c hc; exact hb c (by simpa using hc))]
  cases ht : t with
  | nil =>
    rw [List.append_nil]
    have := List.dropWhile_append_of_pos (l₂ := []) (p := isspace) (l₁ := a.reverse) (by intro c hc; exact ha c (by simpa using hc))
    rw [List.append_nil] at this
    rw [this]; rfl
  | cons x u =>
    rw [← ht]
    have hr : (a ++ t).reverse.dropWhile isspace = (a ++ t).reverse := by
      rw [List.reverse_append]
      cases hu : t.reverse with
      | nil =>
        rw [List.reverse_eq_nil_iff] at hu
        rw [hu] at ht; cases ht
      | cons y v =>
        have hy : t.getLast? = some y := by rw [List.getLast?_eq_head?_reverse, hu]; rfl
        rw [List.cons_append, List.dropWhile_cons_of_neg]
        rw [h2 y hy]; simp
    rw [hr, List.reverse_reverse, List.dropWhile_append_of_pos ha, ht, List.dropWhile_cons_of_neg]
    have := h1 x (by rw [ht]; rfl)
    rw [this]; simp

theorem create_spec (l : List (Text × Nat)) (m name rest : Text) (hn : ch ':' ∉ name) (hm : trimString m = name ++ ch ':' :: rest) :
    create l m = (funcs name l).head?.map fun f => (f, rest) := by
  unfold create
  simp only []
  rw [hm]
  have hp : ∀ c ∈ name, decide (c ≠ ch ':') = true := by
    intro c hc; simp only [ne_eq, decide_eq_true_eq]; intro e; exact hn (e ▸ hc)
  rw [List.takeWhile_append_of_pos hp, List.dropWhile_append_of_pos hp, ← find_funcs]
  rw [List.takeWhile_cons_of_neg (by simp), List.dropWhile_cons_of_neg (by simp)]
  simp only [List.append_nil, List.drop_succ_cons, List.drop_zero, Option.map_map]
  rfl

theorem create_plain (l : List (Text × Nat)) (m name : Text) (hn : ch ':' ∉ name) (hm : trimString m = name) :
    create l m = (funcs name l).head?.map fun f => (f, []) := by
  unfold create
  simp only []
  rw [hm]
  have hp : ∀ c ∈ name, decide (c ≠ ch ':') = true := by
    intro c hc; simp only [ne_eq, decide_eq_true_eq]; intro e; exact hn (e ▸ hc)
  have e1 : name.takeWhile (fun c => decide (c ≠ ch ':')) = name := by
    have := List.takeWhile_append_of_pos (l₂ := []) hp
    simpa using this
  have e2 : name.dropWhile (fun c => decide (c ≠ ch ':')) = [] := by
    have := List.dropWhile_append_of_pos (l₂ := []) hp
    simpa using this
  rw [e1, e2, ← find_funcs, Option.map_map]
  rfl

/-- Destroying in the opposite order. -/
theorem nested_stack (h : List Op) (iid : Nat) (id : Text) : ∀ (l : List Obj), (l.map (·.obj)).Nodup → Valid l h → Nested l h →
    stack iid id l ((of iid id l).map (·.func)) h = (of iid id (h.foldl alive l)).map (·.func) := by
  induction h with
  | nil => intro l _ _ _; rfl
  | cons op h ih =>
    intro l hn hv hd
    cases op with
    | make o b =>
      obtain ⟨v1, v2, v3⟩ := hv
      have hn' : ((alive l (.make o b)).map (·.obj)).Nodup := by
        show ((o :: l).map (·.obj)).Nodup
        rw [List.map_cons, List.nodup_cons]
        refine ⟨?_, hn⟩
        intro hm
        obtain ⟨x, hx, e⟩ := List.mem_map.mp hm
        exact v1 x hx e
      rw [stack, List.foldl_cons, ← ih _ hn' v3 hd]
      congr 1
      show _ = (of iid id (o :: l)).map (·.func)
      unfold of
      by_cases he : o.iid = iid ∧ o.id = id
      · rw [if_pos he, List.filter_cons_of_pos (by simpa using he)]; rfl
      · rw [if_neg he, List.filter_cons_of_neg (by simpa using he)]
    | destroy i =>
      obtain ⟨⟨o, ho, hoi⟩, v3⟩ := hv
      subst hoi
      have hn' : ((alive l (.destroy o.obj)).map (·.obj)).Nodup := List.Nodup.sublist (List.filter_sublist.map _) hn
      rw [stack, List.foldl_cons, ← ih _ hn' v3 hd.2]
      congr 1
      have hhead := hd.1 o ho rfl
      have halive : alive l (.destroy o.obj) = l.filter fun x => x.obj ≠ o.obj := rfl
      rw [halive]
      by_cases he : o.iid = iid ∧ o.id = id
      · rw [if_pos (by rw [List.any_eq_true]; exact ⟨o, ho, by simp [he]⟩)]
        rw [he.1, he.2] at hhead
        have : of iid id (l.filter fun x => x.obj ≠ o.obj) = (of iid id l).tail := by
          have hsub : (of iid id l).map (·.obj) |>.Nodup := List.Nodup.sublist (List.filter_sublist.map _) hn
          have hc : of iid id (l.filter fun x => x.obj ≠ o.obj) = (of iid id l).filter fun x => x.obj ≠ o.obj := by
            unfold of; rw [List.filter_filter, List.filter_filter]
            apply List.filter_congr
            intro x _; exact Bool.and_comm _ _
          rw [hc]
          cases hof : of iid id l with
          | nil => rfl
          | cons y r =>
            rw [hof] at hhead hsub
            simp only [List.head?_cons, Option.some.injEq] at hhead
            subst hhead
            rw [List.filter_cons_of_neg (by simp), List.tail_cons]
            apply List.filter_eq_self.mpr
            intro z hz
            rw [List.map_cons, List.nodup_cons] at hsub
            simp only [ne_eq, decide_eq_true_eq]
            intro e; exact hsub.1 (e ▸ List.mem_map_of_mem hz)
        rw [this, List.map_tail]
      · rw [if_neg]
        · unfold of
          rw [List.filter_filter]
          congr 1
          apply List.filter_congr
          intro x hx
          by_cases hx2 : x.iid = iid ∧ x.id = id
          · have : x.obj ≠ o.obj := by
              intro e
              have := nodup_inj l hn hx ho e
              subst this; exact he hx2
            simp [hx2, this]
          · simp [hx2]
        · intro hany
          obtain ⟨x, hx, hp⟩ := List.any_eq_true.mp hany
          simp only [decide_eq_true_eq] at hp
          have := nodup_inj l hn hx ho hp.1
          subst this; exact he hp.2

/-- Without `override` each prefix has one object. -/
theorem noOverride_nested (h : List Op) : ∀ (l : List Obj), (∀ iid id, (of iid id l).length ≤ 1) → Valid l h → NoOverride h → Nested l h := by
  induction h with
  | nil => intro l _ _ _; trivial
  | cons op h ih =>
    intro l hl hv ho
    cases op with
    | make o b =>
      obtain ⟨v1, v2, v3⟩ := hv
      refine ih _ ?_ v3 (fun o b hm => ho o b (by simp [hm]))
      intro iid id
      show (of iid id (o :: l)).length ≤ 1
      have hb := ho o b (by simp)
      have h0 := v2 hb
      have h1 := hl iid id
      unfold of at h0 h1 ⊢
      by_cases he : o.iid = iid ∧ o.id = id
      · rw [List.filter_cons_of_pos (by simpa using he)]
        rw [he.1, he.2] at h0
        rw [h0]; simp
      · rw [List.filter_cons_of_neg (by simpa using he)]; exact h1
    | destroy i =>
      obtain ⟨_, v3⟩ := hv
      refine ⟨?_, ih _ ?_ v3 (fun o b hm => ho o b (by simp [hm]))⟩
      · intro o hol _
        have h1 := hl o.iid o.id
        have hm : o ∈ of o.iid o.id l := by unfold of; rw [List.mem_filter]; exact ⟨hol, by simp⟩
        cases hof : of o.iid o.id l with
        | nil => rw [hof] at hm; simp at hm
        | cons x r =>
          rw [hof] at hm h1
          have : r = [] := List.eq_nil_of_length_eq_zero (by rw [List.length_cons] at h1; omega)
          subst this
          rw [List.mem_singleton.mp hm]; rfl
      · intro iid id
        refine Nat.le_trans ?_ (hl iid id)
        unfold of
        show ((l.filter fun o => o.obj ≠ i).filter _).length ≤ _
        exact (List.Sublist.filter _ List.filter_sublist).length_le

end Mon
open Mon

/-- White space on both sides of a text that neither begins nor ends with white space. -/
def Padded (m t : Text) : Prop := ∃ a b, m = a ++ t ++ b ∧ (∀ c ∈ a ++ b, isspace c = true) ∧
  (∀ c, t.head? = some c → isspace c = false) ∧ ∀ c, t.getLast? = some c → isspace c = false

/-- C48: no assertion fails in any history; creating calls the top factory of the prefix's stack, with everything between the first colon and the white
    space at the end (nothing if there is no colon); it changes nothing in the registries. Nothing is called when nothing is registered. -/
theorem C48_stack (h : List Op) (hv : Valid [] h) : ∃ s, run new h = some s ∧ ∀ (iid : Nat) (m name rest : Text), ch ':' ∉ name →
    (Padded m (name ++ ch ':' :: rest) → wvcreate s.regs iid m = some ((stack iid name [] [] h).head?.map fun f => (f, rest), s.regs)) ∧
    (Padded m name → wvcreate s.regs iid m = some ((stack iid name [] [] h).head?.map fun f => (f, []), s.regs)) := by
  obtain ⟨s, e1, e2, e3, e4⟩ := run_spec h new new_good hv
  refine ⟨s, e1, ?_⟩
  intro iid m name rest hn
  constructor
  · rintro ⟨a, b, rfl, h1, h2, h3⟩
    rw [wvcreate_spec s e2, create_spec _ _ name rest hn (trim_pad a _ b (fun c hc => h1 c (by simp [hc])) (fun c hc => h1 c (by simp [hc])) h2 h3), e4]
    rfl
  · rintro ⟨a, b, rfl, h1, h2, h3⟩
    rw [wvcreate_spec s e2, create_plain _ _ name hn (trim_pad a _ b (fun c hc => h1 c (by simp [hc])) (fun c hc => h1 c (by simp [hc])) h2 h3), e4]
    rfl

/-- C48: when the objects of each prefix are destroyed in the opposite order of their creation, the factory is that of the newest object that still
    exists. Not so in other orders: `C48_newest_fails`. -/
theorem C48_newest_partial (h : List Op) (hv : Valid [] h) (hd : Nested [] h) : ∃ s, run new h = some s ∧
    ∀ (iid : Nat) (m name rest : Text), ch ':' ∉ name → Padded m (name ++ ch ':' :: rest) →
      wvcreate s.regs iid m = some ((newest iid name (h.foldl alive [])).map fun f => (f, rest), s.regs) := by
  obtain ⟨s, e1, e2⟩ := C48_stack h hv
  refine ⟨s, e1, ?_⟩
  intro iid m name rest hn hm
  rw [(e2 iid m name rest hn).1 hm]
  have := nested_stack h iid name [] List.nodup_nil hv hd
  rw [show (of iid name []).map (·.func) = [] from rfl] at this
  rw [this]
  unfold newest
  rw [List.head?_map]

/-- C48: so it is when `override` is never used. -/
theorem C48_no_override (h : List Op) (hv : Valid [] h) (ho : NoOverride h) : ∃ s, run new h = some s ∧
    ∀ (iid : Nat) (m name rest : Text), ch ':' ∉ name → Padded m (name ++ ch ':' :: rest) →
      wvcreate s.regs iid m = some ((newest iid name (h.foldl alive [])).map fun f => (f, rest), s.regs) :=
  C48_newest_partial h hv (noOverride_nested h [] (fun _ _ => by simp [of]) hv ho)

/-- C48: a registry exists exactly while there are objects for its interface. -/
theorem C48_registry (h : List Op) (hv : Valid [] h) (s : State) (hs : run new h = some s) (iid : Nat) :
    (s.regs iid).isSome = true ↔ ∃ o ∈ h.foldl alive [], o.iid = iid := by
  obtain ⟨s', e1, e2, e3, e4⟩ := run_spec h new new_good hv
  rw [hs] at e1
  cases e1
  have hu : users iid s.objs = 0 ↔ ¬ ∃ o ∈ s.objs, o.iid = iid := by
    unfold users
    rw [List.length_eq_zero_iff, List.filter_eq_nil_iff]
    simp
  rw [show h.foldl alive [] = s.objs from e3.symm]
  rcases e2.regs iid with ⟨u0, u1⟩ | ⟨g, u1, u2, u3⟩
  · rw [u1]
    simp only [Option.isSome_none, Bool.false_eq_true, false_iff]
    exact hu.mp u0
  · rw [u1]
    simp only [Option.isSome_some, true_iff]
    refine Decidable.byContradiction fun hc => ?_
    have := hu.mpr hc
    omega

/-- Two objects for one prefix, the second overriding; then the second is destroyed. -/
def exampleNested : List Op := [.make ⟨0, 7, str ['t', 'c', 'p'], 10⟩ false, .make ⟨1, 7, str ['t', 'c', 'p'], 11⟩ true,
  .make ⟨2, 8, str ['t', 'c', 'p'], 12⟩ false, .destroy 1]

example : Valid [] exampleNested ∧ Nested [] exampleNested ∧ newest 7 (str ['t', 'c', 'p']) (exampleNested.foldl alive []) = some 10 := by
  refine ⟨?_, ?_, by decide +kernel⟩
  · simp [exampleNested, Valid, alive, of]
  · simp [exampleNested, Nested, alive, of]

example : Padded (str [' ', 't', 'c', 'p', ':', 'a', ':', 'b', '\n']) (str ['t', 'c', 'p'] ++ ch ':' :: str ['a', ':', 'b']) := by
  refine ⟨str [' '], str ['\n'], rfl, by decide +kernel, ?_, ?_⟩
  · intro c hc
    have : c = ch 't' := by simpa [str] using hc.symm
    subst this; decide +kernel
  · intro c hc
    have : c = ch 'b' := by
      have h2 : (str ['t', 'c', 'p'] ++ ch ':' :: str ['a', ':', 'b']).getLast? = some (ch 'b') := by decide +kernel
      rw [h2] at hc; simpa using hc.symm
    subst this; decide +kernel

/-- Destroying the older of two objects unregisters the newer one: the factory of the destroyed object is used. -/
theorem C48_newest_fails : ¬ ∀ (h : List Op), Valid [] h → ∀ s, run new h = some s → ∀ (iid : Nat) (m name rest : Text), ch ':' ∉ name →
    Padded m (name ++ ch ':' :: rest) → wvcreate s.regs iid m = some ((newest iid name (h.foldl alive [])).map fun f => (f, rest), s.regs) := by
  intro hall
  obtain ⟨h, hh⟩ : ∃ h : List Op, h = [.make ⟨0, 7, [97], 10⟩ false, .make ⟨1, 7, [97], 11⟩ true, .destroy 0] := ⟨_, rfl⟩
  have hv : Valid [] h := by rw [hh]; simp [Valid, alive, of]
  obtain ⟨s, e1, e2⟩ := C48_stack h hv
  have hp : Padded [97, 58] ([97] ++ ch ':' :: []) := by
    refine ⟨[], [], rfl, by simp, ?_, ?_⟩
    · intro c hc
      have : c = 97 := by simpa using hc.symm
      subst this; decide +kernel
    · intro c hc
      have : c = 58 := by
        have h2 : ([97] ++ ch ':' :: [] : Text).getLast? = some 58 := by decide +kernel
        rw [h2] at hc; simpa using hc.symm
      subst this; decide +kernel
  have h1 := hall h hv s e1 7 [97, 58] [97] [] (by decide +kernel) hp
  rw [(e2 7 [97, 58] [97] [] (by decide +kernel)).1 hp] at h1
  have h3 : ((stack 7 [97] [] [] h).head?.map fun f => (f, ([] : Text))) = ((newest 7 [97] (h.foldl alive [])).map fun f => (f, ([] : Text))) :=
    congrArg Prod.fst (Option.some.inj h1)
  rw [hh] at h3
  revert h3
  decide +kernel

/-- White space at the end of what follows the colon is lost. -/
theorem C48_rest_fails : ¬ ∀ (l : List (Text × Nat)) (name rest : Text) (f : Nat), ch ':' ∉ name → (∀ c ∈ name, isspace c = false) → (name, f) ∈ l →
    ∃ g, create l (name ++ ch ':' :: rest) = some (g, rest) := by
  intro hall
  obtain ⟨g, hg⟩ := hall [([97], 1)] [97] [32] 1 (by decide +kernel) (by decide +kernel) (by simp)
  have : create [([97], 1)] ([97] ++ ch ':' :: [32]) = some (1, []) := by decide +kernel
  rw [this] at hg
  simp at hg

end Props
