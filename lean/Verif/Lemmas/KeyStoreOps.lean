import Verif.Lemmas.KeyStore
/-
What each operation on keys does to the memory.
-/
namespace Lemmas.KeyStore
open Wv Wv.KeyStore
open Spec.Keys (root names slash part ofText)

theorem names_cons (x : Seg) (l : Key) : names (x :: l) = if x = [] then names l else x :: names l := by
  unfold names
  rw [List.filter_cons]
  by_cases h : x = [] <;> simp [h]

theorem take_set_self (l : Key) (n : Nat) (x : Seg) (h : n < l.length) : (l.set n x).take (n + 1) = l.take n ++ [x] := by
  have h1 : n < (l.set n x).length := by simpa using h
  rw [List.take_add_one, List.getElem?_set_self h, List.take_set_of_le (Nat.le_refl _)]
  rfl

theorem append_spec' (s : Store) (x : Seg) (h : s.used < s.vec.length) :
    ∃ s', s.append x = some s' ∧ s'.refs = s.refs ∧ s'.used = s.used + 1 ∧ s'.vec.length = s.vec.length ∧
      s'.vec.take s'.used = s.vec.take s.used ++ [x] := by
  refine ⟨{ s with vec := s.vec.set s.used x, used := s.used + 1 }, by unfold Store.append; rw [if_pos h], rfl, rfl, by simp,
    take_set_self _ _ _ h⟩

theorem appendAll_spec (l : Key) : ∀ s : Store, s.used + (names l).length ≤ s.vec.length →
    ∃ s', s.appendAll l = some s' ∧ s'.refs = s.refs ∧ s'.used = s.used + (names l).length ∧ s'.vec.length = s.vec.length ∧
      s'.vec.take s'.used = s.vec.take s.used ++ names l := by
  induction l with
  | nil => intro s _; exact ⟨s, rfl, rfl, rfl, rfl, by simp [names]⟩
  | cons x l ih =>
    intro s h
    rw [names_cons] at h ⊢
    unfold Store.appendAll
    by_cases hx : x = []
    · rw [if_pos hx] at h ⊢
      rw [if_pos hx]
      exact ih s h
    · rw [if_neg hx] at h ⊢
      rw [if_neg hx]
      rw [List.length_cons] at h
      obtain ⟨s1, h1, r1, u1, l1, t1⟩ := append_spec' s x (by omega)
      obtain ⟨s2, h2, r2, u2, l2, t2⟩ := ih s1 (by omega)
      refine ⟨s2, by rw [h1, Option.bind_some, h2], by omega, by rw [List.length_cons]; omega, by omega, ?_⟩
      rw [t2, t1, List.append_assoc]; rfl

theorem make_spec (m : Mem) (ks : List K) (t : List Byte) (hi : Inv m ks) : Result m ks (make m t) (ofText t) := by
  unfold make
  by_cases ht : t = []
  · rw [if_pos ht, Option.map_some]
    obtain ⟨h1, h2, h3⟩ := push_spec m ks hi (Store.new 4 1) ⟨m.length, 0, 0⟩ rfl (Nat.zero_le _) rfl (Nat.le_refl _) (Nat.le_refl _)
    refine ⟨_, _, rfl, h1, ?_, h2⟩
    refine Eq.trans (b := _) h3 ?_
    rw [ht]; rfl
  · rw [if_neg ht]
    have hn : names (Split.split [ch '/'] 0 t) = Spec.Path.names t := Key.split_filter t
    have hlen : (Split.split [ch '/'] 0 t).length ≥ (Spec.Path.names t).length + (if t.getLast? = some (ch '/') then 1 else 0) := by
      rw [Props.C35_split_words, Key.contains_slash]
      have e : Spec.Path.names t = Spec.Split.words (· == Spec.Path.slash) t := rfl
      rw [e]
      simp only [List.length_append]
      by_cases hl : t.getLast? = some (ch '/')
      · rw [if_pos hl, hl]
        have : (Option.any (fun x => x == Spec.Path.slash) (some (ch '/'))) = true := by decide
        rw [if_pos this]
        simp only [List.length_singleton]
        omega
      · rw [if_neg hl]; omega
    generalize hp : Split.split [ch '/'] 0 t = parts at hn hlen
    have hres : ∃ s0, (Store.new 4 1).resize parts.length 0 = some s0 ∧ s0.refs = 1 ∧ s0.used = 0 ∧ parts.length ≤ s0.vec.length := by
      unfold Store.resize
      by_cases h4 : parts.length ≤ (Store.new 4 1).vec.length
      · rw [if_pos h4, if_neg (by omega)]
        exact ⟨_, rfl, rfl, rfl, h4⟩
      · rw [if_neg h4]
        exact ⟨_, rfl, rfl, rfl, by simp [Store.new]⟩
    obtain ⟨s0, h0, r0, u0, l0⟩ := hres
    obtain ⟨s1, h1, r1, u1, l1, t1⟩ := appendAll_spec parts s0 (by rw [hn, u0]; omega)
    rw [hn] at u1 t1
    rw [u0] at u1 t1
    simp only [List.take_zero, List.nil_append, Nat.zero_add] at t1 u1
    have hfin : ∃ s2, (if t.getLast? = some (ch '/') ∧ 0 < s1.used then s1.append [] else some s1) = some s2 ∧ s2.refs = 1 ∧
        s2.used ≤ s2.vec.length ∧ s2.vec.take s2.used = ofText t := by
      unfold ofText Spec.Path.dir
      by_cases hd : t.getLast? = some (ch '/') ∧ 0 < s1.used
      · rw [if_pos hd]
        rw [if_pos hd.1] at hlen
        obtain ⟨s2, h2, r2, u2, l2, t2⟩ := append_spec' s1 [] (by omega)
        refine ⟨s2, h2, by omega, by omega, ?_⟩
        rw [t2, t1]
        have : (!(Spec.Path.names t).isEmpty && t.getLast? == some Spec.Path.slash) = true := by
          have h2 := hd.2
          rw [u1] at h2
          have hne : (Spec.Path.names t).isEmpty = false := by
            cases hh : Spec.Path.names t with
            | nil => rw [hh] at h2; simp at h2
            | cons _ _ => rfl
          rw [hne, hd.1]; rfl
        rw [if_pos this]
      · rw [if_neg hd]
        refine ⟨s1, rfl, by omega, by omega, ?_⟩
        rw [t1]
        have : ¬ (!(Spec.Path.names t).isEmpty && t.getLast? == some Spec.Path.slash) = true := by
          intro hh
          simp only [Bool.and_eq_true, Bool.not_eq_true', beq_iff_eq] at hh
          refine hd ⟨hh.2, ?_⟩
          rw [u1]
          cases hn' : Spec.Path.names t with
          | nil => rw [hn'] at hh; simp at hh
          | cons _ _ => simp
        rw [if_neg this, List.append_nil]
    obtain ⟨s2, h2, r2, u2, t2⟩ := hfin
    obtain ⟨g1, g2, g3⟩ := push_spec m ks hi s2 ⟨m.length, 0, s2.used⟩ r2 u2 rfl (Nat.zero_le _) (Nat.le_refl _)
    refine ⟨_, _, by dsimp only; rw [h0, Option.bind_some, h1, Option.bind_some, h2, Option.map_some], g1, ?_, g2⟩
    rw [g3]
    simp only [List.drop_zero, t2]

theorem trailing_spec (m : Mem) (ks : List K) (k : K) (x : Key) (hi : Inv m ks) (hk : k ∈ ks) (hx : value m k = some x) :
    hastrailingslash m k = some (x.getLast? == some []) ∧ x.length = k.right - k.left := by
  obtain ⟨s, hs, h1, h2, h3, hv⟩ := value_ok hi hk
  rw [hx] at hv
  have hv := Option.some.inj hv
  have hl : x.length = k.right - k.left := by rw [hv]; exact slice_length (by omega)
  refine ⟨?_, hl⟩
  unfold hastrailingslash
  by_cases h : k.right > k.left
  · rw [if_pos h]
    have hlast := slice_last (l := s.vec) (a := k.left) (b := k.right) (by omega) h
    rw [← hv] at hlast
    simp only [segment, hs, Option.bind_some, ← hlast]
    cases hg : x.getLast? with
    | none =>
      rw [List.getLast?_eq_none_iff] at hg
      rw [hg] at hl
      simp at hl; omega
    | some y => simp
  · rw [if_neg h]
    have : x = [] := List.eq_nil_of_length_eq_zero (by omega)
    simp [this]

theorem slash_eq (m : Mem) (k : K) (x : Key) (hl : x.length = k.right - k.left) (hle : k.left ≤ k.right) :
    slash x = if (k.right == k.left || x.getLast? == some []) = true then [[]] else [] := by
  unfold slash
  have : (k.right == k.left) = decide (x = []) := by
    by_cases h : x = []
    · rw [h] at hl ⊢
      have : k.right = k.left := by simp at hl; omega
      simp [this]
    · have : k.right ≠ k.left := by
        intro e
        exact h (List.eq_nil_of_length_eq_zero (by omega))
      simp [h, this]
  rw [this]
  by_cases h : x = [] <;> by_cases h' : x.getLast? = some [] <;> simp [h, h']

theorem concat_spec (m : Mem) (ks : List K) (a b : K) (x y : Key) (hi : Inv m ks) (ha : a ∈ ks) (hb : b ∈ ks)
    (hx : value m a = some x) (hy : value m b = some y) :
    Result m ks (concat m a b) (root (names x ++ names y ++ slash y)) := by
  obtain ⟨ht, hlb⟩ := trailing_spec m ks b y hi hb hy
  obtain ⟨-, hla⟩ := trailing_spec m ks a x hi ha hx
  have hsl := slash_eq m b y hlb (by obtain ⟨_, _, h, _⟩ := hi.ok b hb; exact h)
  unfold concat
  rw [ht, Option.bind_some, hx, Option.bind_some, hy, Option.bind_some, ← hla, ← hlb]
  have hnx : (names x).length ≤ x.length := List.length_filter_le ..
  have hny : (names y).length ≤ y.length := List.length_filter_le ..
  obtain ⟨s1, h1, r1, u1, l1, t1⟩ := appendAll_spec x (Store.new (x.length + y.length + 1) 1) (by simp [Store.new]; omega)
  obtain ⟨s2, h2, r2, u2, l2, t2⟩ := appendAll_spec y s1 (by rw [u1, l1]; simp [Store.new]; omega)
  have hlen : s2.vec.length = x.length + y.length + 1 := by rw [l2, l1]; simp [Store.new]
  have hu0 : (Store.new (x.length + y.length + 1) 1).used = 0 := rfl
  have hr0 : (Store.new (x.length + y.length + 1) 1).refs = 1 := rfl
  have hfin : ∃ s3, (if (b.right == b.left || y.getLast? == some []) = true then s2.append [] else some s2) = some s3 ∧ s3.refs = 1 ∧
      s3.used ≤ s3.vec.length ∧ s3.vec.take s3.used = names x ++ names y ++ slash y := by
    rw [hsl]
    by_cases hc : (b.right == b.left || y.getLast? == some []) = true
    · rw [if_pos hc, if_pos hc]
      obtain ⟨s3, h3, r3, u3, l3, t3⟩ := append_spec' s2 [] (by omega)
      exact ⟨s3, h3, by omega, by omega, by rw [t3, t2, t1]; simp [hu0]⟩
    · rw [if_neg hc, if_neg hc]
      exact ⟨s2, rfl, by omega, by omega, by rw [t2, t1]; simp [hu0]⟩
  obtain ⟨s3, h3, r3, u3, t3⟩ := hfin
  obtain ⟨g1, g2, g3⟩ := push_spec m ks hi s3 ⟨m.length, 0, s3.used⟩ r3 u3 rfl (Nat.zero_le _) (Nat.le_refl _)
  rw [h1, Option.bind_some, h2, Option.bind_some, h3, Option.bind_some]
  simp only [List.drop_zero, t3] at g3
  obtain ⟨m4, k4, h4, i4, v4, o4⟩ := collapse_spec _ ks _ _ g1 g3
  exact ⟨m4, k4, h4, i4, v4, fun o ho => (o4 o ho).trans (g2 o ho)⟩

/-- The segments of a key from `j` on. -/
theorem drop_step {s : Store} {j r : Nat} (hr : r ≤ s.vec.length) (hj : j < r) :
    ∃ x, s.vec[j]? = some x ∧ (s.vec.take r).drop j = x :: (s.vec.take r).drop (j + 1) := by
  have hl : j < (s.vec.take r).length := by rw [List.length_take]; omega
  refine ⟨(s.vec.take r)[j], ?_, List.drop_eq_getElem_cons hl⟩
  rw [List.getElem_take, List.getElem?_eq_getElem]

theorem replace_spec (s : Store) (i : Nat) (x : Seg) (h : i < s.vec.length) :
    ∃ s', s.replace i x = some s' ∧ s'.refs = s.refs ∧ s'.vec = s.vec.set i x ∧ s'.used = max s.used (i + 1) := by
  refine ⟨{ s with vec := s.vec.set i x, used := if s.used ≤ i then i + 1 else s.used }, by unfold Store.replace; rw [if_pos h],
    rfl, rfl, ?_⟩
  dsimp only
  split <;> omega

theorem put_same {m : Mem} {id : Nat} {s : Store} (hs : fetch m id = some s) : put m id (some s) = m := by
  apply List.ext_getElem?
  intro u
  unfold put
  by_cases hu : u = id
  · rw [hu, List.getElem?_set_self (get_lt hs)]
    unfold fetch at hs
    cases hm : m[id]? with
    | none => rw [hm] at hs; cases hs
    | some o => rw [hm] at hs; simp only [Option.join_some] at hs; rw [hs]
  · rw [List.getElem?_set_ne (Ne.symm hu)]

theorem appendLoop_spec (n : Nat) : ∀ (m : Mem) (this key : K) (j : Nat) (s sk : Store), fetch m this.store = some s →
    fetch m key.store = some sk → key.store ≠ this.store → key.right ≤ sk.vec.length → key.right ≤ j + n →
    this.right + (names ((sk.vec.take key.right).drop j)).length ≤ s.vec.length →
    ∃ s', appendLoop false n m this key j = some (put m this.store (some s'),
        { this with right := this.right + (names ((sk.vec.take key.right).drop j)).length }) ∧ s'.refs = s.refs ∧
      s'.vec.length = s.vec.length ∧ (this.right ≤ s.used → s.used ≤ s.vec.length →
        this.right + (names ((sk.vec.take key.right).drop j)).length ≤ s'.used ∧ s'.used ≤ s'.vec.length) ∧
      s'.vec.take (this.right + (names ((sk.vec.take key.right).drop j)).length) =
        s.vec.take this.right ++ names ((sk.vec.take key.right).drop j) := by
  induction n with
  | zero =>
    intro m this key j s sk hs hsk hne hr hj hroom
    have e : (sk.vec.take key.right).drop j = [] := List.drop_eq_nil_of_le (by rw [List.length_take]; omega)
    rw [e] at hroom ⊢
    refine ⟨s, ?_, rfl, rfl, by simp [names]; omega, by simp [names]⟩
    simp only [appendLoop]
    rw [if_neg (by simp; omega)]
    rw [put_same hs]; rfl
  | succ n ih =>
    intro m this key j s sk hs hsk hne hr hj hroom
    unfold appendLoop
    simp only [Bool.false_eq_true, if_false]
    by_cases hjr : j < key.right
    · rw [if_pos hjr]
      obtain ⟨x, hx, hd⟩ := drop_step (s := sk) hr hjr
      simp only [segment, hsk, Option.bind_some, hx]
      rw [hd, names_cons] at hroom ⊢
      by_cases hxe : x = []
      · rw [if_pos hxe] at hroom ⊢
        rw [if_pos hxe]
        exact ih m this key (j + 1) s sk hs hsk hne hr (by omega) hroom
      · rw [if_neg hxe] at hroom ⊢
        rw [if_neg hxe, hs, Option.bind_some]
        rw [List.length_cons] at hroom
        obtain ⟨s1, h1, r1, v1, u1⟩ := replace_spec s this.right x (by omega)
        rw [h1, Option.bind_some]
        obtain ⟨s2, h2, r2, l2, u2, t2⟩ := ih (put m this.store (some s1)) { this with right := this.right + 1 } key (j + 1) s1 sk
          (get_put_self (get_lt hs) _) (by rw [get_put_ne m hne]; exact hsk) hne hr (by omega) (by
            rw [v1, List.length_set]; show this.right + 1 + _ ≤ _; omega)
        refine ⟨s2, ?_, by omega, by rw [l2, v1, List.length_set], ?_, ?_⟩
        · rw [h2, put_put]
          simp only [List.length_cons]
          congr 3
          omega
        · intro g1 g2
          have hl1 : s1.vec.length = s.vec.length := by rw [v1, List.length_set]
          have := u2 (by dsimp only; omega) (by omega)
          dsimp only at this
          rw [List.length_cons]
          omega
        · dsimp only at t2
          rw [List.length_cons]
          have e : this.right + ((names ((sk.vec.take key.right).drop (j + 1))).length + 1) =
            this.right + 1 + (names ((sk.vec.take key.right).drop (j + 1))).length := by omega
          rw [e, t2, v1, take_set_self _ _ _ (by omega), List.append_assoc]; rfl
    · rw [if_neg hjr]
      have e : (sk.vec.take key.right).drop j = [] := List.drop_eq_nil_of_le (by rw [List.length_take]; omega)
      rw [e] at hroom ⊢
      refine ⟨s, ?_, rfl, rfl, by simp [names]; omega, by simp [names]⟩
      rw [put_same hs]; rfl

theorem resize_spec (s : Store) (size : Nat) (hu : s.used ≤ s.vec.length) :
    ∃ s', s.resize size 0 = some s' ∧ s'.refs = s.refs ∧ s'.used = s.used ∧ s'.used ≤ s'.vec.length ∧ size ≤ s'.vec.length ∧
      s'.vec.take s.used = s.vec.take s.used := by
  unfold Store.resize
  by_cases h : size ≤ s.vec.length
  · rw [if_pos h, if_neg (by omega)]
    exact ⟨s, rfl, rfl, rfl, hu, h, rfl⟩
  · rw [if_neg h]
    have hm : min (min (size - 0) s.vec.length) s.used = s.used := by omega
    dsimp only
    rw [hm]
    refine ⟨_, rfl, rfl, rfl, ?_, ?_, ?_⟩
    · simp; omega
    · simp; omega
    · simp only [List.replicate_zero, List.nil_append]
      rw [List.take_left' (by rw [List.length_take]; omega)]

theorem resize_shift_spec (s : Store) (shift : Nat) (hu : s.used ≤ s.vec.length) :
    ∃ s', s.resize (shift + s.used) shift = some s' ∧ s'.refs = s.refs ∧ s'.used = s.used + shift ∧ s'.used ≤ s'.vec.length ∧
      (s'.vec.take s'.used).drop shift = s.vec.take s.used := by
  unfold Store.resize
  by_cases h : shift + s.used ≤ s.vec.length
  · rw [if_pos h]
    by_cases h0 : 0 < shift
    · rw [if_pos h0]
      by_cases hz : s.used = 0
      · rw [if_pos hz]
        refine ⟨_, rfl, rfl, by dsimp only; omega, by dsimp only; omega, ?_⟩
        rw [hz]
        simp only [List.take_zero]
        exact List.drop_eq_nil_of_le (by rw [List.length_take]; omega)
      · rw [if_neg hz, if_pos (by omega)]
        refine ⟨_, rfl, rfl, rfl, ?_, ?_⟩
        · simp; omega
        · dsimp only
          rw [List.take_left' (by simp; omega), List.drop_left' (by rw [List.length_take]; omega)]
    · rw [if_neg h0]
      have : shift = 0 := by omega
      subst this
      exact ⟨s, rfl, rfl, rfl, hu, by simp⟩
  · rw [if_neg h]
    have hm : min (min (shift + s.used - shift) s.vec.length) s.used = s.used := by omega
    dsimp only
    rw [hm]
    refine ⟨_, rfl, rfl, rfl, ?_, ?_⟩
    · simp; omega
    · dsimp only
      have : shift + s.used - shift - s.used = 0 := by omega
      rw [this, List.replicate_zero, List.append_nil, List.take_of_length_le (by simp; omega), List.drop_left' (by simp)]

theorem append_spec (m : Mem) (ks : List K) (this key : K) (x y : Key) (s : Store) (hi : Inv m (this :: ks)) (hk : key ∈ ks)
    (hx : value m this = some x) (hy : value m key = some y) (hs : fetch m this.store = some s)
    (hw : s.refs = 1 → this.left = 0) : Result m ks (append m this key false) (root (x ++ names y ++ slash y)) := by
  have hk' := List.mem_cons_of_mem this hk
  obtain ⟨ht, hly⟩ := trailing_spec m _ key y hi hk' hy
  have hsl := slash_eq m key y hly (by obtain ⟨_, _, h, _⟩ := hi.ok key hk'; exact h)
  unfold append
  rw [ht, Option.bind_some]
  obtain ⟨m1, t1, s1, h1, i1, v1, o1, f1, r1, e1, e2⟩ := unique_spec m ks this x s hi hs hx
  rw [h1, Option.bind_some]
  dsimp only
  have hleft : t1.left = 0 := by
    by_cases hr : s.refs = 1
    · rw [(e1 hr).2.1]; exact hw hr
    · exact (e2 hr).1
  obtain ⟨s1', f1', l1, l2, l3, hv1⟩ := value_ok i1 (List.mem_cons_self ..)
  rw [f1] at f1'
  cases f1'
  rw [v1, hleft, List.drop_zero] at hv1
  have hv1 := Option.some.inj hv1
  obtain ⟨s2, h2, r2, u2, w2, z2, t2⟩ := resize_spec s1 (t1.right - t1.left + (key.right - key.left) + 1) l3
  simp only [Bool.false_eq_true, if_false]
  rw [f1, Option.bind_some, h2, Option.bind_some]
  obtain ⟨i2, o2, -⟩ := store_spec m1 ks t1 s1 i1 f1 r1 s2 t1 (by omega) w2 rfl l1 (by omega)
  have hkv : value (put m1 t1.store (some s2)) key = some y := by rw [(o2 key hk).1, o1 key hk, hy]
  obtain ⟨sk, hsk, k1, k2, k3, hkv'⟩ := value_ok i2 (List.mem_cons_of_mem t1 hk)
  rw [hkv] at hkv'
  have hyv := Option.some.inj hkv'
  rw [hsk, Option.bind_some]
  have hny : (names y).length ≤ y.length := List.length_filter_le ..
  have hf2 : fetch (put m1 t1.store (some s2)) t1.store = some s2 := get_put_self (get_lt f1) _
  obtain ⟨s3, h3, r3, l4, u3, t3⟩ := appendLoop_spec sk.vec.length (put m1 t1.store (some s2)) t1 key key.left s2 sk hf2 hsk
    (o2 key hk).2 (by omega) (by omega) (by rw [← hyv]; omega)
  rw [← hyv] at h3 t3 u3
  rw [put_put] at h3
  have u3 := u3 (by omega) w2
  have htake : s2.vec.take t1.right = x := by
    have := congrArg (List.take t1.right) t2
    rw [List.take_take, List.take_take, Nat.min_eq_left l2] at this
    rw [this, ← hv1]
  rw [htake] at t3
  rw [h3, Option.bind_some]
  have hf3 : fetch (put m1 t1.store (some s3)) t1.store = some s3 := get_put_self (get_lt f1) _
  have hfin : ∃ s4 r, (if (key.right == key.left || y.getLast? == some []) = true then
      (fetch (put m1 t1.store (some s3)) t1.store).bind fun s => (s.replace (t1.right + (names y).length) []).map fun s =>
        (put (put m1 t1.store (some s3)) t1.store (some s), ({ t1 with right := t1.right + (names y).length + 1 } : K))
     else some (put m1 t1.store (some s3), { t1 with right := t1.right + (names y).length })) =
      some (put m1 t1.store (some s4), { t1 with right := r }) ∧ s4.refs = 1 ∧ s4.used ≤ s4.vec.length ∧ r ≤ s4.used ∧
      s4.vec.take r = x ++ names y ++ slash y := by
    rw [hsl]
    by_cases hc : (key.right == key.left || y.getLast? == some []) = true
    · rw [if_pos hc, if_pos hc, hf3, Option.bind_some]
      obtain ⟨s4, h4, r4, v4, u4⟩ := replace_spec s3 (t1.right + (names y).length) [] (by omega)
      refine ⟨s4, t1.right + (names y).length + 1, ?_, by omega, by rw [v4, List.length_set]; omega, by omega, ?_⟩
      · rw [h4, Option.map_some, put_put]
      · rw [v4, take_set_self _ _ _ (by omega), t3]
    · rw [if_neg hc, if_neg hc]
      exact ⟨s3, _, rfl, by omega, u3.2, u3.1, by rw [t3, List.append_nil]⟩
  obtain ⟨s4, r, h4, r4, w4, z4, t4⟩ := hfin
  rw [h4, Option.bind_some]
  obtain ⟨i5, o5, v5⟩ := store_spec m1 ks t1 s1 i1 f1 r1 s4 { t1 with right := r } r4 w4 rfl (by
    dsimp only; omega) z4
  have e5 : ((s4.vec.take r).drop t1.left) = x ++ names y ++ slash y := by rw [hleft, List.drop_zero, t4]
  dsimp only at v5
  rw [e5] at v5
  obtain ⟨m6, k6, h6, i6, v6, o6⟩ := collapse_spec _ ks _ _ i5 v5
  exact ⟨m6, k6, h6, i6, v6, fun o ho => ((o6 o ho).trans (o5 o ho).1).trans (o1 o ho)⟩

/-- Empty segments only at the end of a key. -/
def Tidy (y : Key) : Prop := y = names y ∨ y = names y ++ [[]]

theorem tidy_cons {x : Seg} {l : Key} (h : Tidy (x :: l)) : if x = [] then l = [] else Tidy l := by
  unfold Tidy at h
  rw [names_cons] at h
  by_cases hx : x = []
  · rw [if_pos hx] at h ⊢
    have hn : ∀ r : Key, x :: l = names l ++ r → names l = [] := by
      intro r he
      cases hh : names l with
      | nil => rfl
      | cons a b =>
        rw [hh] at he
        have ha : a ∈ names l := by rw [hh]; simp
        have : a ≠ [] := by simpa using (List.mem_filter.mp ha).2
        have e := (List.cons.inj he).1
        exact absurd (e ▸ hx) this
    rcases h with h | h
    · rw [hn [] (by simpa using h)] at h; cases h
    · rw [hn _ h] at h
      exact (List.cons.inj h).2
  · rw [if_neg hx] at h ⊢
    rcases h with h | h
    · exact Or.inl (List.cons.inj h).2
    · exact Or.inr (List.cons.inj h).2

theorem set_prefix (l r : Key) (p : Nat) (x : Seg) (hp : p + 1 + r.length ≤ l.length) :
    ((l.set p x).take (p + 1)) ++ r ++ (l.set p x).drop (p + 1 + r.length) = l.take p ++ (x :: r) ++ l.drop (p + (r.length + 1)) := by
  rw [take_set_self _ _ _ (by omega), List.drop_set_of_lt (by omega)]
  have : p + 1 + r.length = p + (r.length + 1) := by omega
  rw [this]
  simp

theorem prependLoop_end (n : Nat) (m : Mem) (this key : K) (j : Nat) (h : key.right ≤ j) :
    prependLoop false n m this key j = some (m, this) := by
  cases n <;> simp only [prependLoop, Bool.false_eq_true, if_false] <;> rw [if_neg (by omega)]

theorem prependLoop_spec (n : Nat) : ∀ (m : Mem) (this key : K) (j : Nat) (s sk : Store), fetch m this.store = some s →
    fetch m key.store = some sk → key.store ≠ this.store → key.right ≤ sk.vec.length → key.right ≤ j + n → key.left ≤ j →
    Tidy ((sk.vec.take key.right).drop j) →
    this.left + (j - key.left) + (names ((sk.vec.take key.right).drop j)).length ≤ s.used → s.used ≤ s.vec.length →
    ∃ s', prependLoop false n m this key j = some (put m this.store (some s'),
        { this with right := this.right + (names ((sk.vec.take key.right).drop j)).length }) ∧ s'.refs = s.refs ∧
      s'.used = s.used ∧
      s'.vec = s.vec.take (this.left + (j - key.left)) ++ names ((sk.vec.take key.right).drop j) ++
        s.vec.drop (this.left + (j - key.left) + (names ((sk.vec.take key.right).drop j)).length) := by
  induction n with
  | zero =>
    intro m this key j s sk hs hsk hne hr hj hkl htidy hroom hu
    have e : (sk.vec.take key.right).drop j = [] := List.drop_eq_nil_of_le (by rw [List.length_take]; omega)
    rw [e] at hroom ⊢
    refine ⟨s, ?_, rfl, rfl, by simp [names]⟩
    simp only [prependLoop]
    rw [if_neg (by simp; omega)]
    rw [put_same hs]; rfl
  | succ n ih =>
    intro m this key j s sk hs hsk hne hr hj hkl htidy hroom hu
    unfold prependLoop
    simp only [Bool.false_eq_true, if_false]
    by_cases hjr : j < key.right
    · rw [if_pos hjr]
      obtain ⟨x, hx, hd⟩ := drop_step (s := sk) hr hjr
      simp only [segment, hsk, Option.bind_some, hx]
      rw [hd] at htidy
      have ht := tidy_cons htidy
      rw [hd, names_cons] at hroom ⊢
      by_cases hxe : x = []
      · rw [if_pos hxe] at hroom ht ⊢
        rw [if_pos hxe]
        rw [ht] at hroom ⊢
        have hend : key.right ≤ j + 1 := by
          have := congrArg List.length ht
          rw [List.length_drop, List.length_take, List.length_nil] at this
          omega
        refine ⟨s, ?_, rfl, rfl, by simp [names]⟩
        rw [prependLoop_end n m this key (j + 1) hend, put_same hs]; rfl
      · rw [if_neg hxe] at hroom ht ⊢
        rw [if_neg hxe, hs, Option.bind_some]
        rw [List.length_cons] at hroom
        obtain ⟨s1, h1, r1, v1, u1⟩ := replace_spec s (this.left + j - key.left) x (by omega)
        rw [h1, Option.bind_some]
        obtain ⟨s2, h2, r2, u2, t2⟩ := ih (put m this.store (some s1)) { this with right := this.right + 1 } key (j + 1) s1 sk
          (get_put_self (get_lt hs) _) (by rw [get_put_ne m hne]; exact hsk) hne hr (by omega) (by omega) ht (by
            show this.left + (j + 1 - key.left) + _ ≤ _; omega) (by rw [v1, List.length_set]; omega)
        refine ⟨s2, ?_, by omega, by omega, ?_⟩
        · rw [h2, put_put]
          simp only [List.length_cons]
          congr 3
          omega
        · rw [t2, v1]
          dsimp only
          have e1 : this.left + (j + 1 - key.left) = this.left + (j - key.left) + 1 := by omega
          have e2 : this.left + j - key.left = this.left + (j - key.left) := by omega
          rw [e1, e2, set_prefix _ _ _ _ (by omega), List.length_cons]
    · rw [if_neg hjr]
      have e : (sk.vec.take key.right).drop j = [] := List.drop_eq_nil_of_le (by rw [List.length_take]; omega)
      rw [e] at hroom ⊢
      refine ⟨s, ?_, rfl, rfl, by simp [names]⟩
      rw [put_same hs]; rfl

theorem prepend_spec (m : Mem) (ks : List K) (this key : K) (x y : Key) (s : Store) (hi : Inv m (this :: ks)) (hk : key ∈ ks)
    (hx : value m this = some x) (hy : value m key = some y) (hs : fetch m this.store = some s)
    (hw : s.refs = 1 → this.left = 0 ∧ this.right = s.used) (ht : Tidy y) :
    Result m ks (prepend m this key false) (root (names y ++ x)) := by
  have hk' := List.mem_cons_of_mem this hk
  unfold prepend
  obtain ⟨m1, t1, s1, h1, i1, v1, o1, f1, r1, e1, e2⟩ := unique_spec m ks this x s hi hs hx
  rw [h1, Option.bind_some]
  dsimp only
  have hwhole : t1.left = 0 ∧ t1.right = s1.used := by
    by_cases hr : s.refs = 1
    · rw [(e1 hr).2.1, (e1 hr).2.2]; exact hw hr
    · exact e2 hr
  obtain ⟨s1', f1', l1, l2, l3, hv1⟩ := value_ok i1 (List.mem_cons_self ..)
  rw [f1] at f1'
  cases f1'
  rw [v1, hwhole.1, List.drop_zero] at hv1
  have hv1 := Option.some.inj hv1
  simp only [Bool.false_eq_true, if_false]
  rw [o1 key hk, hy, Option.bind_some, f1, Option.bind_some]
  have en : y.filter (· ≠ []) = names y := rfl
  have esz : (names y).length + (t1.right - t1.left) = (names y).length + s1.used := by rw [hwhole.1, hwhole.2]; omega
  rw [en, esz]
  obtain ⟨s2, h2, r2, u2, w2, t2⟩ := resize_shift_spec s1 (names y).length l3
  rw [h2, Option.bind_some]
  obtain ⟨i2, o2, -⟩ := store_spec m1 ks t1 s1 i1 f1 r1 s2 t1 (by omega) w2 rfl l1 (by omega)
  have hkv : value (put m1 t1.store (some s2)) key = some y := by rw [(o2 key hk).1, o1 key hk, hy]
  obtain ⟨sk, hsk, k1, k2, k3, hkv'⟩ := value_ok i2 (List.mem_cons_of_mem t1 hk)
  rw [hkv] at hkv'
  have hyv := Option.some.inj hkv'
  rw [hsk, Option.bind_some]
  have hf2 : fetch (put m1 t1.store (some s2)) t1.store = some s2 := get_put_self (get_lt f1) _
  obtain ⟨s3, h3, r3, u3, t3⟩ := prependLoop_spec sk.vec.length (put m1 t1.store (some s2)) t1 key key.left s2 sk hf2 hsk
    (o2 key hk).2 (by omega) (by omega) (Nat.le_refl _) (by rw [← hyv]; exact ht) (by rw [← hyv, hwhole.1]; omega) w2
  rw [← hyv] at h3 t3
  rw [put_put] at h3
  rw [hwhole.1, Nat.sub_self, Nat.add_zero, List.take_zero, List.nil_append, Nat.zero_add] at t3
  rw [h3, Option.bind_some]
  have hl3 : s3.vec.length = s2.vec.length := by rw [t3, List.length_append, List.length_drop]; omega
  obtain ⟨i5, o5, v5⟩ := store_spec m1 ks t1 s1 i1 f1 r1 s3 { t1 with right := t1.right + (names y).length } (by omega) (by omega) rfl (by
    dsimp only; omega) (by dsimp only; omega)
  have e5 : ((s3.vec.take (t1.right + (names y).length)).drop t1.left) = names y ++ x := by
    rw [hwhole.1, List.drop_zero, t3, List.take_append, List.take_of_length_le (by omega)]
    congr 1
    have : t1.right + (names y).length - (names y).length = t1.right := by omega
    rw [this, ← hv1.symm, hwhole.2, ← t2, u2, List.drop_take]
    congr 1; omega
  dsimp only at v5
  rw [e5] at v5
  obtain ⟨m6, k6, h6, i6, v6, o6⟩ := collapse_spec _ ks _ _ i5 v5
  exact ⟨m6, k6, h6, i6, v6, fun o ho => ((o6 o ho).trans (o5 o ho).1).trans (o1 o ho)⟩

theorem give_spec (m : Mem) (ks : List K) (k : K) (x : Key) (hi : Inv m (k :: ks)) (hx : value m k = some x) :
    Result m ks (give m k) (root x) := by
  unfold give
  obtain ⟨m1, k1, h1, i1, v1, o1⟩ := collapse_spec m ks k x hi hx
  rw [h1, Option.bind_some]
  obtain ⟨m2, k2, h2, i2, v2, o2⟩ := copy_spec m1 _ k1 _ i1 (List.mem_cons_self ..) v1
  rw [h2, Option.bind_some]
  obtain ⟨m3, h3, i3, o3, -⟩ := release_spec m2 (k2 :: ks) k1 (i2.perm (List.Perm.swap ..))
  refine ⟨m3, k2, by dsimp only; rw [h3]; rfl, i3, by rw [o3 k2 (by simp), v2], fun o ho => ?_⟩
  rw [o3 o (by simp [ho]), o2 o (by simp [ho]), o1 o ho]

/-- A part of a key is a key. -/
theorem sub_ok (m : Mem) (ks : List K) (k : K) (x : Key) (hi : Inv m ks) (hk : k ∈ ks) (hx : value m k = some x) (a b : Nat)
    (hab : a ≤ b) (hb : b ≤ k.right - k.left) :
    Ok m ⟨k.store, k.left + a, k.left + b⟩ ∧ value m ⟨k.store, k.left + a, k.left + b⟩ = some ((x.take b).drop a) := by
  obtain ⟨s, hs, h1, h2, h3, hv⟩ := value_ok hi hk
  rw [hx] at hv
  have hv := Option.some.inj hv
  refine ⟨⟨s, hs, by dsimp only; omega, by dsimp only; omega⟩, ?_⟩
  simp only [value, hs, Option.bind_some]
  rw [if_pos (by omega), hv]
  congr 1
  apply List.ext_getElem?
  intro i
  simp only [List.getElem?_drop, List.getElem?_take]
  by_cases h : a + i < b
  · rw [if_pos (by omega), if_pos h, if_pos (by omega)]
    congr 1; omega
  · rw [if_neg (by omega), if_neg h]

theorem give_empty (m : Mem) (id a b : Nat) : give m ⟨id, a, a⟩ = give m ⟨id, b, b⟩ := by
  have h : collapse m ⟨id, a, a⟩ = collapse m ⟨id, b, b⟩ := by
    unfold collapse isroot
    simp
  unfold give
  rw [h]

theorem give_part (m : Mem) (ks : List K) (k : K) (x : Key) (hi : Inv m ks) (hk : k ∈ ks) (hx : value m k = some x) (a b : Nat)
    (hab : a ≤ b) (hb : b ≤ k.right - k.left) :
    Result m ks ((link m k.store).bind fun m => give m ⟨k.store, k.left + a, k.left + b⟩) (root ((x.take b).drop a)) := by
  obtain ⟨hok, hv⟩ := sub_ok m ks k x hi hk hx a b hab hb
  obtain ⟨m1, h1, i1, o1, -⟩ := link_spec m ks ⟨k.store, k.left + a, k.left + b⟩ hi hok
  dsimp only at h1
  rw [h1, Option.bind_some]
  obtain ⟨m2, k2, h2, i2, v2, o2⟩ := give_spec m1 ks _ _ i1 (by rw [(o1 _ hok).2]; exact hv)
  exact ⟨m2, k2, h2, i2, v2, fun o ho => (o2 o ho).trans (o1 o (hi.ok o ho)).2⟩

theorem range_spec (m : Mem) (ks : List K) (k : K) (x : Key) (hi : Inv m ks) (hk : k ∈ ks) (hx : value m k = some x) (i j : Int) :
    Result m ks (range m k i j) (part x i j) := by
  obtain ⟨-, hl⟩ := trailing_spec m ks k x hi hk hx
  unfold range part
  dsimp only
  by_cases hbig : (if i < 0 then 0 else i) > ((k.right - k.left : Nat) : Int)
  · -- past the end
    have hi0 : ¬ i < 0 := by intro h; rw [if_pos h] at hbig; omega
    rw [if_neg hi0] at hbig
    simp only [if_neg hi0]
    have hj : (if (if j > ((k.right - k.left : Nat) : Int) then ((k.right - k.left : Nat) : Int) else j) < i then i
        else if j > ((k.right - k.left : Nat) : Int) then ((k.right - k.left : Nat) : Int) else j) = i := by
      (repeat' split) <;> omega
    rw [hj]
    have he : ∀ m', give m' ⟨k.store, k.left + i.toNat, k.left + i.toNat⟩ = give m' ⟨k.store, k.left + 0, k.left + 0⟩ :=
      fun m' => give_empty m' _ _ _
    simp only [he]
    have := give_part m ks k x hi hk hx 0 0 (Nat.le_refl _) (Nat.zero_le _)
    have e : (x.take (max i j).toNat).drop i.toNat = (x.take 0).drop 0 := by
      rw [List.drop_eq_nil_of_le (by rw [List.length_take]; omega)]; simp
    rw [e]
    exact this
  · have key : ∀ a b : Nat, (if i < 0 then (0 : Int) else i).toNat = a →
        (if (if j > ((k.right - k.left : Nat) : Int) then ((k.right - k.left : Nat) : Int) else j) < (if i < 0 then 0 else i)
          then (if i < 0 then 0 else i)
          else if j > ((k.right - k.left : Nat) : Int) then ((k.right - k.left : Nat) : Int) else j).toNat = b →
        a ≤ b ∧ b ≤ k.right - k.left ∧ (x.take (max i j).toNat).drop i.toNat = (x.take b).drop a := by
      intro a b ha hb
      have h1 : i.toNat = a := by rw [← ha]; split <;> omega
      have h2 : b = min (max a j.toNat) (k.right - k.left) := by
        rw [← hb, ← h1]
        by_cases c1 : i < 0
        · simp only [if_pos c1] at hbig ⊢
          (repeat' split) <;> omega
        · simp only [if_neg c1] at hbig ⊢
          (repeat' split) <;> omega
      have h3 : a ≤ k.right - k.left := by
        by_cases c1 : i < 0
        · omega
        · rw [if_neg c1] at hbig; omega
      refine ⟨by omega, by omega, ?_⟩
      rw [h1, h2, ← hl]
      have : (max i j).toNat = max a j.toNat := by omega
      rw [this]
      congr 1
      rw [List.take_eq_take_iff]
      omega
    obtain ⟨g1, g2, g3⟩ := key _ _ rfl rfl
    rw [g3]
    exact give_part m ks k x hi hk hx _ _ g1 g2

theorem pop_spec (m : Mem) (ks : List K) (k : K) (x : Key) (n : Int) (hi : Inv m (k :: ks)) (hx : value m k = some x) (hr : x ≠ [[]]) :
    ∃ m' t r, pop m k n = some (m', t, r) ∧ Inv m' (r :: t :: ks) ∧ value m' t = some (root (x.drop n.toNat)) ∧
      value m' r = some (root (x.take n.toNat)) ∧ ∀ o ∈ ks, value m' o = value m o := by
  unfold pop
  by_cases h0 : n = 0
  · rw [if_pos h0]
    obtain ⟨m1, k1, h1, i1, v1, o1⟩ := empty_spec m _ hi
    refine ⟨m1, k, k1, by rw [h1]; rfl, i1, ?_, ?_, fun o ho => o1 o (by simp [ho])⟩
    · rw [o1 k (by simp), hx, h0]
      simp [root, hr]
    · rw [v1, h0]
      simp [root]
  · rw [if_neg h0]
    obtain ⟨s, hs, -⟩ := hi.ok k (List.mem_cons_self ..)
    obtain ⟨m1, t1, s1, h1, i1, v1, o1, f1, r1, -, -⟩ := unique_spec m ks k x s hi hs hx
    rw [h1, Option.bind_some]
    dsimp only
    obtain ⟨-, hl⟩ := trailing_spec m1 _ t1 x i1 (List.mem_cons_self ..) v1
    generalize hN : (if (if n > ((t1.right - t1.left : Nat) : Int) then ((t1.right - t1.left : Nat) : Int) else n) < 0 then (0 : Int)
      else if n > ((t1.right - t1.left : Nat) : Int) then ((t1.right - t1.left : Nat) : Int) else n).toNat = N
    have hNe : N = min n.toNat x.length := by
      rw [← hN]
      (repeat' split) <;> omega
    obtain ⟨sw, hsw, hlr, hru⟩ := i1.ok t1 (List.mem_cons_self ..)
    -- the result is linked first
    obtain ⟨okA, vA⟩ := sub_ok m1 _ t1 x i1 (List.mem_cons_self ..) v1 0 N (Nat.zero_le _) (by omega)
    obtain ⟨okB, vB⟩ := sub_ok m1 _ t1 x i1 (List.mem_cons_self ..) v1 N (t1.right - t1.left) (by omega) (Nat.le_refl _)
    have eB : t1.left + (t1.right - t1.left) = t1.right := by omega
    rw [eB] at okB vB
    rw [Nat.add_zero] at okA vA
    obtain ⟨m2, h2, i2, o2, -⟩ := link_spec m1 _ ⟨t1.store, t1.left, t1.left + N⟩ i1 okA
    dsimp only at h2
    rw [h2, Option.bind_some]
    -- this key moves on
    have i2' : Inv m2 (⟨t1.store, t1.left + N, t1.right⟩ :: ⟨t1.store, t1.left, t1.left + N⟩ :: ks) := by
      refine ⟨?_, ?_, i2.shape, i2.zero⟩
      · intro o ho
        rcases List.mem_cons.mp ho with rfl | ho
        · exact (o2 _ okB).1
        · rcases List.mem_cons.mp ho with rfl | ho
          · exact (o2 _ okA).1
          · exact i2.ok o (by simp [ho])
      · intro id t ht
        have := i2.counts id t ht
        rw [uses_cons, uses_cons] at this
        rw [uses_cons, uses_cons]
        dsimp only at this ⊢
        exact this
    obtain ⟨m3, k3, h3, i3, v3, o3⟩ := collapse_spec m2 _ _ _ i2' (by rw [(o2 _ okB).2]; exact vB)
    rw [h3, Option.bind_some]
    obtain ⟨m4, k4, h4, i4, v4, o4⟩ := give_spec m3 (k3 :: ks) ⟨t1.store, t1.left, t1.left + N⟩ _ (i3.perm (List.Perm.swap ..))
      (by rw [o3 _ (by simp), (o2 _ okA).2]; exact vA)
    dsimp only
    refine ⟨m4, k3, k4, by rw [h4]; rfl, i4, ?_, ?_, ?_⟩
    · rw [o4 k3 (by simp), v3]
      congr 2
      rw [List.take_of_length_le (by omega), hNe]
      by_cases hc : n.toNat ≤ x.length
      · rw [Nat.min_eq_left hc]
      · rw [Nat.min_eq_right (by omega), List.drop_eq_nil_of_le (by omega), List.drop_eq_nil_of_le (by omega)]
    · rw [v4, List.drop_zero, hNe]
      congr 2
      rw [List.take_eq_take_iff]; omega
    · intro o ho
      rw [o4 o (by simp [ho]), o3 o (by simp [ho]), (o2 o (i1.ok o (by simp [ho]))).2, o1 o ho]

theorem assign_spec (m : Mem) (ks : List K) (this other : K) (x : Key) (hi : Inv m (this :: ks)) (ho : other ∈ ks)
    (hx : value m other = some x) : Result m ks (assign m this other) x := by
  unfold assign
  obtain ⟨m1, h1, i1, o1, -⟩ := release_spec m ks this hi
  rw [h1, Option.bind_some]
  obtain ⟨m2, k2, h2, i2, v2, o2⟩ := copy_spec m1 ks other x i1 ho (by rw [o1 other ho, hx])
  refine ⟨m2, k2, h2, i2, v2, fun o hoo => (o2 o hoo).trans (o1 o hoo)⟩

/-- Assigned to itself, a key that shares its store is as before. -/
theorem assign_self_spec (m : Mem) (ks : List K) (k : K) (x : Key) (s : Store) (hi : Inv m (k :: ks)) (hs : fetch m k.store = some s)
    (h2 : 2 ≤ s.refs) (hx : value m k = some x) : Result m ks (assign m k k) x := by
  have h1 : release m k.store = some (put m k.store (some { s with refs := s.refs - 1 })) := by
    unfold release
    rw [hs, Option.bind_some, if_neg (by omega), if_neg (by omega)]
  have e : link (put m k.store (some { s with refs := s.refs - 1 })) k.store = some m := by
    unfold link
    rw [get_put_self (get_lt hs), Option.map_some, put_put]
    have : s.refs - 1 + 1 = s.refs := by omega
    simp only [this]
    exact congrArg some (put_same hs)
  refine ⟨m, k, ?_, hi, hx, fun _ _ => rfl⟩
  unfold assign
  rw [h1, Option.bind_some, e]
  rfl

theorem ofText_ne (t : List Byte) : ofText t ≠ [[]] := by
  intro h
  unfold ofText at h
  have hok := Key.names_ok t
  cases hn : Spec.Path.names t with
  | nil =>
    have : Spec.Path.dir t = false := by unfold Spec.Path.dir; rw [hn]; rfl
    rw [hn, this] at h
    simp at h
  | cons a l =>
    rw [hn] at h
    simp only [List.cons_append, List.cons.injEq] at h
    have := hok a (by rw [hn]; exact List.mem_cons_self ..)
    exact this.1 h.1

theorem root_ne (k : Key) : root k ≠ [[]] := by
  unfold root
  by_cases h : k = [[]]
  · rw [if_pos h]; simp
  · rw [if_neg h]; exact h

end Lemmas.KeyStore
