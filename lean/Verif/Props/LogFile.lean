import Verif.Model.LogFile
/- C99: log files. -/
namespace Props
open Wv Wv.LogFile
open Spec.LogFile

namespace Lgf

/-- The beginning of a day. -/
def dayStart (c : Cfg) (d : Int) : Int := d * 86400 - c.off

theorem day_start (c : Cfg) (t : Int) : dayStart c (day c t) ≤ t ∧ t < dayStart c (day c t + 1) := by
  unfold dayStart day; omega

structure Inv (c : Cfg) (s : St) (now : Int) : Prop where
  uniq : ∀ n i, (n, i) ∈ s.dir → find s.dir n = some i
  small : ∀ n i, (n, i) ∈ s.dir → i < s.count
  csmall : ∀ i, s.cur = some i → i < s.count
  age : ∀ d k i, (.log d k, i) ∈ s.dir → dayStart c d ≤ (s.files i).mtime ∧ dayStart c d ≤ now
  cday : s.cur ≠ none → dayStart c s.lastDay ≤ now
  cdir : ∀ i, s.cur = some i → (∃ k, (.log s.lastDay k, i) ∈ s.dir) ∨ dayStart c (s.lastDay + 1) ≤ now

theorem Inv.later {c : Cfg} {s : St} {now t : Int} (h : Inv c s now) (ht : now ≤ t) : Inv c s t where
  uniq := h.uniq
  small := h.small
  csmall := h.csmall
  age d k i hm := ⟨(h.age d k i hm).1, Int.le_trans (h.age d k i hm).2 ht⟩
  cday hc := Int.le_trans (h.cday hc) ht
  cdir i hc := by
    rcases h.cdir i hc with h | h
    · exact Or.inl h
    · exact Or.inr (Int.le_trans h ht)

theorem find_mem {dir : List (Name × Nat)} {n : Name} {i : Nat} (h : find dir n = some i) : (n, i) ∈ dir := by
  unfold find at h
  rw [Option.map_eq_some_iff] at h
  obtain ⟨e, h1, h2⟩ := h
  have h3 := List.find?_some h1
  have h4 := List.mem_of_find?_eq_some h1
  obtain ⟨a, b⟩ := e
  have h3' : a = n := by simpa using h3
  have h2' : b = i := h2
  rw [← h3', ← h2']
  exact h4

theorem find_none {dir : List (Name × Nat)} {n : Name} (h : find dir n = none) (i : Nat) : (n, i) ∉ dir := by
  unfold find at h
  rw [Option.map_eq_none_iff, List.find?_eq_none] at h
  intro hm
  exact h _ hm (by simp)

theorem find_cons (m n : Name) (i : Nat) (dir : List (Name × Nat)) : find ((m, i) :: dir) n = if m = n then some i else find dir n := by
  unfold find
  rw [List.find?_cons]
  by_cases h : m = n <;> simp [h]

theorem find_filter (dir : List (Name × Nat)) (m n : Name) (h : n ≠ m) : find (dir.filter fun e => e.1 ≠ m) n = find dir n := by
  induction dir with
  | nil => rfl
  | cons e dir ih =>
    obtain ⟨a, b⟩ := e
    rw [find_cons, List.filter_cons]
    by_cases ha : a = m
    · have hne : ¬ a = n := fun e => h (e.symm.trans ha)
      simp only [ne_eq, ha, not_true_eq_false, decide_false, Bool.false_eq_true, if_false]
      rw [if_neg (by rw [← ha]; exact hne)]
      exact ih
    · simp only [ne_eq, ha, not_false_eq_true, decide_true, if_true]
      rw [find_cons]
      split
      · rfl
      · exact ih

/-- The name `start_log` chooses. -/
def startName (c : Cfg) (s : St) (t : Int) : Name := .log (day c t) (next c s (day c t) (bound s.dir) 0)

theorem start_some {c : Cfg} {s : St} {t : Int} {i : Nat} (h : find s.dir (startName c s t) = some i) :
    start c s t = { s with lastDay := day c t, link := (if s.link = Link.something then s.link else .to (startName c s t)), cur := some i } := by
  unfold start
  dsimp only
  rw [show Name.log (day c t) (next c s (day c t) (bound s.dir) 0) = startName c s t from rfl, h]

theorem start_none {c : Cfg} {s : St} {t : Int} (h : find s.dir (startName c s t) = none) :
    start c s t = { dir := (startName c s t, s.count) :: s.dir, files := fun j => if j = s.count then ⟨[], t⟩ else s.files j, count := s.count + 1, cur := some s.count, lastDay := day c t, link := (if s.link = Link.something then s.link else .to (startName c s t)) } := by
  unfold start
  dsimp only
  rw [show Name.log (day c t) (next c s (day c t) (bound s.dir) 0) = startName c s t from rfl, h]

theorem start_dir (c : Cfg) (s : St) (t : Int) : ∃ i, (start c s t).cur = some i ∧ (startName c s t, i) ∈ (start c s t).dir ∧ (start c s t).lastDay = day c t := by
  cases h : find s.dir (startName c s t) with
  | some i => rw [start_some h]; exact ⟨i, rfl, find_mem h, rfl⟩
  | none => rw [start_none h]; exact ⟨s.count, rfl, List.mem_cons_self, rfl⟩

theorem start_inv {c : Cfg} {s : St} {now t : Int} (h : Inv c s now) (ht : now ≤ t) : Inv c (start c s t) t := by
  have h' := h.later ht
  cases hf : find s.dir (startName c s t) with
  | some i =>
    rw [start_some hf]
    have hm := find_mem hf
    exact ⟨h.uniq, h.small, fun j e => by
        have : i = j := Option.some.inj e
        rw [← this]; exact h.small _ _ hm,
      h'.age, fun _ => (day_start c t).1, fun j e => by
        have : i = j := Option.some.inj e
        rw [← this]
        exact Or.inl ⟨_, hm⟩⟩
  | none =>
    rw [start_none hf]
    refine ⟨?_, ?_, ?_, ?_, fun _ => (day_start c t).1, ?_⟩
    · intro n i hm
      dsimp only at hm ⊢
      rw [find_cons]
      rcases List.mem_cons.mp hm with e | hm
      · rw [Prod.mk.injEq] at e
        rw [if_pos e.1.symm, e.2]
      · split
        · rename_i e
          rw [← e] at hm
          exact absurd hm (find_none hf i)
        · exact h.uniq n i hm
    · intro n i hm
      dsimp only at hm ⊢
      rcases List.mem_cons.mp hm with e | hm
      · rw [Prod.mk.injEq] at e; omega
      · have := h.small n i hm; omega
    · intro i e
      have : s.count = i := Option.some.inj e
      dsimp only; omega
    · intro d k i hm
      dsimp only at hm ⊢
      rcases List.mem_cons.mp hm with e | hm
      · rw [Prod.mk.injEq] at e
        have hd : d = day c t := by
          have := e.1
          unfold startName at this
          exact (Name.log.inj this).1
        rw [e.2, if_pos rfl, hd]
        exact ⟨(day_start c t).1, (day_start c t).1⟩
      · have hs := h.small _ _ hm
        rw [if_neg (by omega)]
        exact h'.age d k i hm
    · intro i e
      have : s.count = i := Option.some.inj e
      rw [← this]
      exact Or.inl ⟨_, List.mem_cons_self⟩

theorem makePrefix_inv {c : Cfg} {s : St} {now t1 t2 : Int} (h : Inv c s now) (h1 : now ≤ t1) (h2 : t1 ≤ t2) : Inv c (makePrefix c s t1 t2) t2 := by
  have h12 := Int.le_trans h1 h2
  unfold makePrefix
  dsimp only
  by_cases hc : s.cur = none
  · rw [if_pos hc]
    have := start_inv h h12
    split
    · exact start_inv this (Int.le_refl _)
    · exact this
  · rw [if_neg hc]
    split
    · exact start_inv h h12
    · exact h.later h12

/-- The open file is in the directory when a line is begun, under the name of today. -/
theorem makePrefix_dir {c : Cfg} {s : St} {now t1 t2 : Int} (h : Inv c s now) (h1 : now ≤ t1) :
    ∃ d k i, (makePrefix c s t1 t2).cur = some i ∧ (.log d k, i) ∈ (makePrefix c s t1 t2).dir ∧ (d = day c t1 ∨ d = day c t2) := by
  unfold makePrefix
  dsimp only
  have key : ∀ u : St, ∃ d k i, (start c u t2).cur = some i ∧ (Name.log d k, i) ∈ (start c u t2).dir ∧ (d = day c t1 ∨ d = day c t2) := by
    intro u
    obtain ⟨i, e1, e2, _⟩ := start_dir c u t2
    exact ⟨_, _, i, e1, e2, Or.inr rfl⟩
  by_cases hc : s.cur = none
  · rw [if_pos hc]
    split
    · exact key _
    · exact key _
  · rw [if_neg hc]
    split
    · exact key _
    · rename_i hx
      rw [not_or, Decidable.not_not] at hx
      obtain ⟨i, hi⟩ := Option.ne_none_iff_exists'.mp hc
      rcases h.cdir i hi with ⟨k, hk⟩ | hk
      · exact ⟨s.lastDay, k, i, hi, hk, Or.inl hx.1⟩
      · have := (day_start c t1).2
        rw [← hx.1] at this
        omega

theorem write_inv {c : Cfg} {s : St} {now : Int} (h : Inv c s now) (x : List Byte) : Inv c (write s now x) now := by
  unfold write
  split
  · rename_i i hi
    refine ⟨h.uniq, h.small, h.csmall, fun d k j hm => ?_, h.cday, h.cdir⟩
    dsimp only at hm ⊢
    split
    · exact ⟨(h.age d k j hm).2, (h.age d k j hm).2⟩
    · exact h.age d k j hm
  · exact h

theorem trim_cases (c : Cfg) (s : St) (t : Int) (n : Name) : trim c s t n = s ∨
    (∃ i, c.keep ≠ 0 ∧ find s.dir n = some i ∧ (s.files i).mtime < t - c.keep * 86400 ∧ trim c s t n = { s with dir := s.dir.filter fun e => e.1 ≠ n }) := by
  unfold trim
  split
  · exact Or.inl rfl
  · rename_i hk
    split
    · exact Or.inl rfl
    · rename_i i hi
      dsimp only
      by_cases hx : (s.files i).mtime < t - c.keep * 86400
      · cases n with
        | log d k =>
          right
          exact ⟨i, hk, hi, hx, by simp [hx]⟩
        | other y =>
          by_cases hy : c.base.isPrefixOf y = true
          · right
            exact ⟨i, hk, hi, hx, by simp [hx, hy]⟩
          · left; simp [hy]
      · left; simp [hx]

theorem trim_inv {c : Cfg} {s : St} {now : Int} (h : Inv c s now) (n : Name) : Inv c (trim c s now n) now := by
  rcases trim_cases c s now n with e | ⟨i, hk, hi, hm, e⟩
  · rw [e]; exact h
  · rw [e]
    refine ⟨fun m j hj => ?_, fun m j hj => h.small m j (List.mem_filter.mp hj).1, h.csmall, fun d k j hj => h.age d k j (List.mem_filter.mp hj).1, h.cday, fun j hj => ?_⟩
    · obtain ⟨h1, h2⟩ := List.mem_filter.mp hj
      dsimp only
      rw [find_filter _ _ _ (by simpa using h2)]
      exact h.uniq m j h1
    · rcases h.cdir j hj with ⟨k, hk'⟩ | hk'
      · by_cases hn : Name.log s.lastDay k = n
        · right
          have hf := h.uniq _ _ hk'
          rw [hn, hi] at hf
          have hij : i = j := Option.some.inj hf
          have := (h.age _ _ _ hk').1
          rw [← hij] at this
          show dayStart c (s.lastDay + 1) ≤ now
          unfold dayStart at this ⊢
          have : (1 : Int) ≤ c.keep := by omega
          omega
        · exact Or.inl ⟨k, List.mem_filter.mpr ⟨hk', by simpa using hn⟩⟩
      · exact Or.inr hk'

theorem step_inv {c : Cfg} {s : St} {now : Int} (h : Inv c s now) (e : Ev) (h1 : now ≤ e.first) (h2 : e.first ≤ e.last) : Inv c (step c s e) e.last := by
  cases e with
  | line t1 t2 x => exact write_inv (makePrefix_inv h h1 h2) x
  | more t x => exact write_inv (h.later h1) x
  | trim t n => exact trim_inv (h.later h1) n

theorem run_inv {c : Cfg} (l : List Ev) : ∀ {s : St} {now : Int}, Inv c s now → Ordered now l → Inv c (run c s l) (clock now l) := by
  induction l with
  | nil => intro s now h _; exact h
  | cons e l ih =>
    intro s now h ho
    exact ih (step_inv h e ho.1 ho.2.1) ho.2.2

/-- The text is in the file, which has the name, and was last written not before `t`. -/
def Has (s : St) (n : Name) (i : Nat) (t : Int) (p : List Byte) : Prop := (n, i) ∈ s.dir ∧ p <+: (s.files i).data ∧ t ≤ (s.files i).mtime

theorem start_has {c : Cfg} {s : St} {now t : Int} (h : Inv c s now) {n : Name} {i : Nat} {u : Int} {p : List Byte} (hh : Has s n i u p) : Has (start c s t) n i u p := by
  cases hf : find s.dir (startName c s t) with
  | some j => rw [start_some hf]; exact hh
  | none =>
    rw [start_none hf]
    refine ⟨List.mem_cons_of_mem _ hh.1, ?_⟩
    have := h.small _ _ hh.1
    dsimp only
    rw [if_neg (by omega)]
    exact hh.2

theorem write_has {s : St} {t : Int} {x : List Byte} {n : Name} {i : Nat} {u : Int} {p : List Byte} (hh : Has s n i u p) (hu : u ≤ t) : Has (write s t x) n i u p := by
  unfold write
  split
  · rename_i j hj
    refine ⟨hh.1, ?_⟩
    dsimp only
    split
    · rename_i e
      rw [← e]
      exact ⟨List.IsPrefix.trans hh.2.1 (List.prefix_append _ _), hu⟩
    · exact hh.2
  · exact hh

theorem step_has {c : Cfg} {s : St} {now : Int} (h : Inv c s now) (e : Ev) (h1 : now ≤ e.first) (h2 : e.first ≤ e.last) {n : Name} {i : Nat} {u : Int} {p : List Byte}
    (hh : Has s n i u p) (hu : u ≤ now) (hk : c.keep = 0 ∨ e.last ≤ u + c.keep * 86400) : Has (step c s e) n i u p := by
  cases e with
  | line t1 t2 x =>
    have h12 : now ≤ t2 := Int.le_trans h1 h2
    refine write_has ?_ (Int.le_trans hu h12)
    unfold makePrefix
    dsimp only
    by_cases hc : s.cur = none
    · rw [if_pos hc]
      split
      · exact start_has (start_inv h h12) (start_has h hh)
      · exact start_has h hh
    · rw [if_neg hc]
      split
      · exact start_has h hh
      · exact hh
  | more t x => exact write_has hh (Int.le_trans hu h1)
  | trim t m =>
    show Has (trim c s t m) n i u p
    rcases trim_cases c s t m with e | ⟨j, hkp, hj, hm, e⟩
    · rw [e]; exact hh
    · rw [e]
      refine ⟨List.mem_filter.mpr ⟨hh.1, ?_⟩, hh.2⟩
      by_cases hn : n = m
      · have hf := h.uniq _ _ hh.1
        rw [hn, hj] at hf
        have hij : j = i := Option.some.inj hf
        rw [hij] at hm
        have := hh.2.2
        rcases hk with hk | hk
        · exact absurd hk hkp
        · change t ≤ _ at hk
          omega
      · simpa using hn

theorem clock_mono (l : List Ev) : ∀ now : Int, Ordered now l → now ≤ clock now l := by
  induction l with
  | nil => intro now _; exact Int.le_refl _
  | cons e l ih =>
    intro now ho
    exact Int.le_trans (Int.le_trans ho.1 ho.2.1) (ih e.last ho.2.2)

theorem run_has {c : Cfg} {n : Name} {i : Nat} {u : Int} {p : List Byte} (l : List Ev) : ∀ {s : St} {now : Int}, Inv c s now → Ordered now l → Has s n i u p → u ≤ now →
    (c.keep = 0 ∨ clock now l ≤ u + c.keep * 86400) → Has (run c s l) n i u p := by
  induction l with
  | nil => intro s now _ _ h _ _; exact h
  | cons e l ih =>
    intro s now h ho hh hu hk
    refine ih (step_inv h e ho.1 ho.2.1) ho.2.2 (step_has h e ho.1 ho.2.1 hh hu ?_) (Int.le_trans hu (Int.le_trans ho.1 ho.2.1)) hk
    rcases hk with hk | hk
    · exact Or.inl hk
    · exact Or.inr (Int.le_trans (clock_mono l e.last ho.2.2) hk)

theorem ordered_append (l m : List Ev) : ∀ now : Int, Ordered now (l ++ m) → Ordered now l ∧ Ordered (clock now l) m := by
  induction l with
  | nil => intro now h; exact ⟨trivial, h⟩
  | cons e l ih =>
    intro now h
    obtain ⟨h1, h2⟩ := ih e.last h.2.2
    exact ⟨⟨h.1, h.2.1, h1⟩, h2⟩

/-- A new log: nothing open. What lies in the directory: each name once, log files not older than their names say. -/
def Fresh (c : Cfg) (s : St) (now : Int) : Prop :=
  s.cur = none ∧ (s.dir.map Prod.fst).Nodup ∧ (∀ e ∈ s.dir, e.2 < s.count) ∧
    ∀ d k i, (Name.log d k, i) ∈ s.dir → d * 86400 - c.off ≤ (s.files i).mtime ∧ d * 86400 - c.off ≤ now

theorem nodup_find : ∀ {dir : List (Name × Nat)}, (dir.map Prod.fst).Nodup → ∀ n i, (n, i) ∈ dir → find dir n = some i := by
  intro dir
  induction dir with
  | nil => intro _ n i h; cases h
  | cons e dir ih =>
    intro hd n i h
    obtain ⟨a, b⟩ := e
    rw [List.map_cons, List.nodup_cons] at hd
    rw [find_cons]
    rcases List.mem_cons.mp h with e | h
    · rw [Prod.mk.injEq] at e
      rw [if_pos e.1.symm, e.2]
    · split
      · rename_i e
        have : n ∈ dir.map Prod.fst := List.mem_map.mpr ⟨_, h, rfl⟩
        rw [← e] at this
        exact absurd this hd.1
      · exact ih hd.2 n i h

theorem fresh_inv {c : Cfg} {s : St} {now : Int} (h : Fresh c s now) : Inv c s now := by
  obtain ⟨h1, h2, h3, h4⟩ := h
  exact ⟨nodup_find h2, fun n i hm => h3 _ hm, fun i e => (by rw [h1] at e; cases e), h4, fun e => absurd h1 e, fun i e => (by rw [h1] at e; cases e)⟩

/-! ### Which file -/

theorem bound_mono (dir : List (Name × Nat)) : ∀ m : Nat, m ≤ dir.foldl (fun m e => match e.1 with
    | .log _ k => Nat.max m (k + 1)
    | .other _ => m) m := by
  induction dir with
  | nil => intro m; exact Nat.le_refl _
  | cons e dir ih =>
    intro m
    rw [List.foldl_cons]
    obtain ⟨n, i⟩ := e
    cases n with
    | log d k => exact Nat.le_trans (Nat.le_max_left _ _) (ih _)
    | other t => exact ih _

theorem bound_spec (dir : List (Name × Nat)) (d : Int) (k i : Nat) : ∀ m : Nat, (Name.log d k, i) ∈ dir → k < dir.foldl (fun m e => match e.1 with
    | .log _ k => Nat.max m (k + 1)
    | .other _ => m) m := by
  induction dir with
  | nil => intro m h; cases h
  | cons e dir ih =>
    intro m h
    rw [List.foldl_cons]
    rcases List.mem_cons.mp h with e' | h
    · rw [← e']
      exact Nat.lt_of_lt_of_le (Nat.lt_succ_self k) (Nat.le_trans (Nat.le_max_right m (k + 1)) (bound_mono dir _))
    · exact ih _ h

theorem next_free (c : Cfg) (s : St) (d : Int) : ∀ n num : Nat, bound s.dir ≤ n + num → busy c s (.log d (next c s d n num)) = false := by
  intro n
  induction n with
  | zero =>
    intro num h
    show busy c s (.log d num) = false
    unfold busy
    cases hf : find s.dir (.log d num) with
    | none => rfl
    | some i =>
      have : num < bound s.dir := bound_spec s.dir d num i 0 (find_mem hf)
      omega
  | succ n ih =>
    intro num h
    rw [next]
    by_cases hb : busy c s (.log d num) = true
    · rw [if_pos hb]; exact ih (num + 1) (by omega)
    · rw [if_neg hb]; exact Bool.eq_false_iff.mpr hb

theorem start_free (c : Cfg) (s : St) (t : Int) : busy c s (startName c s t) = false := next_free c s _ _ 0 (by omega)

theorem start_size (c : Cfg) (hm : 0 < c.max) (s : St) (t : Int) : size (start c s t) < c.max := by
  have hb := start_free c s t
  unfold busy at hb
  cases hf : find s.dir (startName c s t) with
  | some i =>
    rw [start_some hf]
    rw [hf] at hb
    dsimp only at hb
    rw [Bool.or_eq_false_iff, decide_eq_false_iff_not] at hb
    show (s.files i).data.length < c.max
    omega
  | none =>
    rw [start_none hf]
    show (if s.count = s.count then (⟨[], t⟩ : File) else s.files s.count).data.length < c.max
    rw [if_pos rfl]
    exact hm

theorem makePrefix_size (c : Cfg) (hm : 0 < c.max) (s : St) (t1 t2 : Int) : size (makePrefix c s t1 t2) ≤ c.max := by
  unfold makePrefix
  dsimp only
  generalize (if s.cur = none then start c s t2 else s) = u
  split
  · exact Nat.le_of_lt (start_size c hm _ _)
  · rename_i h
    rw [not_or] at h
    omega

/-- Files that were there before are not touched. -/
def Kept (s0 s : St) : Prop := s0.count ≤ s.count ∧ (∀ i, i < s0.count → s.files i = s0.files i) ∧ (∀ i, s.cur = some i → s0.count ≤ i)

theorem start_kept {c : Cfg} (ha : c.append = false) {s0 s : St} (h : Kept s0 s) (t : Int) : Kept s0 (start c s t) := by
  have hb := start_free c s t
  unfold busy at hb
  cases hf : find s.dir (startName c s t) with
  | some i =>
    rw [hf, ha] at hb
    simp at hb
  | none =>
    rw [start_none hf]
    refine ⟨Nat.le_trans h.1 (Nat.le_succ _), fun i hi => ?_, fun i e => ?_⟩
    · have := h.1
      dsimp only
      rw [if_neg (by omega)]
      exact h.2.1 i hi
    · have : s.count = i := Option.some.inj e
      rw [← this]; exact h.1

theorem write_kept {s0 s : St} (h : Kept s0 s) (t : Int) (x : List Byte) : Kept s0 (write s t x) := by
  unfold write
  split
  · rename_i j hj
    refine ⟨h.1, fun i hi => ?_, h.2.2⟩
    have := h.2.2 j hj
    dsimp only
    rw [if_neg (by omega)]
    exact h.2.1 i hi
  · exact h

theorem step_kept {c : Cfg} (ha : c.append = false) {s0 s : St} (h : Kept s0 s) (e : Ev) : Kept s0 (step c s e) := by
  cases e with
  | line t1 t2 x =>
    refine write_kept ?_ t2 x
    unfold makePrefix
    dsimp only
    by_cases hc : s.cur = none
    · rw [if_pos hc]
      split
      · exact start_kept ha (start_kept ha h _) _
      · exact start_kept ha h _
    · rw [if_neg hc]
      split
      · exact start_kept ha h _
      · exact h
  | more t x => exact write_kept h t x
  | trim t n =>
    show Kept s0 (trim c s t n)
    rcases trim_cases c s t n with e | ⟨j, _, _, _, e⟩
    · rw [e]; exact h
    · rw [e]; exact h

end Lgf
open Lgf

/-- C99: a line stays where it was written for as many days as wanted, whatever is logged, and whichever files are removed, before and after: whole, in a file that bears the
    date on which the line was begun or written, and can be found under its name. -/
theorem C99_retained (c : Cfg) (s : St) (now : Int) (hs : Fresh c s now) (l m : List Ev) (t1 t2 : Int) (x : List Byte)
    (ho : Ordered now (l ++ .line t1 t2 x :: m)) (hk : c.keep = 0 ∨ clock now (l ++ .line t1 t2 x :: m) ≤ t2 + c.keep * 86400) :
    ∃ d k i p r, (.log d k, i) ∈ (run c s (l ++ .line t1 t2 x :: m)).dir ∧ ((run c s (l ++ .line t1 t2 x :: m)).files i).data = p ++ x ++ r ∧
      (d = day c t1 ∨ d = day c t2) := by
  obtain ⟨ho1, ho2⟩ := ordered_append l _ now ho
  have hi := run_inv l (fresh_inv hs) ho1
  have e1 : run c s (l ++ .line t1 t2 x :: m) = run c (step c (run c s l) (.line t1 t2 x)) m := by simp [run]
  have e2 : clock now (l ++ .line t1 t2 x :: m) = clock t2 m := by simp [clock, Ev.last]
  rw [e2] at hk
  rw [e1]
  obtain ⟨d, k, i, h1, h2, h3⟩ := makePrefix_dir (t1 := t1) (t2 := t2) hi ho2.1
  have hst := step_inv hi (.line t1 t2 x) ho2.1 ho2.2.1
  have hh : Has (step c (run c s l) (.line t1 t2 x)) (.log d k) i t2 (((makePrefix c (run c s l) t1 t2).files i).data ++ x) := by
    show Has (write (makePrefix c (run c s l) t1 t2) t2 x) _ _ _ _
    unfold write
    rw [h1]
    refine ⟨h2, ?_⟩
    dsimp only
    rw [if_pos rfl]
    exact ⟨List.prefix_refl _, Int.le_refl _⟩
  have hr := run_has m hst ho2.2.2 hh (Int.le_refl _) hk
  obtain ⟨r1, ⟨r, r2⟩, _⟩ := hr
  exact ⟨d, k, i, _, r, r1, r2.symm, h3⟩

/-- C99: a line is begun only in a file that is not larger than 100 MB; there is always a free name. -/
theorem C99_size (c : Cfg) (hm : 0 < c.max) (s : St) (t1 t2 : Int) (x : List Byte) (i : Nat) (hi : (step c s (.line t1 t2 x)).cur = some i) :
    ∃ p, ((step c s (.line t1 t2 x)).files i).data = p ++ x ∧ p.length ≤ c.max := by
  have h := makePrefix_size c hm s t1 t2
  change (write (makePrefix c s t1 t2) t2 x).cur = some i at hi
  show ∃ p, ((write (makePrefix c s t1 t2) t2 x).files i).data = p ++ x ∧ p.length ≤ c.max
  unfold write at hi ⊢
  cases hc : (makePrefix c s t1 t2).cur with
  | none =>
    rw [hc] at hi
    dsimp only at hi
    rw [hc] at hi; cases hi
  | some j =>
    rw [hc] at hi
    dsimp only at hi ⊢
    have hji : j = i := Option.some.inj hi
    rw [if_pos hji.symm]
    refine ⟨_, rfl, ?_⟩
    unfold size at h
    rw [hc] at h
    exact h

/-- C99: if it is told not to append, it does not change any file that was there before. -/
theorem C99_noappend (c : Cfg) (ha : c.append = false) (s : St) (hs : s.cur = none) (l : List Ev) (i : Nat) (hi : i < s.count) :
    (run c s l).files i = s.files i := by
  have key : ∀ (l : List Ev) (u : St), Kept s u → Kept s (run c u l) := by
    intro l
    induction l with
    | nil => intro u h; exact h
    | cons e l ih => intro u h; exact ih _ (step_kept ha h e)
  exact (key l s ⟨Nat.le_refl _, fun _ _ => rfl, fun i e => by rw [hs] at e; cases e⟩).2.1 i hi

/-- C99: after a new file is begun, the link with the fixed name leads to it; what is not a link is left alone. -/
theorem C99_current (c : Cfg) (s : St) (t : Int) :
    (s.link = .something → (start c s t).link = .something) ∧
    (s.link ≠ .something → ∃ n i, (start c s t).link = .to n ∧ (start c s t).cur = some i ∧ (n, i) ∈ (start c s t).dir) := by
  obtain ⟨i, h1, h2, _⟩ := start_dir c s t
  have hl : (start c s t).link = if s.link = Link.something then s.link else .to (startName c s t) := by
    cases hf : find s.dir (startName c s t) with
    | some j => rw [start_some hf]
    | none => rw [start_none hf]
  refine ⟨fun h => ?_, fun h => ⟨startName c s t, i, ?_, h1, h2⟩⟩
  · rw [hl, if_pos h]; exact h
  · rw [hl, if_neg h]

/-- C99: only files older than wanted are removed. -/
theorem C99_old (c : Cfg) (s : St) (t : Int) (n m : Name) (i : Nat) (h : (m, i) ∈ s.dir) (hu : ∀ j, (m, j) ∈ s.dir → j = i) (hg : (m, i) ∉ (trim c s t n).dir) :
    m = n ∧ c.keep ≠ 0 ∧ (s.files i).mtime < t - c.keep * 86400 := by
  rcases trim_cases c s t n with e | ⟨j, hk, hj, hm, e⟩
  · rw [e] at hg; exact absurd h hg
  · rw [e] at hg
    by_cases hn : m = n
    · have := hu j (by rw [hn]; exact find_mem hj)
      rw [this] at hm
      exact ⟨hn, hk, hm⟩
    · exact absurd (List.mem_filter.mpr ⟨h, by simpa using hn⟩) hg

/-- A directory with a file of the log of yesterday and other files. -/
def Lgf.c0 : Cfg := ⟨str ['a', 'p', 'p'], 7, true, 0, 10⟩
def Lgf.s0 : St := ⟨[(.other (str ['a', 'p', 'p', 'l', 'e']), 0), (.log 0 0, 1)], fun i => if i = 0 then ⟨[1, 2], 100⟩ else ⟨[5], 86000⟩, 2, none, 0, .absent⟩

example : Fresh Lgf.c0 Lgf.s0 86001 := by
  refine ⟨rfl, by decide, by decide, fun d k i h => ?_⟩
  rcases List.mem_cons.mp h with e | h
  · cases (Prod.mk.inj e).1
  · rcases List.mem_cons.mp h with e | h
    · have hd := (Name.log.inj (Prod.mk.inj e).1).1
      have hi := (Prod.mk.inj e).2
      rw [hd, hi]
      decide
    · cases h

example : (run Lgf.c0 Lgf.s0 [.line 86002 86003 [7, 7], .line 90000 90001 [1, 2, 3, 4, 5, 6, 7, 8, 9, 10, 11], .line 90002 90003 [8]]).dir =
      [(.log 1 1, 3), (.log 1 0, 2), (.other (str ['a', 'p', 'p', 'l', 'e']), 0), (.log 0 0, 1)] ∧
    ((run Lgf.c0 Lgf.s0 [.line 86002 86003 [7, 7], .line 90000 90001 [1, 2, 3, 4, 5, 6, 7, 8, 9, 10, 11], .line 90002 90003 [8]]).files 1).data = [5, 7, 7] ∧
    ((run Lgf.c0 Lgf.s0 [.line 86002 86003 [7, 7], .line 90000 90001 [1, 2, 3, 4, 5, 6, 7, 8, 9, 10, 11], .line 90002 90003 [8]]).files 3).data = [8] := by
  refine ⟨?_, ?_, ?_⟩ <;> decide +kernel

/-- C99: other files are removed too, if their names begin like that of the log. -/
theorem C99_unrelated_fails : (.other (str ['a', 'p', 'p', 'l', 'e']), 0) ∈ Lgf.s0.dir ∧
    (.other (str ['a', 'p', 'p', 'l', 'e']), 0) ∉ (run Lgf.c0 Lgf.s0 [.trim 700000 (.other (str ['a', 'p', 'p', 'l', 'e']))]).dir := by decide +kernel

/-- C99: what is added to an unfinished line after as many days is lost at once if the old file was removed. -/
theorem C99_midline_fails : let s := run Lgf.c0 Lgf.s0 [.line 86002 86003 [7, 7], .trim 700000 (.log 0 0), .more 700001 [8]]
    s.dir = [(.other (str ['a', 'p', 'p', 'l', 'e']), 0)] ∧ (s.files 1).data = [5, 7, 7, 8] := by decide +kernel

end Props
