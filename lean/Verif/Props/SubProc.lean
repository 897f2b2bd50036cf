import Verif.Model.SubProc
/- C96: processes started and stopped. -/
namespace Props
open Wv.SubProc
open Spec.SubProc

namespace SubP

/-! ### Processes that only become fewer -/

/-- Each process of the second list was in the first, but may have been alive there. -/
def Sub (a b : List P) : Prop :=
  (∀ q ∈ b, ∃ p ∈ a, p.pid = q.pid ∧ p.pgid = q.pgid ∧ p.child = q.child ∧ p.ours = q.ours) ∧ (b.map P.pid).Sublist (a.map P.pid)

theorem Sub.refl (a : List P) : Sub a a := ⟨fun q hq => ⟨q, hq, rfl, rfl, rfl, rfl⟩, List.Sublist.refl _⟩

theorem sub_filterMap (f : P → Option P) (hf : ∀ p q, f p = some q → p.pid = q.pid ∧ p.pgid = q.pgid ∧ p.child = q.child ∧ p.ours = q.ours) (a : List P) :
    Sub a (a.filterMap f) := by
  constructor
  · intro q hq
    obtain ⟨p, hp, he⟩ := List.mem_filterMap.mp hq
    exact ⟨p, hp, hf p q he⟩
  · induction a with
    | nil => exact List.Sublist.refl _
    | cons p a ih =>
      rw [List.filterMap_cons]
      cases h : f p with
      | none => exact ih.cons _
      | some q =>
        simp only [List.map_cons]
        rw [(hf p q h).1]
        exact ih.cons_cons _

theorem die_same (p q : P) (h : die p = some q) : p.pid = q.pid ∧ p.pgid = q.pgid ∧ p.child = q.child ∧ p.ours = q.ours := by
  unfold die at h
  split at h
  · rw [← Option.some.inj h]; exact ⟨rfl, rfl, rfl, rfl⟩
  · cases h

theorem sub_sel (sel : P → Prop) [DecidablePred sel] (a : List P) : Sub a (a.filterMap fun p => if sel p then die p else some p) := by
  refine sub_filterMap _ (fun p q h => ?_) a
  split at h
  · exact die_same p q h
  · rw [← Option.some.inj h]; exact ⟨rfl, rfl, rfl, rfl⟩

theorem sub_filter (sel : P → Bool) (a : List P) : Sub a (a.filter sel) :=
  ⟨fun q hq => ⟨q, (List.mem_filter.mp hq).1, rfl, rfl, rfl, rfl⟩, List.filter_sublist.map _⟩

theorem signal_sub (sel : P → Bool) (sig : Nat) (s : St) : Sub s.k.ps (signal sel sig s).k.ps := by
  unfold signal
  dsimp only
  split
  · exact sub_sel (fun p => sel p = true) s.k.ps
  · exact Sub.refl _

theorem waitpid_sub (k : Kernel) (n : Nat) : Sub k.ps (waitpid k n).2.ps := by
  unfold waitpid
  split
  · split
    · exact sub_filter _ _
    · exact Sub.refl _
  · exact Sub.refl _

theorem waitpid_started (k : Kernel) (n : Nat) : (waitpid k n).2.started = k.started ∧ (waitpid k n).2.reuse = k.reuse := by
  unfold waitpid
  split
  · split <;> exact ⟨rfl, rfl⟩
  · exact ⟨rfl, rfl⟩

theorem move_started (k : Kernel) (m : Move) : (move k m).started = k.started ∧ (move k m).reuse = k.reuse := by
  cases m with
  | exit n => exact ⟨rfl, rfl⟩
  | fork n new =>
    unfold move
    dsimp only
    split
    · exact ⟨rfl, rfl⟩
    · split <;> exact ⟨rfl, rfl⟩
  | leave n => exact ⟨rfl, rfl⟩
  | stranger n g c =>
    unfold move
    dsimp only
    split <;> exact ⟨rfl, rfl⟩

theorem moves_started (l : List Move) : ∀ k, (moves k l).started = k.started ∧ (moves k l).reuse = k.reuse := by
  induction l with
  | nil => intro k; exact ⟨rfl, rfl⟩
  | cons m l ih =>
    intro k
    have h1 := ih (move k m)
    have h2 := move_started k m
    exact ⟨h1.1.trans h2.1, h1.2.trans h2.2⟩

theorem free_spec {k : Kernel} {n : Nat} (h : free k n = true) : (∀ p ∈ k.ps, p.pid ≠ n ∧ p.pgid ≠ n) ∧ (k.reuse = false → n ∉ k.started) := by
  unfold free at h
  rw [Bool.and_eq_true, List.all_eq_true, Bool.or_eq_true, List.all_eq_true] at h
  refine ⟨fun p hp => by simpa using h.1 p hp, fun hr hn => ?_⟩
  rcases h.2 with h2 | h2
  · rw [hr] at h2; cases h2
  · have := h2 n hn; simp at this

/-! ### Where ours are -/

/-- Our processes are in the groups that are known, and only the current main process is a child; numbers are unique. -/
structure KInv (cur : Option Nat) (old : List Nat) (ps : List P) : Prop where
  grp : ∀ p ∈ ps, p.ours = true → cur = some p.pgid ∨ p.pgid ∈ old
  chd : ∀ p ∈ ps, p.ours = true → p.child = true → cur = some p.pid
  nodup : (ps.map P.pid).Pairwise (· ≠ ·)

theorem KInv.sub {cur : Option Nat} {old : List Nat} {a b : List P} (h : KInv cur old a) (hs : Sub a b) : KInv cur old b where
  grp := by
    intro q hq ho
    obtain ⟨p, hp, e1, e2, e3, e4⟩ := hs.1 q hq
    rw [← e2]; exact h.grp p hp (e4.trans ho)
  chd := by
    intro q hq ho hc
    obtain ⟨p, hp, e1, e2, e3, e4⟩ := hs.1 q hq
    rw [← e1]; exact h.chd p hp (e4.trans ho) (e3.trans hc)
  nodup := h.nodup.sublist hs.2

theorem KInv.cons {cur : Option Nat} {old : List Nat} {a : List P} (h : KInv cur old a) (p : P) (hn : ∀ q ∈ a, q.pid ≠ p.pid)
    (h1 : p.ours = true → cur = some p.pgid ∨ p.pgid ∈ old) (h2 : p.ours = true → p.child = true → cur = some p.pid) : KInv cur old (p :: a) where
  grp := by
    intro q hq
    rcases List.mem_cons.mp hq with rfl | hq
    · exact h1
    · exact h.grp q hq
  chd := by
    intro q hq
    rcases List.mem_cons.mp hq with rfl | hq
    · exact h2
    · exact h.chd q hq
  nodup := by
    rw [List.map_cons, List.pairwise_cons]
    refine ⟨fun x hx => ?_, h.nodup⟩
    obtain ⟨q, hq, rfl⟩ := List.mem_map.mp hx
    exact Ne.symm (hn q hq)

theorem move_inv {cur : Option Nat} {old : List Nat} {k : Kernel} (h : KInv cur old k.ps) (m : Move) (hm : Stays m) : KInv cur old (move k m).ps := by
  cases m with
  | exit n => exact h.sub (sub_sel (fun p => p.pid = n) k.ps)
  | fork n new =>
    unfold move
    dsimp only
    split
    · exact h
    · rename_i p hp
      split
      · rename_i hf
        have hf' := free_spec hf
        have hpm := List.mem_of_find?_eq_some hp
        refine h.cons _ (fun q hq => (hf'.1 q hq).1) (fun ho => h.grp p hpm ho) (fun _ hc => ?_)
        cases hc
      · exact h
  | leave n => exact absurd hm (fun h => h)
  | stranger n g c =>
    unfold move
    dsimp only
    split
    · rename_i hf
      rw [Bool.and_eq_true] at hf
      have hf' := free_spec hf.1
      refine h.cons _ (fun q hq => (hf'.1 q hq).1) (fun ho => ?_) (fun ho _ => ?_) <;> cases ho
    · exact h

theorem moves_inv {cur : Option Nat} {old : List Nat} (l : List Move) : ∀ k : Kernel, KInv cur old k.ps → (∀ m ∈ l, Stays m) → KInv cur old (moves k l).ps := by
  induction l with
  | nil => intro k h _; exact h
  | cons m l ih => intro k h hl; exact ih (move k m) (move_inv h m (hl m (by simp))) (fun m hm => hl m (by simp [hm]))

/-- Numbers are unique. -/
theorem same_of_pid {ps : List P} (h : (ps.map P.pid).Pairwise (· ≠ ·)) {p q : P} (hp : p ∈ ps) (hq : q ∈ ps) (he : p.pid = q.pid) : p = q := by
  induction ps with
  | nil => cases hp
  | cons a ps ih =>
    rw [List.map_cons, List.pairwise_cons] at h
    rcases List.mem_cons.mp hp with hp' | hp'
    · rcases List.mem_cons.mp hq with hq' | hq'
      · rw [hp', hq']
      · exact absurd (hp' ▸ he) (h.1 q.pid (List.mem_map.mpr ⟨q, hq', rfl⟩))
    · rcases List.mem_cons.mp hq with hq' | hq'
      · exact absurd (hq' ▸ he.symm) (h.1 p.pid (List.mem_map.mpr ⟨p, hp', rfl⟩))
      · exact ih h.2 hp' hq'

/-- The main process was waited for. -/
theorem waitpid_gone {n : Nat} {old : List Nat} {k : Kernel} (h : KInv (some n) old k.ps) (w : Waited) (k' : Kernel) (he : waitpid k n = (w, k'))
    (hw : ∀ x, w = x → x ≠ .alive) : KInv none (old ++ [n]) k'.ps := by
  have hs := waitpid_sub k n
  rw [he] at hs
  have h' := h.sub hs
  refine ⟨fun p hp ho => ?_, fun p hp ho hc => ?_, h'.nodup⟩
  · right
    rcases h'.grp p hp ho with hg | hg
    · rw [Option.some.injEq] at hg; simp [hg]
    · simp [hg]
  · exfalso
    have hpid := h'.chd p hp ho hc
    rw [Option.some.injEq] at hpid
    unfold waitpid at he
    split at he
    · split at he
      · rename_i hz
        have e := (Prod.mk.injEq .. ▸ he).2
        rw [← e] at hp
        have hpm := List.mem_filter.mp hp
        obtain ⟨z, hz1, hz2⟩ := List.any_eq_true.mp hz
        have hz2' : z.pid = n ∧ z.child = true ∧ z.zombie = true := by simpa using hz2
        have : p = z := same_of_pid h.nodup hpm.1 hz1 (by rw [← hpid, hz2'.1])
        have hno := hpm.2
        rw [this] at hno
        simp [hz2'] at hno
      · have e := (Prod.mk.injEq .. ▸ he).1
        exact hw _ e.symm rfl
    · rename_i hnone
      have e := (Prod.mk.injEq .. ▸ he).2
      rw [← e] at hp
      exact hnone (List.any_eq_true.mpr ⟨p, hp, by simp [hpid.symm, hc]⟩)

theorem sweep_inv (l : List Nat) : ∀ (pre : List Nat) (ms : List (List Move)) (k : Kernel), KInv none (pre ++ l) k.ps → (∀ x ∈ ms, ∀ m ∈ x, Stays m) →
    KInv none (pre ++ (sweep l ms k).1) (sweep l ms k).2.ps := by
  induction l with
  | nil => intro pre ms k h _; exact h
  | cons n l ih =>
    intro pre ms k h hms
    rw [sweep]
    have hm : ∀ m ∈ ms.headD [], Stays m := by
      cases ms with
      | nil => intro m hm; cases hm
      | cons x ms => exact hms x (by simp)
    have hms' : ∀ x ∈ ms.tail, ∀ m ∈ x, Stays m := fun x hx => hms x (List.mem_of_mem_tail hx)
    have h1 := (moves_inv _ k h hm).sub (waitpid_sub _ n)
    generalize (waitpid (moves k (ms.headD [])) n).2 = k1 at h1
    split
    · have := ih (pre ++ [n]) ms.tail k1 (by simpa using h1) hms'
      simpa using this
    · rename_i hg
      refine ih pre ms.tail k1 ⟨fun p hp ho => ?_, h1.chd, h1.nodup⟩ hms'
      rcases h1.grp p hp ho with hx | hx
      · exact Or.inl hx
      · right
        rw [List.mem_append, List.mem_cons] at hx
        rcases hx with hx | hx | hx
        · simp [hx]
        · exact absurd (List.any_eq_true.mpr ⟨p, hp, by simp [hx]⟩) hg
        · simp [hx]

/-! ### The object -/

/-- What holds of an object that is used with its children. -/
structure Inv (s : St) : Prop where
  k : KInv s.pid s.old s.k.ps
  stopped : s.running = false → s.pid = none ∧ s.old = []
  sane : sane s = true
  main : ∀ n, s.pid = some n → ∃ p ∈ s.k.ps, p.pid = n ∧ p.child = true ∧ p.ours = true

def TStays (t : Turn) : Prop := (∀ m ∈ t.before, Stays m) ∧ ∀ x ∈ t.mids, ∀ m ∈ x, Stays m

/-- The main process stays, at least dead. -/
def HasMain (n : Nat) (ps : List P) : Prop := ∃ p ∈ ps, p.pid = n ∧ p.child = true ∧ p.ours = true

theorem main_sel (sel : P → Prop) [DecidablePred sel] {n : Nat} {a : List P} (h : HasMain n a) : HasMain n (a.filterMap fun p => if sel p then die p else some p) := by
  obtain ⟨p, hp, h1, h2, h3⟩ := h
  by_cases hs : sel p
  · exact ⟨{ p with zombie := true }, List.mem_filterMap.mpr ⟨p, hp, by rw [if_pos hs, die, if_pos h2]⟩, h1, h2, h3⟩
  · exact ⟨p, List.mem_filterMap.mpr ⟨p, hp, by rw [if_neg hs]⟩, h1, h2, h3⟩

theorem main_move {n : Nat} {k : Kernel} (h : HasMain n k.ps) (m : Move) : HasMain n (move k m).ps := by
  cases m with
  | exit x => exact main_sel (fun p => p.pid = x) h
  | fork x new =>
    unfold move
    dsimp only
    split
    · exact h
    · split
      · obtain ⟨p, hp, hr⟩ := h
        exact ⟨p, List.mem_cons_of_mem _ hp, hr⟩
      · exact h
  | leave x =>
    obtain ⟨p, hp, h1, h2, h3⟩ := h
    refine ⟨if p.pid = x then { p with pgid := x } else p, List.mem_map.mpr ⟨p, hp, rfl⟩, ?_⟩
    split <;> exact ⟨h1, h2, h3⟩
  | stranger x g c =>
    unfold move
    dsimp only
    split
    · obtain ⟨p, hp, hr⟩ := h
      exact ⟨p, List.mem_cons_of_mem _ hp, hr⟩
    · exact h

theorem main_moves {n : Nat} (l : List Move) : ∀ k : Kernel, HasMain n k.ps → HasMain n (moves k l).ps := by
  induction l with
  | nil => intro k h; exact h
  | cons m l ih => intro k h; exact ih _ (main_move h m)

theorem main_signal {n : Nat} (sel : P → Bool) (sig : Nat) (s : St) (h : HasMain n s.k.ps) : HasMain n (signal sel sig s).k.ps := by
  unfold signal
  dsimp only
  split
  · exact main_sel (fun p => sel p = true) h
  · exact h

theorem turn_inv (t : Turn) (ht : TStays t) (s : St) (h : KInv s.pid s.old s.k.ps) (hm : ∀ n, s.pid = some n → HasMain n s.k.ps) (c : Bool) :
    KInv (turn c t s).1.pid (turn c t s).1.old (turn c t s).1.k.ps ∧ (∀ n, (turn c t s).1.pid = some n → HasMain n (turn c t s).1.k.ps) ∧
    (turn c t s).1.running = s.running ∧
    ((turn c t s).2 = true → (turn c t s).1.pid ≠ none ∨ (c = true ∧ (turn c t s).1.old ≠ [])) ∧
    ((turn c t s).2 = false → (turn c t s).1.pid = none ∧ (c = true → (turn c t s).1.old = [])) := by
  have h1 := moves_inv t.before s.k h ht.1
  have hm1 := fun n hn => main_moves t.before s.k (hm n hn)
  unfold turn
  dsimp only
  generalize moves s.k t.before = k1 at h1 hm1
  have fin : ∀ (old : List Nat) (k : Kernel), KInv none old k.ps →
      KInv none (sweep old t.mids k).1 (sweep old t.mids k).2.ps := by
    intro old k hk
    have := sweep_inv old [] t.mids k (by simpa using hk) ht.2
    simpa using this
  cases hp : s.pid with
  | none =>
    dsimp only
    rw [hp] at h1
    refine ⟨fin _ _ h1, fun n hn => by simp at hn, rfl, fun hx => Or.inr ?_, fun hx => ⟨rfl, fun hc => ?_⟩⟩
    · simp at hx; exact hx
    · simp at hx; exact hx hc
  | some n =>
    dsimp only
    rw [hp] at h1
    cases hw : waitpid k1 n with
    | mk w k2 =>
      cases w with
      | alive =>
        dsimp only
        have hk2 : k2 = k1 := by
          unfold waitpid at hw
          split at hw
          · split at hw
            · simp at hw
            · exact ((Prod.mk.injEq .. ▸ hw).2).symm
          · simp at hw
        rw [hk2]
        exact ⟨h1, fun m hm' => hm1 m (hp.trans hm'), rfl, fun _ => Or.inl (by simp), fun hx => by simp at hx⟩
      | dead =>
        have h2 := waitpid_gone h1 .dead k2 hw (fun x hx hx2 => by rw [hx2] at hx; cases hx)
        dsimp only
        refine ⟨fin _ _ h2, fun n hn => by simp at hn, rfl, fun hx => Or.inr ?_, fun hx => ⟨rfl, fun hc => ?_⟩⟩
        · simp at hx; exact hx
        · simp at hx; exact hx hc
      | nochild =>
        have h2 := waitpid_gone h1 .nochild k2 hw (fun x hx hx2 => by rw [hx2] at hx; cases hx)
        dsimp only
        refine ⟨fin _ _ h2, fun n hn => by simp at hn, rfl, fun hx => Or.inr ?_, fun hx => ⟨rfl, fun hc => ?_⟩⟩
        · simp at hx; exact hx
        · simp at hx; exact hx hc

theorem waitLoop_inv (msec : Int) : ∀ (ts : List Turn) (s : St), (∀ t ∈ ts, TStays t) → s.running = true → KInv s.pid s.old s.k.ps →
    (∀ n, s.pid = some n → HasMain n s.k.ps) → ∀ s' ts', waitLoop msec true ts s = .ok (s', ts') → Inv s' ∧ ∃ pre, ts = pre ++ ts'
  | [], s, _, _, _, _, s', ts', he => by simp [waitLoop] at he
  | t :: ts, s, hts, hr, h, hm, s', ts', he => by
    obtain ⟨h1, h2, h3, h4, h5⟩ := turn_inv t (hts t (by simp)) s h hm true
    rw [waitLoop] at he
    dsimp only at he
    generalize turn true t s = x at h1 h2 h3 h4 h5 he
    split at he
    · obtain ⟨g1, pre, g2⟩ := waitLoop_inv msec ts x.1 (fun t ht => hts t (by simp [ht])) (h3.trans hr) h1 h2 s' ts' he
      exact ⟨g1, t :: pre, by rw [g2]; rfl⟩
    · rw [Except.ok.injEq, Prod.mk.injEq] at he
      refine ⟨?_, [t], by rw [he.2]; rfl⟩
      rw [← he.1]
      split
      · rename_i hx
        refine ⟨h1, fun hf => ?_, ?_, h2⟩
        · rw [h3, hr] at hf; cases hf
        · unfold sane
          rcases h4 hx with hy | hy
          · cases hp : x.1.pid with
            | none => exact absurd hp hy
            | some n => simp
          · simp [hy.2]
      · rename_i hx
        have hx' : x.2 = false := by simpa using hx
        exact ⟨h1, fun _ => ⟨(h5 hx').1, (h5 hx').2 rfl⟩, rfl, h2⟩

theorem wait_inv (msec : Int) (ts : List Turn) (hts : ∀ t ∈ ts, TStays t) (s : St) (h : Inv s) (s' : St) (ts' : List Turn)
    (he : wait msec true ts s = .ok (s', ts')) : Inv s' ∧ ∃ pre, ts = pre ++ ts' := by
  unfold wait at he
  rw [h.sane] at he
  simp only [if_true] at he
  split at he
  · rename_i hr
    have hr' : s.running = true := by
      cases hrun : s.running with
      | true => rfl
      | false =>
        have := h.stopped hrun
        simp [hrun, this.2] at hr
    exact waitLoop_inv msec ts s hts hr' h.k h.main s' ts' he
  · rw [Except.ok.injEq, Prod.mk.injEq] at he
    rw [← he.1]
    exact ⟨h, [], by rw [← he.2]; rfl⟩

/-- What sending signals does not change. -/
structure Same (s t : St) : Prop where
  pid : t.pid = s.pid
  old : t.old = s.old
  running : t.running = s.running
  sub : Sub s.k.ps t.k.ps
  started : t.k.started = s.k.started
  reuse : t.k.reuse = s.k.reuse
  main : ∀ n, HasMain n s.k.ps → HasMain n t.k.ps

theorem Sub.trans {a b c : List P} (h1 : Sub a b) (h2 : Sub b c) : Sub a c := by
  refine ⟨fun r hr => ?_, h2.2.trans h1.2⟩
  obtain ⟨q, hq, e1, e2, e3, e4⟩ := h2.1 r hr
  obtain ⟨p, hp, f1, f2, f3, f4⟩ := h1.1 q hq
  exact ⟨p, hp, f1.trans e1, f2.trans e2, f3.trans e3, f4.trans e4⟩

theorem Same.trans {a b c : St} (h1 : Same a b) (h2 : Same b c) : Same a c :=
  ⟨h2.pid.trans h1.pid, h2.old.trans h1.old, h2.running.trans h1.running, h1.sub.trans h2.sub, h2.started.trans h1.started, h2.reuse.trans h1.reuse,
    fun n h => h2.main n (h1.main n h)⟩

theorem Same.refl (s : St) : Same s s := ⟨rfl, rfl, rfl, Sub.refl _, rfl, rfl, fun _ h => h⟩

theorem signal_same (sel : P → Bool) (sig : Nat) (s : St) : Same s (signal sel sig s) :=
  ⟨rfl, rfl, rfl, signal_sub sel sig s, rfl, rfl, fun _ h => main_signal sel sig s h⟩

theorem killOld_same (sig : Nat) (l : List Nat) : ∀ s, Same s (killOld sig l s) := by
  induction l with
  | nil => intro s; exact Same.refl s
  | cons n l ih =>
    intro s
    rw [killOld]
    split
    · exact (signal_same _ sig s).trans (ih _)
    · exact (signal_same _ sig s).trans (ih _)

theorem killPrimary_same (sig : Nat) (s t : St) (h : killPrimary sig s = .ok t) : Same s t := by
  unfold killPrimary at h
  split at h
  · split at h
    · rw [← Except.ok.inj h]
      split
      · exact signal_same _ sig s
      · exact Same.refl s
    · rw [← Except.ok.inj h]; exact Same.refl s
  · cases h

theorem kill_same (sig : Nat) (s t : St) (h : kill sig s = .ok t) : Same s t := by
  unfold kill at h
  split at h
  · split at h
    · split at h
      · rw [← Except.ok.inj h]; exact (signal_same _ sig s).trans (killOld_same sig _ _)
      · split at h
        · rename_i u hu
          rw [← Except.ok.inj h]; exact (killPrimary_same sig s u hu).trans (killOld_same sig _ _)
        · cases h
    · rw [← Except.ok.inj h]; exact killOld_same sig _ _
  · cases h

theorem Same.inv {s t : St} (h : Same s t) (hi : Inv s) : Inv t := by
  refine ⟨?_, ?_, ?_, ?_⟩
  · rw [h.pid, h.old]; exact hi.k.sub h.sub
  · rw [h.running, h.pid, h.old]; exact hi.stopped
  · have := hi.sane
    unfold sane at this ⊢
    rw [h.running, h.pid, h.old]; exact this
  · intro n hn
    rw [h.pid] at hn
    exact h.main n (hi.main n hn)

theorem bind_ok {ε α β : Type} {x : Except ε α} {f : α → Except ε β} {b : β} (h : x.bind f = .ok b) : ∃ a, x = .ok a ∧ f a = .ok b := by
  cases x with
  | error e => cases h
  | ok a => exact ⟨a, rfl, h⟩

theorem stop_inv (msec : Int) (ts : List Turn) (hts : ∀ t ∈ ts, TStays t) (s : St) (h : Inv s) (s' : St) (ts' : List Turn)
    (he : stop msec true ts s = .ok (s', ts')) : Inv s' := by
  unfold stop at he
  obtain ⟨x, h1, he⟩ := bind_ok he
  obtain ⟨hx, pre, hpre⟩ := wait_inv 0 ts hts s h x.1 x.2 h1
  have hx2 : ∀ t ∈ x.2, TStays t := fun t ht => hts t (by rw [hpre]; simp [ht])
  obtain ⟨y, h2, he⟩ := bind_ok he
  have hy : Inv y.1 ∧ ∀ t ∈ y.2, TStays t := by
    split at h2
    · obtain ⟨u, h3, h4⟩ := bind_ok h2
      have hu := (kill_same _ _ _ h3).inv hx
      obtain ⟨g1, pre', g2⟩ := wait_inv msec x.2 hx2 u hu y.1 y.2 h4
      exact ⟨g1, fun t ht => hx2 t (by rw [g2]; simp [ht])⟩
    · rw [← Except.ok.inj h2]; exact ⟨hx, hx2⟩
  split at he
  · obtain ⟨u, h3, h4⟩ := bind_ok he
    have hu := (kill_same _ _ _ h3).inv hy.1
    exact (wait_inv (-1) y.2 hy.2 u hu s' ts' h4).1
  · have := Except.ok.inj he
    have h6 : y.1 = s' := by rw [this]
    rw [← h6]; exact hy.1

/-- `wait(-1)` returns only if nothing runs. -/
theorem waitLoop_forever (ts : List Turn) : ∀ s s' ts', waitLoop (-1) true ts s = .ok (s', ts') → s'.running = false := by
  induction ts with
  | nil => intro s s' ts' h; simp [waitLoop] at h
  | cons t ts ih =>
    intro s s' ts' h
    rw [waitLoop] at h
    dsimp only at h
    split at h
    · exact ih _ _ _ h
    · rename_i hx
      rw [Except.ok.injEq, Prod.mk.injEq] at h
      have : (turn true t s).2 = false := by simpa using hx
      rw [← h.1, this]; rfl

theorem stop_stopped (msec : Int) (ts : List Turn) (hts : ∀ t ∈ ts, TStays t) (s : St) (h : Inv s) (s' : St) (ts' : List Turn) (he : stop msec true ts s = .ok (s', ts')) : s'.running = false := by
  unfold stop at he
  obtain ⟨x, h1, he⟩ := bind_ok he
  obtain ⟨hx, pre, hpre⟩ := wait_inv 0 ts hts s h x.1 x.2 h1
  have hx2 : ∀ t ∈ x.2, TStays t := fun t ht => hts t (by rw [hpre]; simp [ht])
  obtain ⟨y, h2, he⟩ := bind_ok he
  split at he
  · obtain ⟨u, h3, h4⟩ := bind_ok he
    rename_i hyr
    have hur : u.running = true := by rw [(kill_same _ _ _ h3).running]; exact hyr
    unfold wait at h4
    split at h4
    · rw [hur] at h4
      simp only [Bool.true_or, if_true] at h4
      exact waitLoop_forever _ _ _ _ h4
    · cases h4
  · rename_i hyr
    have := Except.ok.inj he
    have h6 : y.1 = s' := by rw [this]
    rw [← h6]; simpa using hyr

/-! ### Histories -/

/-- The calls that the claim is about: starting only what is stopped, and always with the children. -/
def Ok (s : St) : Op → Prop
  | .start _ => s.running = false
  | .stop _ c ts => c = true ∧ ∀ t ∈ ts, TStays t
  | .wait _ c ts => c = true ∧ ∀ t ∈ ts, TStays t
  | .kill _ => True
  | .killPrimary _ => True
  | .time l => ∀ m ∈ l, Stays m

/-- Each call is like that at its time. -/
def Careful (s : St) : List Op → Prop
  | [] => True
  | o :: l => Ok s o ∧ ∀ s', step s o = .ok s' → Careful s' l

theorem map_ok {ε α β : Type} {x : Except ε α} {f : α → β} {b : β} (h : x.map f = .ok b) : ∃ a, x = .ok a ∧ f a = b := by
  cases x with
  | error e => cases h
  | ok a => exact ⟨a, rfl, Except.ok.inj h⟩

theorem step_inv (s : St) (h : Inv s) (o : Op) (ho : Ok s o) (s' : St) (he : step s o = .ok s') : Inv s' := by
  cases o with
  | start n =>
    have he' : (start n s).getD s = s' := Except.ok.inj he
    rw [← he']
    unfold start
    split
    · rename_i hf
      have hs := h.stopped ho
      rw [List.all_eq_true] at hf
      have hf' : ∀ p ∈ s.k.ps, p.pid ≠ n ∧ p.pgid ≠ n := fun p hp => by simpa using hf p hp
      have hno : ∀ p ∈ s.k.ps, p.ours = false := by
        intro p hp
        cases hpo : p.ours with
        | false => rfl
        | true => rcases h.k.grp p hp hpo with hx | hx
                  · rw [hs.1] at hx; cases hx
                  · rw [hs.2] at hx; cases hx
      refine ⟨?_, fun hx => by simp at hx, by simp [sane], ?_⟩
      · refine KInv.cons (cur := some n) (old := s.old) ⟨?_, ?_, h.k.nodup⟩ _ (fun q hq => (hf' q hq).1) (fun _ => Or.inl rfl) (fun _ _ => rfl)
        · intro p hp hpo; rw [hno p hp] at hpo; cases hpo
        · intro p hp hpo; rw [hno p hp] at hpo; cases hpo
      · intro m hm
        have : n = m := Option.some.inj hm
        subst this
        exact ⟨_, List.mem_cons_self, rfl, rfl, rfl⟩
    · exact h
  | stop msec c ts =>
    obtain ⟨rfl, hts⟩ := ho
    obtain ⟨x, h1, h2⟩ := map_ok he
    rw [← h2]
    exact stop_inv msec ts hts s h x.1 x.2 h1
  | wait msec c ts =>
    obtain ⟨rfl, hts⟩ := ho
    obtain ⟨x, h1, h2⟩ := map_ok he
    rw [← h2]
    exact (wait_inv msec ts hts s h x.1 x.2 h1).1
  | kill sig => exact (kill_same sig s s' he).inv h
  | killPrimary sig => exact (killPrimary_same sig s s' he).inv h
  | time l =>
    rw [← Except.ok.inj he]
    exact ⟨moves_inv l s.k h.k ho, h.stopped, h.sane, fun n hn => main_moves l s.k (h.main n hn)⟩

theorem run_inv (l : List Op) : ∀ s, Inv s → Careful s l → ∀ s', run s l = .ok s' → Inv s' := by
  induction l with
  | nil => intro s h _ s' he; rw [← Except.ok.inj he]; exact h
  | cons o l ih =>
    intro s h hc s' he
    obtain ⟨t, h1, h2⟩ := bind_ok he
    exact ih t (step_inv s h o hc.1 t h1) (hc.2 t h1) s' h2

theorem new_inv (reuse : Bool) (ps : List P) (h0 : NoneLeft ps) (hn : (ps.map P.pid).Pairwise (· ≠ ·)) : Inv (new reuse ps) :=
  ⟨⟨fun p hp ho => (by rw [h0 p hp] at ho; cases ho), fun p hp ho => (by rw [h0 p hp] at ho; cases ho), hn⟩, fun _ => ⟨rfl, rfl⟩, rfl, fun n hn => (by cases hn)⟩

end SubP
open SubP

/-- C96: if `stop` returns, nothing of what the object ever started is left, neither processes, nor their descendants, nor dead ones that were not waited
    for. -/
theorem C96_stop_partial (reuse : Bool) (ps : List P) (h0 : NoneLeft ps) (hn : (ps.map P.pid).Pairwise (· ≠ ·)) (l : List Op) (hl : Careful (new reuse ps) l)
    (s : St) (hs : run (new reuse ps) l = .ok s) (msec : Int) (ts : List Turn) (hts : ∀ t ∈ ts, TStays t) (s' : St) (ts' : List Turn)
    (he : stop msec true ts s = .ok (s', ts')) : s'.running = false ∧ NoneLeft s'.k.ps := by
  have hi := run_inv l _ (new_inv reuse ps h0 hn) hl s hs
  have hr := stop_stopped msec ts hts s hi s' ts' he
  have h' := stop_inv msec ts hts s hi s' ts' he
  refine ⟨hr, fun p hp => ?_⟩
  cases ho : p.ours with
  | false => rfl
  | true =>
    have hst := h'.stopped hr
    rcases h'.k.grp p hp ho with hx | hx
    · rw [hst.1] at hx; cases hx
    · rw [hst.2] at hx; cases hx

/-- C96: `running` is false only if nothing is left. -/
theorem C96_running_partial (reuse : Bool) (ps : List P) (h0 : NoneLeft ps) (hn : (ps.map P.pid).Pairwise (· ≠ ·)) (l : List Op) (hl : Careful (new reuse ps) l)
    (s : St) (hs : run (new reuse ps) l = .ok s) (hr : s.running = false) : NoneLeft s.k.ps := by
  have hi := run_inv l _ (new_inv reuse ps h0 hn) hl s hs
  intro p hp
  cases ho : p.ours with
  | false => rfl
  | true =>
    have hst := hi.stopped hr
    rcases hi.k.grp p hp ho with hx | hx
    · rw [hst.1] at hx; cases hx
    · rw [hst.2] at hx; cases hx

namespace SubP

/-! ### Signals -/

/-- Numbers that the object was given belong to our processes. -/
def Own (started : List Nat) (ps : List P) : Prop := ∀ p ∈ ps, p.pid ∈ started ∨ p.pgid ∈ started → p.ours = true

theorem Own.sub {st : List Nat} {a b : List P} (h : Own st a) (hs : Sub a b) : Own st b := by
  intro q hq hx
  obtain ⟨p, hp, e1, e2, e3, e4⟩ := hs.1 q hq
  rw [← e4]; exact h p hp (by rw [e1, e2]; exact hx)

theorem Own.move {k : Kernel} (h : Own k.started k.ps) (hr : k.reuse = false) (m : Move) : Own k.started (move k m).ps := by
  cases m with
  | exit n => exact h.sub (sub_sel (fun p => p.pid = n) k.ps)
  | fork n new =>
    unfold Wv.SubProc.move
    dsimp only
    split
    · exact h
    · rename_i p hp
      split
      · rename_i hf
        intro q hq hx
        rcases List.mem_cons.mp hq with rfl | hq
        · rcases hx with hx | hx
          · exact absurd hx ((free_spec hf).2 hr)
          · exact h p (List.mem_of_find?_eq_some hp) (Or.inr hx)
        · exact h q hq hx
      · exact h
  | leave n =>
    intro q hq hx
    obtain ⟨p, hp, he⟩ := List.mem_map.mp hq
    split at he
    · rename_i hn
      rw [← he] at hx ⊢
      refine h p hp (Or.inl ?_)
      rcases hx with hx | hx
      · exact hx
      · rw [hn]; exact hx
    · rw [← he] at hx ⊢
      exact h p hp hx
  | stranger n g c =>
    unfold Wv.SubProc.move
    dsimp only
    split
    · rename_i hf
      rw [Bool.and_eq_true] at hf
      have hn := (free_spec hf.1).2 hr
      intro q hq hx
      rcases List.mem_cons.mp hq with rfl | hq
      · rcases hx with hx | hx
        · exact absurd hx hn
        · have hg := hf.2
          rw [Bool.or_eq_true] at hg
          rcases hg with hg | hg
          · have : g = n := by simpa using hg
            exact absurd (this ▸ hx) hn
          · obtain ⟨r, hr1, hr2⟩ := List.any_eq_true.mp hg
            have hr2' : r.pgid = g ∧ r.ours = false := by simpa using hr2
            have := h r hr1 (Or.inr (hr2'.1 ▸ hx))
            rw [hr2'.2] at this; cases this
      · exact h q hq hx
    · exact h

theorem Own.moves (l : List Move) : ∀ {k : Kernel}, Own k.started k.ps → k.reuse = false → Own k.started (moves k l).ps := by
  induction l with
  | nil => intro k h _; exact h
  | cons m l ih =>
    intro k h hr
    have h1 := h.move hr m
    have h2 := move_started k m
    have := ih (k := Wv.SubProc.move k m) (by rw [h2.1]; exact h1) (by rw [h2.2]; exact hr)
    rw [h2.1] at this
    exact this

/-- What holds if numbers are not reused. -/
structure SInv (s : St) : Prop where
  reuse : s.k.reuse = false
  own : Own s.k.started s.k.ps
  cur : ∀ n, s.pid = some n → n ∈ s.k.started
  old : ∀ n ∈ s.old, n ∈ s.k.started
  log : ∀ e ∈ s.log, e.2.ours = true

theorem SInv.signal {s : St} (h : SInv s) (sel : P → Bool) (hs : ∀ p ∈ s.k.ps, sel p = true → p.ours = true) (sig : Nat) : SInv (signal sel sig s) := by
  refine ⟨h.reuse, h.own.sub (signal_sub sel sig s), h.cur, h.old, fun e he => ?_⟩
  unfold Wv.SubProc.signal at he
  rcases List.mem_append.mp he with he | he
  · exact h.log e he
  · obtain ⟨p, hp, rfl⟩ := List.mem_map.mp he
    have := List.mem_filter.mp hp
    exact hs p this.1 this.2

theorem SInv.pidSel {s : St} (h : SInv s) (n : Nat) (hn : n ∈ s.k.started) (sig : Nat) : SInv (Wv.SubProc.signal (fun p => p.pid = n) sig s) :=
  h.signal _ (fun p hp hx => h.own p hp (Or.inl (by have : p.pid = n := by simpa using hx
                                                    rw [this]; exact hn))) sig

theorem SInv.grpSel {s : St} (h : SInv s) (n : Nat) (hn : n ∈ s.k.started) (sig : Nat) : SInv (Wv.SubProc.signal (fun p => p.pgid = n) sig s) :=
  h.signal _ (fun p hp hx => h.own p hp (Or.inr (by have : p.pgid = n := by simpa using hx
                                                    rw [this]; exact hn))) sig

theorem SInv.killOld (sig : Nat) (l : List Nat) : ∀ {s : St}, SInv s → (∀ n ∈ l, n ∈ s.k.started) → SInv (killOld sig l s) := by
  induction l with
  | nil => intro s h _; exact h
  | cons n l ih =>
    intro s h hl
    rw [Wv.SubProc.killOld]
    split
    · exact ih (h.grpSel n (hl n (by simp)) sig) (fun m hm => hl m (by simp [hm]))
    · exact ih (h.pidSel n (hl n (by simp)) sig) (fun m hm => hl m (by simp [hm]))

theorem SInv.killPrimary {s t : St} (h : SInv s) (sig : Nat) (he : killPrimary sig s = .ok t) : SInv t := by
  unfold Wv.SubProc.killPrimary at he
  split at he
  · split at he
    · rename_i n hn
      rw [← Except.ok.inj he]
      split
      · exact h.pidSel n (h.cur n hn) sig
      · exact h
    · rw [← Except.ok.inj he]; exact h
  · cases he

theorem SInv.kill {s t : St} (h : SInv s) (sig : Nat) (he : kill sig s = .ok t) : SInv t := by
  unfold Wv.SubProc.kill at he
  split at he
  · split at he
    · rename_i n hn
      split at he
      · rw [← Except.ok.inj he]
        exact (h.grpSel n (h.cur n hn) sig).killOld sig _ h.old
      · split at he
        · rename_i u hu
          rw [← Except.ok.inj he]
          have := h.killPrimary sig hu
          exact this.killOld sig _ this.old
        · cases he
    · rw [← Except.ok.inj he]; exact h.killOld sig _ h.old
  · cases he

theorem sweep_own (l : List Nat) : ∀ (ms : List (List Move)) (k : Kernel), k.reuse = false → Own k.started k.ps →
    (sweep l ms k).2.started = k.started ∧ (sweep l ms k).2.reuse = false ∧ Own k.started (sweep l ms k).2.ps ∧ ∀ n ∈ (sweep l ms k).1, n ∈ l := by
  induction l with
  | nil => intro ms k hr h; exact ⟨rfl, hr, h, fun n hn => hn⟩
  | cons n l ih =>
    intro ms k hr h
    rw [sweep]
    have e1 := waitpid_started (moves k (ms.headD [])) n
    have e2 := moves_started (ms.headD []) k
    have h1 : Own k.started (waitpid (moves k (ms.headD [])) n).2.ps := (Own.moves _ h hr).sub (waitpid_sub _ n)
    have e3 := e1.1.trans e2.1
    have e4 := (e1.2.trans e2.2).trans hr
    generalize (waitpid (moves k (ms.headD [])) n).2 = k1 at h1 e3 e4
    obtain ⟨g1, g2, g3, g4⟩ := ih ms.tail k1 e4 (by rw [e3]; exact h1)
    rw [e3] at g1 g3
    split
    · refine ⟨g1, g2, g3, fun m hm => ?_⟩
      rcases List.mem_cons.mp hm with rfl | hm
      · simp
      · simp [g4 m hm]
    · exact ⟨g1, g2, g3, fun m hm => by simp [g4 m hm]⟩

theorem SInv.turn {s : St} (h : SInv s) (c : Bool) (t : Turn) : SInv (turn c t s).1 ∧ (turn c t s).1.log = s.log := by
  have h1 := Own.moves t.before h.own h.reuse
  have e := moves_started t.before s.k
  unfold Wv.SubProc.turn
  dsimp only
  generalize Wv.SubProc.moves s.k t.before = k1 at h1 e
  have fin : ∀ (old : List Nat) (k : Kernel), k.reuse = false → k.started = s.k.started → Own s.k.started k.ps → (∀ n ∈ old, n ∈ s.k.started) →
      SInv ⟨(sweep old t.mids k).2, none, (sweep old t.mids k).1, s.running, s.log⟩ := by
    intro old k hr hst ho hold
    obtain ⟨g1, g2, g3, g4⟩ := sweep_own old t.mids k hr (by rw [hst]; exact ho)
    refine ⟨g2, ?_, fun n hn => (by cases hn), fun n hn => ?_, h.log⟩
    · show Own (sweep old t.mids k).2.started _
      rw [g1]; exact g3
    · show n ∈ (sweep old t.mids k).2.started
      rw [g1, hst]; exact hold n (g4 n hn)
  cases hp : s.pid with
  | none =>
    dsimp only
    exact ⟨fin _ _ (e.2.trans h.reuse) e.1 h1 h.old, by first | rfl | trivial⟩
  | some n =>
    dsimp only
    have hn := h.cur n hp
    cases hw : waitpid k1 n with
    | mk w k2 =>
      have hs := waitpid_sub k1 n
      have e2 := waitpid_started k1 n
      rw [hw] at hs e2
      have hold : ∀ m ∈ s.old ++ [n], m ∈ s.k.started := by
        intro m hm
        rcases List.mem_append.mp hm with hm | hm
        · exact h.old m hm
        · rw [List.mem_singleton] at hm; rw [hm]; exact hn
      cases w with
      | alive =>
        dsimp only
        refine ⟨⟨(e2.2.trans e.2).trans h.reuse, ?_, ?_, ?_, h.log⟩, by first | rfl | trivial⟩
        · show Own k2.started k2.ps
          rw [e2.1, e.1]; exact h1.sub hs
        · intro m hm
          show m ∈ k2.started
          rw [e2.1, e.1, ← Option.some.inj hm]; exact hn
        · intro m hm
          show m ∈ k2.started
          rw [e2.1, e.1]; exact h.old m hm
      | dead =>
        dsimp only
        exact ⟨fin _ _ ((e2.2.trans e.2).trans h.reuse) (e2.1.trans e.1) (h1.sub hs) hold, by first | rfl | trivial⟩
      | nochild =>
        dsimp only
        exact ⟨fin _ _ ((e2.2.trans e.2).trans h.reuse) (e2.1.trans e.1) (h1.sub hs) hold, by first | rfl | trivial⟩

theorem SInv.waitLoop (msec : Int) (c : Bool) : ∀ (ts : List Turn) (s : St), SInv s → ∀ x, waitLoop msec c ts s = .ok x → SInv x.1
  | [], s, _, x, he => by simp [Wv.SubProc.waitLoop] at he
  | t :: ts, s, h, x, he => by
    have h1 := (h.turn c t).1
    rw [Wv.SubProc.waitLoop] at he
    dsimp only at he
    generalize Wv.SubProc.turn c t s = y at h1 he
    split at he
    · exact SInv.waitLoop msec c ts y.1 h1 x he
    · rw [← Except.ok.inj he]
      dsimp only
      split
      · exact h1
      · exact ⟨h1.reuse, h1.own, h1.cur, h1.old, h1.log⟩

theorem SInv.wait {s : St} (h : SInv s) (msec : Int) (c : Bool) (ts : List Turn) (x : St × List Turn) (he : wait msec c ts s = .ok x) : SInv x.1 := by
  unfold Wv.SubProc.wait at he
  split at he
  · split at he
    · exact SInv.waitLoop msec c ts s h x he
    · rw [← Except.ok.inj he]; exact h
  · cases he

theorem SInv.killSome {s t : St} (h : SInv s) (c : Bool) (sig : Nat) (he : killSome c sig s = .ok t) : SInv t := by
  unfold Wv.SubProc.killSome at he
  split at he
  · exact h.kill sig he
  · exact h.killPrimary sig he

theorem SInv.stop {s : St} (h : SInv s) (msec : Int) (c : Bool) (ts : List Turn) (x : St × List Turn) (he : stop msec c ts s = .ok x) : SInv x.1 := by
  unfold Wv.SubProc.stop at he
  obtain ⟨y, h1, he⟩ := bind_ok he
  have hy := h.wait 0 true ts y h1
  obtain ⟨z, h2, he⟩ := bind_ok he
  have hz : SInv z.1 := by
    split at h2
    · obtain ⟨u, h3, h4⟩ := bind_ok h2
      exact (hy.killSome c _ h3).wait msec c _ z h4
    · rw [← Except.ok.inj h2]; exact hy
  split at he
  · obtain ⟨u, h3, h4⟩ := bind_ok he
    exact (hz.killSome c _ h3).wait (-1) c _ x h4
  · rw [← Except.ok.inj he]; exact hz

theorem SInv.step {s : St} (h : SInv s) (o : Op) (s' : St) (he : step s o = .ok s') : SInv s' := by
  cases o with
  | start n =>
    have he' : (start n s).getD s = s' := Except.ok.inj he
    rw [← he']
    unfold start
    split
    · rename_i hf
      rw [List.all_eq_true] at hf
      have hf' : ∀ p ∈ s.k.ps, p.pid ≠ n ∧ p.pgid ≠ n := fun p hp => by simpa using hf p hp
      refine ⟨h.reuse, ?_, fun m hm => ?_, fun m hm => List.mem_cons_of_mem _ (h.old m hm), h.log⟩
      · intro q hq hx
        rcases List.mem_cons.mp hq with rfl | hq
        · rfl
        · refine h.own q hq ?_
          rcases hx with hx | hx
          · rcases List.mem_cons.mp hx with hx | hx
            · exact absurd hx (hf' q hq).1
            · exact Or.inl hx
          · rcases List.mem_cons.mp hx with hx | hx
            · exact absurd hx (hf' q hq).2
            · exact Or.inr hx
      · have : n = m := Option.some.inj hm
        rw [← this]; exact List.mem_cons_self
    · exact h
  | stop msec c ts =>
    obtain ⟨x, h1, h2⟩ := map_ok he
    rw [← h2]; exact h.stop msec c ts x h1
  | wait msec c ts =>
    obtain ⟨x, h1, h2⟩ := map_ok he
    rw [← h2]; exact h.wait msec c ts x h1
  | kill sig => exact h.kill sig he
  | killPrimary sig => exact h.killPrimary sig he
  | time l =>
    rw [← Except.ok.inj he]
    have e := moves_started l s.k
    have := Own.moves l h.own h.reuse
    refine ⟨e.2.trans h.reuse, ?_, fun n hn => ?_, fun n hn => ?_, h.log⟩
    · show Own (Wv.SubProc.moves s.k l).started _
      rw [e.1]; exact this
    · show n ∈ (Wv.SubProc.moves s.k l).started
      rw [e.1]; exact h.cur n hn
    · show n ∈ (Wv.SubProc.moves s.k l).started
      rw [e.1]; exact h.old n hn

theorem SInv.run (l : List Op) : ∀ s, SInv s → ∀ s', run s l = .ok s' → SInv s' := by
  induction l with
  | nil => intro s h s' he; rw [← Except.ok.inj he]; exact h
  | cons o l ih =>
    intro s h s' he
    obtain ⟨t, h1, h2⟩ := bind_ok he
    exact ih t (h.step o t h1) s' h2

theorem SInv.new (ps : List P) : SInv (new false ps) :=
  ⟨rfl, fun p _ hx => (by rcases hx with hx | hx <;> cases hx), fun n hn => (by cases hn), fun n hn => (by cases hn), fun e he => (by cases he)⟩

/-! ### Assertions -/

theorem turn_flags (c : Bool) (t : Turn) (s : St) : (turn c t s).1.running = s.running ∧
    ((turn c t s).2 = true → (turn c t s).1.pid ≠ none ∨ (turn c t s).1.old ≠ []) := by
  unfold turn
  dsimp only
  cases hp : s.pid with
  | none =>
    dsimp only
    refine ⟨by first | rfl | trivial, fun hx => Or.inr ?_⟩
    simp at hx; exact hx.2
  | some n =>
    dsimp only
    cases hw : waitpid (moves s.k t.before) n with
    | mk w k2 =>
      cases w with
      | alive =>
        dsimp only
        exact ⟨by first | rfl | trivial, fun _ => Or.inl (by simp)⟩
      | dead =>
        dsimp only
        refine ⟨by first | rfl | trivial, fun hx => Or.inr ?_⟩
        simp at hx; exact hx.2
      | nochild =>
        dsimp only
        refine ⟨by first | rfl | trivial, fun hx => Or.inr ?_⟩
        simp at hx; exact hx.2

/-- A result that is in order: no assertion failed, and the next would not. -/
def Fine (x : Except Stop St) : Prop := x ≠ .error .abort ∧ ∀ s, x = .ok s → sane s = true

theorem waitLoop_fine (msec : Int) (c : Bool) : ∀ (ts : List Turn) (s : St), Fine ((waitLoop msec c ts s).map Prod.fst)
  | [], s => ⟨by simp [waitLoop, Except.map], fun s h => by simp [waitLoop, Except.map] at h⟩
  | t :: ts, s => by
    have hf := turn_flags c t s
    rw [waitLoop]
    dsimp only
    generalize turn c t s = y at hf
    split
    · exact waitLoop_fine msec c ts y.1
    · refine ⟨by simp [Except.map], fun s' h => ?_⟩
      rw [← Except.ok.inj h]
      dsimp only
      split
      · rename_i hx
        unfold sane
        rcases hf.2 hx with hy | hy
        · cases hp : y.1.pid with
          | none => exact absurd hp hy
          | some n => simp
        · simp [hy]
      · rfl

theorem wait_fine (msec : Int) (c : Bool) (ts : List Turn) (s : St) (h : sane s = true) : Fine ((wait msec c ts s).map Prod.fst) := by
  unfold wait
  rw [if_pos h]
  split
  · exact waitLoop_fine msec c ts s
  · exact ⟨by simp [Except.map], fun s' hs => by rw [← Except.ok.inj hs]; exact h⟩

theorem Same.sane {s t : St} (h : Same s t) (hs : sane s = true) : Wv.SubProc.sane t = true := by
  unfold Wv.SubProc.sane at hs ⊢
  rw [h.running, h.pid, h.old]; exact hs

theorem killPrimary_ok (sig : Nat) (s : St) (h : sane s = true) : ∃ t, killPrimary sig s = .ok t := by
  unfold killPrimary
  rw [if_pos h]
  split <;> exact ⟨_, rfl⟩

theorem kill_ok (sig : Nat) (s : St) (h : sane s = true) : ∃ t, kill sig s = .ok t := by
  obtain ⟨t, ht⟩ := killPrimary_ok sig s h
  unfold kill
  rw [if_pos h]
  split
  · split
    · exact ⟨_, rfl⟩
    · rw [ht]; exact ⟨_, rfl⟩
  · exact ⟨_, rfl⟩

theorem killSome_ok (c : Bool) (sig : Nat) (s : St) (h : sane s = true) : ∃ t, killSome c sig s = .ok t ∧ Same s t := by
  unfold killSome
  split
  · obtain ⟨t, ht⟩ := kill_ok sig s h
    exact ⟨t, ht, kill_same sig s t ht⟩
  · obtain ⟨t, ht⟩ := killPrimary_ok sig s h
    exact ⟨t, ht, killPrimary_same sig s t ht⟩

theorem stop_fine (msec : Int) (c : Bool) (ts : List Turn) (s : St) (h : sane s = true) : Fine ((stop msec c ts s).map Prod.fst) := by
  unfold stop
  have h1 := wait_fine 0 true ts s h
  cases hw : wait 0 true ts s with
  | error e =>
    rw [hw] at h1
    exact h1
  | ok x =>
    rw [hw] at h1
    have hx : sane x.1 = true := h1.2 x.1 rfl
    show Fine (Except.map Prod.fst (Except.bind (if x.1.running then (killSome c sigTerm x.1).bind fun s => wait msec c x.2 s else .ok x) _))
    have h2 : Fine ((if x.1.running then (killSome c sigTerm x.1).bind fun s => wait msec c x.2 s else .ok x).map Prod.fst) := by
      split
      · obtain ⟨u, hu, hsame⟩ := killSome_ok c sigTerm x.1 hx
        rw [hu]
        exact wait_fine msec c x.2 u (hsame.sane hx)
      · exact ⟨by simp [Except.map], fun s' hs => by rw [← Except.ok.inj hs]; exact hx⟩
    generalize (if x.1.running then (killSome c sigTerm x.1).bind fun s => wait msec c x.2 s else .ok x) = y at h2
    cases y with
    | error e => exact h2
    | ok y =>
      have hy : sane y.1 = true := h2.2 y.1 rfl
      show Fine (Except.map Prod.fst (if y.1.running then _ else _))
      split
      · obtain ⟨u, hu, hsame⟩ := killSome_ok c sigKill y.1 hy
        rw [hu]
        exact wait_fine (-1) c y.2 u (hsame.sane hy)
      · exact ⟨by simp [Except.map], fun s' hs => by rw [← Except.ok.inj hs]; exact hy⟩

theorem step_fine (s : St) (h : sane s = true) (o : Op) : Fine (step s o) := by
  cases o with
  | start n =>
    refine ⟨by simp [step], fun s' hs => ?_⟩
    have hs' : (start n s).getD s = s' := Except.ok.inj hs
    rw [← hs']
    unfold start
    split
    · simp [sane]
    · exact h
  | stop msec c ts => exact stop_fine msec c ts s h
  | wait msec c ts => exact wait_fine msec c ts s h
  | kill sig =>
    obtain ⟨t, ht⟩ := kill_ok sig s h
    refine ⟨by rw [step, ht]; simp, fun s' hs => ?_⟩
    exact (kill_same sig s s' hs).sane h
  | killPrimary sig =>
    obtain ⟨t, ht⟩ := killPrimary_ok sig s h
    refine ⟨by rw [step, ht]; simp, fun s' hs => ?_⟩
    exact (killPrimary_same sig s s' hs).sane h
  | time l =>
    refine ⟨by simp [step], fun s' hs => ?_⟩
    rw [← Except.ok.inj hs]; exact h

theorem run_fine (l : List Op) : ∀ s, sane s = true → run s l ≠ .error .abort := by
  induction l with
  | nil => intro s _; simp [run]
  | cons o l ih =>
    intro s h
    have hf := step_fine s h o
    rw [run]
    cases hs : step s o with
    | error e =>
      rw [hs] at hf
      exact hf.1
    | ok t =>
      rw [hs] at hf
      exact ih t (hf.2 t rfl)

/-! ### It returns -/

/-- All processes of a group are dead children. -/
def Dead (g : Nat) (ps : List P) : Prop := ∀ p ∈ ps, p.pgid = g → p.zombie = true ∧ p.child = true

theorem dead_signal {g : Nat} (sel : P → Bool) (sig : Nat) {s : St} (h : Dead g s.k.ps) : Dead g (signal sel sig s).k.ps := by
  unfold signal
  dsimp only
  split
  · intro q hq hg
    obtain ⟨p, hp, he⟩ := List.mem_filterMap.mp hq
    split at he
    · have hsame := die_same p q he
      unfold die at he
      split at he
      · rename_i hc
        rw [← Option.some.inj he]; exact ⟨rfl, hc⟩
      · cases he
    · rw [← Option.some.inj he] at hg ⊢
      exact h p hp hg
  · exact h

theorem dead_killed (n : Nat) (s : St) : Dead n (signal (fun p => p.pgid = n) sigKill s).k.ps := by
  unfold signal
  dsimp only
  rw [if_pos rfl]
  intro q hq hg
  obtain ⟨p, hp, he⟩ := List.mem_filterMap.mp hq
  split at he
  · unfold die at he
    split at he
    · rename_i hc
      rw [← Option.some.inj he]; exact ⟨rfl, hc⟩
    · cases he
  · rename_i hne
    rw [← Option.some.inj he] at hg
    exact absurd (by simpa using hg) hne

theorem dead_empty (n : Nat) (k : Kernel) (h : ¬ group k n = true) : Dead n k.ps := by
  intro p hp hg
  exact absurd (List.any_eq_true.mpr ⟨p, hp, by simp [hg]⟩) h

theorem killOld_dead (l : List Nat) : ∀ (s : St), (∀ g, Dead g s.k.ps → Dead g (killOld sigKill l s).k.ps) ∧ ∀ n ∈ l, Dead n (killOld sigKill l s).k.ps := by
  induction l with
  | nil => intro s; exact ⟨fun g h => h, fun n hn => (by cases hn)⟩
  | cons n l ih =>
    intro s
    rw [killOld]
    split
    · rename_i hg
      have hi := ih (signal (fun p => p.pgid = n) sigKill s)
      refine ⟨fun g h => hi.1 g (dead_signal _ _ h), fun m hm => ?_⟩
      rcases List.mem_cons.mp hm with rfl | hm
      · exact hi.1 m (dead_killed m s)
      · exact hi.2 m hm
    · rename_i hg
      have hi := ih (signal (fun p => p.pid = n) sigKill s)
      refine ⟨fun g h => hi.1 g (dead_signal _ _ h), fun m hm => ?_⟩
      rcases List.mem_cons.mp hm with rfl | hm
      · exact hi.1 m (dead_signal _ _ (dead_empty m s.k hg))
      · exact hi.2 m hm

theorem kill_dead (s t : St) (h : kill sigKill s = .ok t) : (∀ n, s.pid = some n → Dead n t.k.ps) ∧ ∀ n ∈ s.old, Dead n t.k.ps := by
  unfold kill at h
  split at h
  · split at h
    · rename_i n hn
      split at h
      · rw [← Except.ok.inj h]
        have hk := killOld_dead (signal (fun p => p.pgid = n) sigKill s).old (signal (fun p => p.pgid = n) sigKill s)
        refine ⟨fun m hm => ?_, hk.2⟩
        have : n = m := by rw [hn] at hm; exact Option.some.inj hm
        rw [← this]; exact hk.1 n (dead_killed n s)
      · rename_i hg
        split at h
        · rename_i u hu
          rw [← Except.ok.inj h]
          have hk := killOld_dead u.old u
          have hsame := killPrimary_same sigKill s u hu
          refine ⟨fun m hm => ?_, by rw [← hsame.old]; exact hk.2⟩
          have : n = m := by rw [hn] at hm; exact Option.some.inj hm
          rw [← this]
          refine hk.1 n ?_
          intro q hq hx
          obtain ⟨p, hp, e1, e2, e3, e4⟩ := hsame.sub.1 q hq
          exact absurd (List.any_eq_true.mpr ⟨p, hp, by simp [e2, hx]⟩) hg
        · cases h
    · rename_i hn
      rw [← Except.ok.inj h]
      exact ⟨fun m hm => (by rw [hn] at hm; cases hm), (killOld_dead s.old s).2⟩
  · cases h

theorem sweep_quiet (l : List Nat) : ∀ k : Kernel, (∀ p ∈ k.ps, p.pgid ∉ l) → (sweep l [] k).1 = [] := by
  induction l with
  | nil => intro k _; rfl
  | cons n l ih =>
    intro k h
    rw [sweep]
    have hs : Sub k.ps (waitpid (moves k (List.headD [] [])) n).2.ps := waitpid_sub k n
    generalize (waitpid (moves k (List.headD [] [])) n).2 = k1 at hs
    have h1 : ∀ p ∈ k1.ps, p.pgid ∉ n :: l := by
      intro q hq hx
      obtain ⟨p, hp, e1, e2, e3, e4⟩ := hs.1 q hq
      exact h p hp (e2 ▸ hx)
    rw [if_neg]
    · exact ih k1 (fun p hp hx => h1 p hp (by simp [hx]))
    · intro hg
      obtain ⟨p, hp, hx⟩ := List.any_eq_true.mp hg
      exact h1 p hp (by have : p.pgid = n := by simpa using hx
                        simp [this])

/-- A turn in which nothing happens by itself. -/
def quiet : Turn := ⟨[], [], true⟩

theorem turn_quiet (s : St) (h : Inv s) (hs : SInv s) (h1 : ∀ n, s.pid = some n → Dead n s.k.ps) (h2 : ∀ n ∈ s.old, Dead n s.k.ps) :
    (turn true quiet s).2 = false := by
  have hdead : ∀ p ∈ s.k.ps, p.ours = true → p.zombie = true ∧ p.child = true := by
    intro p hp ho
    rcases h.k.grp p hp ho with hg | hg
    · exact h1 p.pgid hg p hp rfl
    · exact h2 p.pgid hg p hp rfl
  have nog : ∀ (ps : List P) (old : List Nat), (∀ p ∈ ps, p.ours = false) → Own s.k.started ps → (∀ n ∈ old, n ∈ s.k.started) → ∀ p ∈ ps, p.pgid ∉ old := by
    intro ps old hno hown hold p hp hx
    have := hown p hp (Or.inr (hold _ hx))
    rw [hno p hp] at this; cases this
  unfold turn
  dsimp only
  have em : moves s.k quiet.before = s.k := rfl
  rw [em]
  cases hp : s.pid with
  | none =>
    dsimp only
    have hno : ∀ p ∈ s.k.ps, p.ours = false := by
      intro p hpm
      cases ho : p.ours with
      | false => rfl
      | true =>
        have := h.k.chd p hpm ho (hdead p hpm ho).2
        rw [hp] at this; cases this
    have := sweep_quiet s.old s.k (nog s.k.ps s.old hno hs.own hs.old)
    show (!(!true || (sweep s.old [] s.k).1.isEmpty)) = false
    rw [this]; rfl
  | some n =>
    dsimp only
    obtain ⟨p, hpm, hp1, hp2, hp3⟩ := h.main n hp
    have hz := hdead p hpm hp3
    have hw : (waitpid s.k n).1 = .dead := by
      unfold waitpid
      rw [if_pos (List.any_eq_true.mpr ⟨p, hpm, by simp [hp1, hp2]⟩), if_pos (List.any_eq_true.mpr ⟨p, hpm, by simp [hp1, hp2, hz.1]⟩)]
    cases hwe : waitpid s.k n with
    | mk w k2 =>
      rw [hwe] at hw
      have hw' : w = .dead := hw
      subst hw'
      dsimp only
      have hk := h.k
      rw [hp] at hk
      have hk2 := waitpid_gone hk .dead k2 hwe (fun x hx hx2 => by rw [hx2] at hx; cases hx)
      have hsub := waitpid_sub s.k n
      rw [hwe] at hsub
      have hno : ∀ q ∈ k2.ps, q.ours = false := by
        intro q hq
        cases ho : q.ours with
        | false => rfl
        | true =>
          obtain ⟨r, hr, e1, e2, e3, e4⟩ := hsub.1 q hq
          have := hk2.chd q hq ho (e3 ▸ (hdead r hr (e4.trans ho)).2)
          cases this
      have hold : ∀ m ∈ s.old ++ [n], m ∈ s.k.started := by
        intro m hm
        rcases List.mem_append.mp hm with hm | hm
        · exact hs.old m hm
        · rw [List.mem_singleton] at hm; rw [hm]; exact hs.cur n hp
      have := sweep_quiet (s.old ++ [n]) k2 (nog k2.ps _ hno (hs.own.sub hsub) hold)
      show (!(!true || (sweep (s.old ++ [n]) [] k2).1.isEmpty)) = false
      rw [this]; rfl

theorem wait_one (msec : Int) (hm : 0 ≤ msec) (t : Turn) (hl : t.late = true) (ts : List Turn) (s : St) (h : sane s = true) (hr : s.running = true) :
    ∃ s', wait msec true (t :: ts) s = .ok (s', ts) := by
  unfold wait
  rw [if_pos h, hr, Bool.true_or, if_pos rfl, waitLoop]
  dsimp only
  rw [if_neg]
  · exact ⟨_, rfl⟩
  · rw [hl]
    simp; intro _ _; omega

end SubP
open SubP

/-- C96: no assertion ever fails, whatever is called. -/
theorem C96_noabort (reuse : Bool) (ps : List P) (l : List Op) : run (new reuse ps) l ≠ .error .abort := run_fine l _ rfl

/-- C96: if the kernel does not give numbers of processes to others, signals go to our processes only, whatever is called. -/
theorem C96_signals_partial (ps : List P) (l : List Op) (s : St) (hs : run (new false ps) l = .ok s) : ∀ e ∈ s.log, e.2.ours = true :=
  (SInv.run l _ (SInv.new ps) s hs).log

/-- C96: `stop` returns: at the latest after the SIGKILL, if our processes do nothing else any more. Numbers are not reused. -/
theorem C96_returns_partial (ps : List P) (h0 : NoneLeft ps) (hn : (ps.map P.pid).Pairwise (· ≠ ·)) (l : List Op) (hl : Careful (new false ps) l)
    (s : St) (hs : run (new false ps) l = .ok s) (msec : Int) (hm : 0 ≤ msec) (t1 t2 : Turn) (h1 : TStays t1) (h2 : TStays t2) (hl1 : t1.late = true)
    (hl2 : t2.late = true) : ∃ s' ts', stop msec true [t1, t2, quiet] s = .ok (s', ts') ∧ s'.running = false ∧ NoneLeft s'.k.ps := by
  have hi := run_inv l _ (new_inv false ps h0 hn) hl s hs
  have hsi := SInv.run l _ (SInv.new ps) s hs
  have hq : TStays quiet := ⟨fun m hm => (by cases hm), fun x hx => (by cases hx)⟩
  have hall : ∀ t ∈ [t1, t2, quiet], TStays t := by
    intro t ht
    simp only [List.mem_cons, List.not_mem_nil, or_false] at ht
    rcases ht with rfl | rfl | rfl
    · exact h1
    · exact h2
    · exact hq
  have hret : ∃ s' ts', stop msec true [t1, t2, quiet] s = .ok (s', ts') := by
    unfold stop
    cases hr : s.running with
    | false =>
      have : wait 0 true [t1, t2, quiet] s = .ok (s, [t1, t2, quiet]) := by
        unfold wait
        rw [if_pos hi.sane, hr, (hi.stopped hr).2]; rfl
      rw [this]
      refine ⟨s, [t1, t2, quiet], ?_⟩
      show Except.bind (if s.running = true then _ else _) _ = _
      rw [hr]
      show (if s.running = true then _ else _) = _
      rw [hr]; rfl
    | true =>
      obtain ⟨x, hx⟩ := wait_one 0 (by omega) t1 hl1 [t2, quiet] s hi.sane hr
      have hxi := (wait_inv 0 _ hall s hi x _ hx).1
      have hxs := hsi.wait 0 true _ _ hx
      rw [hx]
      show ∃ s' ts', Except.bind (if x.running = true then _ else _) _ = _
      cases hxr : x.running with
      | false =>
        refine ⟨x, [t2, quiet], ?_⟩
        show (if x.running = true then _ else _) = _
        rw [hxr]; rfl
      | true =>
        obtain ⟨u, hu, hsame⟩ := killSome_ok true sigTerm x hxi.sane
        have hui := hsame.inv hxi
        have hus := hxs.killSome true _ hu
        obtain ⟨y, hy⟩ := wait_one msec hm t2 hl2 [quiet] u hui.sane (hsame.running.trans hxr)
        have hyi := (wait_inv msec [t2, quiet] (fun t ht => hall t (List.mem_cons_of_mem _ ht)) u hui y _ hy).1
        have hys := hus.wait msec true _ _ hy
        rw [if_pos rfl]
        have e : ((killSome true sigTerm x).bind fun s => wait msec true [t2, quiet] s) = .ok (y, [quiet]) := by rw [hu]; exact hy
        rw [e]
        show ∃ s' ts', (if y.running = true then _ else _) = _
        cases hyr : y.running with
        | false => exact ⟨y, [quiet], rfl⟩
        | true =>
          obtain ⟨v, hv, hsame'⟩ := killSome_ok true sigKill y hyi.sane
          have hvi := hsame'.inv hyi
          have hvs := hys.killSome true _ hv
          have hd := kill_dead y v hv
          have ht := turn_quiet v hvi hvs (fun n hn => hd.1 n (hsame'.pid ▸ hn)) (fun n hn => hd.2 n (hsame'.old ▸ hn))
          rw [if_pos rfl, hv]
          show ∃ s' ts', wait (-1) true [quiet] v = _
          unfold wait
          rw [if_pos hvi.sane, hsame'.running.trans hyr, Bool.true_or, if_pos rfl, waitLoop]
          dsimp only
          rw [ht]
          exact ⟨_, _, rfl⟩
  obtain ⟨s', ts', he⟩ := hret
  exact ⟨s', ts', he, C96_stop_partial false ps h0 hn l hl s hs msec _ hall s' ts' he⟩

/-- A program that forks, whose main process ends, and a descendant that does not care about SIGTERM. -/
example : (match run (new true []) [.start 10, .time [.fork 10 11, .fork 11 12, .exit 10], .wait 0 true [quiet], .stop 100 true [quiet, quiet, quiet]] with
    | .ok s => (s.running, s.k.ps, s.log.map fun e => (e.1, e.2.pid))
    | .error _ => (true, [], [])) = (false, [], [(15, 12), (15, 11), (9, 12), (9, 11)]) := by decide +kernel

example : Careful (new true []) [.start 10, .time [.fork 10 11, .exit 10], .wait 0 true [quiet], .kill 1, .stop 100 true [quiet, quiet, quiet]] := by
  have hq : ∀ t ∈ [quiet], TStays t := by
    intro t ht
    rw [List.mem_singleton] at ht
    rw [ht]; exact ⟨fun m hm => (by cases hm), fun x hx => (by cases hx)⟩
  have hq3 : ∀ t ∈ [quiet, quiet, quiet], TStays t := fun t ht => hq t (by simpa using ht)
  refine ⟨rfl, fun _ _ => ⟨?_, fun _ _ => ⟨⟨rfl, hq⟩, fun _ _ => ⟨trivial, fun _ _ => ⟨⟨rfl, hq3⟩, fun _ _ => trivial⟩⟩⟩⟩⟩
  intro m hm
  simp only [List.mem_cons, List.not_mem_nil, or_false] at hm
  rcases hm with rfl | rfl <;> trivial

/-- C96: starting again while a process runs: the first one is not stopped by `stop`. -/
theorem C96_restart_fails : (match run (new true []) [.start 10, .start 20, .stop 100 true [quiet, quiet, quiet]] with
    | .ok s => (s.running, s.k.ps.map fun p => (p.pid, p.zombie, p.ours))
    | .error _ => (true, [])) = (false, [(10, false, true)]) := by decide +kernel

/-- C96: after a `wait` without the children, `stop` does not do anything to them. -/
theorem C96_leftover_fails : (match run (new true []) [.start 10, .time [.fork 10 11, .exit 10], .wait 0 false [quiet], .stop 100 true [quiet, quiet, quiet]] with
    | .ok s => (s.running, s.k.ps.map fun p => (p.pid, p.zombie, p.ours), s.log)
    | .error _ => (true, [], [])) = (false, [(11, false, true)], []) := by decide +kernel

/-- C96: a process that makes a group of its own survives. -/
theorem C96_escape_fails : (match run (new true []) [.start 10, .time [.fork 10 11, .leave 11], .stop 100 true [quiet, quiet, quiet]] with
    | .ok s => (s.running, s.k.ps.map fun p => (p.pid, p.zombie, p.ours))
    | .error _ => (true, [])) = (false, [(11, false, true)]) := by decide +kernel

/-- C96: if the number of a group that is gone is given to another process, that process gets the signals. -/
theorem C96_stranger_fails : (match run (new true []) [.start 10, .time [.fork 10 11, .exit 10], .wait 0 true [quiet], .time [.exit 11, .stranger 10 10 false], .kill 15] with
    | .ok s => s.log.map fun e => (e.1, e.2.pid, e.2.ours)
    | .error _ => []) = [(15, 10, false)] := by decide +kernel

end Props
