import Verif.Model.Pty
/-!
C125: programs on a terminal of their own.
-/
namespace Props
open Wv Wv.Pty
open Spec.Pty

namespace PtyP

/-- The loops as one. -/
def scan (sys : Text → Opened) : List (Byte × Byte) → Round × List Ev
  | [] => (.more, [])
  | p :: l =>
    match round sys p.1 p.2 with
    | (.more, e) => let r := scan sys l; (r.1, e ++ r.2)
    | r => r

theorem scan_cons (sys : Text → Opened) (p : Byte × Byte) (l : List (Byte × Byte)) : scan sys (p :: l) =
    match round sys p.1 p.2 with
    | (.more, e) => ((scan sys l).1, e ++ (scan sys l).2)
    | r => r := rfl

theorem inner_scan (sys : Text → Opened) (x : Byte) (ys : List Byte) : inner sys x ys = scan sys (ys.map fun y => (x, y)) := by
  induction ys with
  | nil => rfl
  | cons y l ih =>
    unfold inner
    rw [List.map_cons, ih]
    rfl

theorem scan_append (sys : Text → Opened) (a b : List (Byte × Byte)) : scan sys (a ++ b) =
    match scan sys a with
    | (.more, e) => ((scan sys b).1, e ++ (scan sys b).2)
    | r => r := by
  induction a with
  | nil => rfl
  | cons p a ih =>
    rw [List.cons_append, scan_cons, scan_cons, ih]
    rcases round sys p.1 p.2 with ⟨r, e⟩
    cases r with
    | more =>
      dsimp only
      rcases scan sys a with ⟨r', e'⟩
      cases r' with
      | more => simp
      | none => rfl
      | pair m s => rfl
    | none => rfl
    | pair m s => rfl

/-- Running out of pairs is giving up. -/
def last (r : Round × List Ev) : Round × List Ev :=
  match r with
  | (.more, e) => (.none, e)
  | r => r

theorem outer_scan (sys : Text → Opened) (ys xs : List Byte) : outer sys ys xs = last (scan sys (xs.flatMap fun x => ys.map fun y => (x, y))) := by
  induction xs with
  | nil => rfl
  | cons x xs ih =>
    unfold outer
    rw [ih, inner_scan, List.flatMap_cons, scan_append]
    rcases scan sys (ys.map fun y => (x, y)) with ⟨r, e⟩
    cases r with
    | more =>
      dsimp only
      rcases scan sys (xs.flatMap fun x => ys.map fun y => (x, y)) with ⟨r', e'⟩
      cases r' <;> rfl
    | none => rfl
    | pair m s => rfl

theorem open_scan (sys : Text → Opened) : openPty sys = last (scan sys pairs) := outer_scan sys yvals xvals

theorem round_more (sys : Text → Opened) (p : Byte × Byte) : (round sys p.1 p.2).1 = .more ↔ Busy sys p := by
  unfold round Busy
  have e1 : ptyName p.1 p.2 = masterName p := rfl
  have e2 : ttyName p.1 p.2 = slaveName p := rfl
  rw [e1, e2]
  cases hm : sys (masterName p) with
  | fd m =>
    cases hs : sys (slaveName p) <;> simp
  | noent => simp
  | other => simp

/-- The descriptors that are open after some events. -/
def left : List Ev → List Nat → List Nat
  | [], l => l
  | .opened _ n :: e, l => left e (l ++ [n])
  | .closed n :: e, l => left e (l.filter (· != n))

theorem left_append (a b : List Ev) (l : List Nat) : left (a ++ b) l = left b (left a l) := by
  induction a generalizing l with
  | nil => rfl
  | cons x a ih => cases x <;> exact ih _

theorem round_left (sys : Text → Opened) (p : Byte × Byte) : left (round sys p.1 p.2).2 [] = match (round sys p.1 p.2).1 with | .pair m s => [m, s] | _ => [] := by
  unfold round
  split
  · split <;> simp [left]
  · rfl
  · rfl

theorem scan_eq (sys : Text → Opened) (l : List (Byte × Byte)) : left (scan sys l).2 [] = (match (scan sys l).1 with | .pair m s => [m, s] | _ => []) ∧
    ∀ m s, (scan sys l).1 = .pair m s ↔ ∃ a p b, l = a ++ p :: b ∧ (∀ q ∈ a, Busy sys q) ∧ sys (masterName p) = .fd m ∧ sys (slaveName p) = .fd s := by
  induction l with
  | nil => exact ⟨rfl, fun m s => ⟨fun h => (by cases h), fun ⟨a, p, b, h, _⟩ => (by cases a <;> cases h)⟩⟩
  | cons p l ih =>
    have hr := round_left sys p
    have hb := round_more sys p
    have hp : ∀ m s, (round sys p.1 p.2).1 = .pair m s ↔ sys (masterName p) = .fd m ∧ sys (slaveName p) = .fd s := by
      intro m s
      unfold round
      have e1 : ptyName p.1 p.2 = masterName p := rfl
      have e2 : ttyName p.1 p.2 = slaveName p := rfl
      rw [e1, e2]
      cases hm : sys (masterName p) with
      | fd m => cases hs : sys (slaveName p) <;> simp
      | noent => simp
      | other => simp
    rw [scan_cons]
    generalize round sys p.1 p.2 = v at hr hb hp ⊢
    obtain ⟨r, e⟩ := v
    dsimp only at hr hb hp
    have stop : ∀ m s, ¬ Busy sys p → (r = .pair m s ↔ ∃ a q b, p :: l = a ++ q :: b ∧ (∀ q ∈ a, Busy sys q) ∧ sys (masterName q) = .fd m ∧ sys (slaveName q) = .fd s) := by
      intro m s hn
      constructor
      · intro h
        exact ⟨[], p, l, rfl, (fun _ h => by cases h), (hp m s).1 h⟩
      · rintro ⟨a, q, b, h1, h2, h3⟩
        cases a with
        | nil =>
          cases h1
          exact (hp m s).2 h3
        | cons x a =>
          simp only [List.cons_append, List.cons.injEq] at h1
          exact absurd (h1.1 ▸ h2 x (by simp)) hn
    cases r with
    | more =>
      dsimp only at hr hp ⊢
      refine ⟨by rw [left_append, hr]; exact ih.1, fun m s => ?_⟩
      rw [ih.2]
      constructor
      · rintro ⟨a, q, b, h1, h2, h3⟩
        refine ⟨p :: a, q, b, by rw [h1]; rfl, fun x hx => ?_, h3⟩
        rcases List.mem_cons.1 hx with rfl | hx
        · exact hb.1 rfl
        · exact h2 x hx
      · rintro ⟨a, q, b, h1, h2, h3⟩
        cases a with
        | nil =>
          cases h1
          have := (hp m s).2 h3
          cases this
        | cons x a =>
          simp only [List.cons_append, List.cons.injEq] at h1
          exact ⟨a, q, b, h1.2, fun y hy => h2 y (List.mem_cons_of_mem _ hy), h3⟩
    | none =>
      dsimp only at hr hp ⊢
      exact ⟨hr, fun m s => stop m s (fun x => by have := hb.2 x; cases this)⟩
    | pair m' s' =>
      dsimp only at hr hp ⊢
      exact ⟨hr, fun m s => stop m s (fun x => by have := hb.2 x; cases this)⟩

end PtyP

/-- C125 (finding a terminal): the terminal is the first pair, in the order of the names, that can be opened, if all before it are in use; and what is open afterwards is the pair
    that was found, or nothing. -/
theorem C125_open (sys : Text → Opened) :
    (∀ m s, (openPty sys).1 = .pair m s ↔ ∃ a p b, pairs = a ++ p :: b ∧ (∀ q ∈ a, Busy sys q) ∧ sys (masterName p) = .fd m ∧ sys (slaveName p) = .fd s) ∧
    PtyP.left (openPty sys).2 [] = match (openPty sys).1 with | .pair m s => [m, s] | _ => [] := by
  obtain ⟨h1, h2⟩ := PtyP.scan_eq sys pairs
  rw [PtyP.open_scan]
  generalize PtyP.scan sys pairs = v at h1 h2 ⊢
  obtain ⟨r, e⟩ := v
  dsimp only at h1 h2
  cases r with
  | more =>
    refine ⟨fun m s => ?_, h1⟩
    rw [← h2]
    exact ⟨fun h => (by cases h), fun h => (by cases h)⟩
  | none => exact ⟨h2, h1⟩
  | pair m s => exact ⟨h2, h1⟩

/-- The first is in use and the second one's slave is: the third is taken. -/
example : let sys : Text → Opened := fun n => if n = masterName (ch 'p', ch '0') then .other else if n = slaveName (ch 'p', ch '1') then .other else if n = masterName (ch 'p', ch '2') then .fd 7 else if n = slaveName (ch 'p', ch '2') then .fd 8 else .fd 3
    openPty sys = (.pair 7 8, [.opened (masterName (ch 'p', ch '1')) 3, .closed 3, .opened (masterName (ch 'p', ch '2')) 7, .opened (slaveName (ch 'p', ch '2')) 8]) := by decide +kernel

/-- C125 (the object): if a terminal is found and the program is started, the object has the pid and the descriptor of the master, and the slave is closed. If no terminal is found,
    nothing is left open. -/
theorem C125_make (sys : Text → Opened) : (∀ m s p, (openPty sys).1 = .pair m s → m ≠ s → ∃ st e, make sys (some p) true = .obj st e ∧ st.pid = some p ∧ st.fd = some m ∧ PtyP.left e [] = [m]) ∧
    ∀ fork c, (∀ m s, (openPty sys).1 ≠ .pair m s) → ∃ st e, make sys fork c = .obj st e ∧ st.pid = none ∧ st.fd = none ∧ PtyP.left e [] = [] := by
  have h := (C125_open sys).2
  unfold make
  generalize openPty sys = v at h ⊢
  obtain ⟨r, e⟩ := v
  cases r with
  | pair m s =>
    refine ⟨fun m' s' p h1 hne => ?_, fun _ _ h1 => absurd rfl (h1 m s)⟩
    cases h1
    refine ⟨_, _, rfl, rfl, rfl, ?_⟩
    dsimp only at h
    rw [PtyP.left_append, h]
    simp [PtyP.left, hne]
  | more => exact ⟨fun _ _ _ h1 => (by cases h1), fun _ _ _ => ⟨_, _, rfl, rfl, rfl, h⟩⟩
  | none => exact ⟨fun _ _ _ h1 => (by cases h1), fun _ _ _ => ⟨_, _, rfl, rfl, rfl, h⟩⟩

/-- C125 (leaks): if the process cannot be forked, both terminals stay open, and no object has them. -/
theorem C125_leak_fails (sys : Text → Opened) (m s : Nat) (c : Bool) (h : (openPty sys).1 = .pair m s) : ∃ st e, make sys none c = .obj st e ∧ st.fd = none ∧ PtyP.left e [] = [m, s] := by
  have h2 := (C125_open sys).2
  unfold make
  generalize openPty sys = v at h h2 ⊢
  obtain ⟨r, e⟩ := v
  cases h
  exact ⟨_, _, rfl, rfl, h2⟩

/-- C125 (the parent): if closing the slave fails in the parent, the parent ends, as if it were the child. -/
theorem C125_parent_fails (sys : Text → Opened) (m s p : Nat) (h : (openPty sys).1 = .pair m s) : make sys (some p) false = .exit 242 := by
  unfold make
  generalize openPty sys = v at h ⊢
  obtain ⟨r, e⟩ := v
  cases h
  rfl

/-- C125 (the names): `master` and `slave` are null for all objects: the names are never stored. -/
theorem C125_names_fails (sys : Text → Opened) (fork : Option Nat) (c : Bool) (st : St) (e : List Ev) (h : make sys fork c = .obj st e) : st.master = none ∧ st.slave = none := by
  unfold make at h
  split at h
  · split at h
    · cases h; exact ⟨rfl, rfl⟩
    · split at h
      · cases h; exact ⟨rfl, rfl⟩
      · cases h
  · cases h; exact ⟨rfl, rfl⟩

example : ∃ sys : Text → Opened, (openPty sys).1 = .pair 3 4 := ⟨fun n => if n.contains (ch 'p') && n.contains (ch 'y') && n.take 8 = str "/dev/pty".toList then .fd 3 else .fd 4, by decide +kernel⟩

namespace PtyP

/-- A step is ok if the program is run. -/
theorem step_exec {ok : Step → Bool} {c d : Child} {s : Step} {f : Child → Child} {k : Child → Run} (h : step ok c s f k = .exec d) : ok s = true ∧ k (f c) = .exec d := by
  unfold step at h
  split at h
  · rename_i hs; exact ⟨hs, h⟩
  · cases h

theorem step_exit {ok : Step → Bool} {c d : Child} {s : Step} {f : Child → Child} {k : Child → Run} {n : Nat} (h : step ok c s f k = .exit n d) (hk : k (f c) = .exit n d → n = 242) : n = 242 := by
  unfold step at h
  split at h
  · exact hk h
  · cases h; rfl

theorem block_eq (n : Nat) (c : Child) : (block n c).fds = c.fds ∧ (block n c).session = c.session ∧ (block n c).pre = c.pre ∧ (block n c).post = c.post ∧
    (∀ f, c.fds n = some f → (block n c).nonblock f = false) ∧ ∀ f, c.nonblock f = false → (block n c).nonblock f = false := by
  unfold block
  split
  · rename_i f hf
    refine ⟨rfl, rfl, rfl, rfl, fun g hg => ?_, fun g hg => ?_⟩
    · rw [hf] at hg; cases hg; simp [upd]
    · dsimp only [upd]; split
      · rfl
      · exact hg
  · rename_i hn
    exact ⟨rfl, rfl, rfl, rfl, fun g hg => (by rw [hn] at hg; cases hg), fun _ h => h⟩

end PtyP

/-- C125 (the program): if the program is run, every step was fine, and the callback that is called before, if there is one, was called and agreed. The program is in a session of its own; its three
    standard descriptors are the slave, which blocks; the master and the extra descriptor of the slave are closed, and all others are as they were. -/
theorem C125_exec (ok : Step → Bool) (hasPre hasPost : Bool) (m s : Nat) (c d : Child) (f : Nat) (hm : m ≠ s) (hs : c.fds s = some f) (h : child ok hasPre hasPost m s c = .exec d) :
    d.session = true ∧ d.fds 0 = some f ∧ d.fds 1 = some f ∧ d.fds 2 = some f ∧ d.nonblock f = false ∧ (2 < m → d.fds m = none) ∧ (2 < s → d.fds s = none) ∧
    (∀ n, 2 < n → n ≠ m → n ≠ s → d.fds n = c.fds n) ∧ (hasPre = true → ok .pre = true ∧ d.pre = true) ∧ d.post = c.post ∧ ok .exec = true ∧ ok .setsid = true ∧ ok .closeMaster = true := by
  unfold child at h
  obtain ⟨o1, h⟩ := PtyP.step_exec h
  obtain ⟨o2, h⟩ := PtyP.step_exec h
  simp only [dups] at h
  obtain ⟨o3, h⟩ := PtyP.step_exec h
  obtain ⟨o4, h⟩ := PtyP.step_exec h
  obtain ⟨o5, h⟩ := PtyP.step_exec h
  -- the child after the duplications
  let c1 : Child := { c with fds := upd c.fds m none, session := true }
  let c2 : Child := { c1 with fds := upd c1.fds 0 (c1.fds s) }
  let c3 : Child := { c2 with fds := upd c2.fds 1 (c2.fds s) }
  let c4 : Child := { c3 with fds := upd c3.fds 2 (c3.fds s) }
  have e1 : c1.fds s = some f := by show upd c.fds m none s = _; simp [upd, Ne.symm hm, hs]
  have e2 : c2.fds s = some f ∧ c2.fds 0 = some f := by
    constructor
    · show upd c1.fds 0 (c1.fds s) s = _; unfold upd; split <;> exact e1
    · show upd c1.fds 0 (c1.fds s) 0 = _; simp [upd, e1]
  have e3 : c3.fds s = some f ∧ c3.fds 0 = some f ∧ c3.fds 1 = some f := by
    refine ⟨?_, ?_, ?_⟩
    · show upd c2.fds 1 (c2.fds s) s = _; unfold upd; split <;> exact e2.1
    · show upd c2.fds 1 (c2.fds s) 0 = _; simp [upd, e2.2]
    · show upd c2.fds 1 (c2.fds s) 1 = _; simp [upd, e2.1]
  have e4 : c4.fds s = some f ∧ c4.fds 0 = some f ∧ c4.fds 1 = some f ∧ c4.fds 2 = some f := by
    refine ⟨?_, ?_, ?_, ?_⟩
    · show upd c3.fds 2 (c3.fds s) s = _; unfold upd; split <;> exact e3.1
    · show upd c3.fds 2 (c3.fds s) 0 = _; simp [upd, e3.2.1]
    · show upd c3.fds 2 (c3.fds s) 1 = _; simp [upd, e3.2.2]
    · show upd c3.fds 2 (c3.fds s) 2 = _; simp [upd, e3.1]
  have eo : ∀ n, 2 < n → c4.fds n = upd c.fds m none n := by
    intro n hn
    have n0 : n ≠ 0 := by omega
    have n1 : n ≠ 1 := by omega
    have n2 : n ≠ 2 := by omega
    show upd c3.fds 2 _ n = _
    rw [show upd c3.fds 2 (c3.fds s) n = c3.fds n from by simp [upd, n2]]
    show upd c2.fds 1 _ n = _
    rw [show upd c2.fds 1 (c2.fds s) n = c2.fds n from by simp [upd, n1]]
    show upd c1.fds 0 _ n = _
    rw [show upd c1.fds 0 (c1.fds s) n = c1.fds n from by simp [upd, n0]]
  -- what comes after the extra descriptor is closed
  have tail : ∀ b : Child, b.fds 0 = some f → b.fds 1 = some f → b.fds 2 = some f → b.session = true → b.post = c.post →
      (setfls ok [0, 1, 2] b fun c => if hasPre then (if ok .pre then (if ok .exec then .exec { c with pre := true } else .exit 242 { c with pre := true, post := hasPost }) else .exit 242 { c with pre := true })
        else (if ok .exec then .exec c else .exit 242 { c with post := hasPost })) = .exec d →
      d.fds = b.fds ∧ d.session = true ∧ d.nonblock f = false ∧ (hasPre = true → ok .pre = true ∧ d.pre = true) ∧ d.post = c.post ∧ ok .exec = true := by
    intro b b0 b1 b2 bs bp hb
    simp only [setfls] at hb
    obtain ⟨_, hb⟩ := PtyP.step_exec hb
    obtain ⟨_, hb⟩ := PtyP.step_exec hb
    obtain ⟨_, hb⟩ := PtyP.step_exec hb
    obtain ⟨k1, k2, k3, k4, k5, k6⟩ := PtyP.block_eq 0 b
    obtain ⟨l1, l2, l3, l4, l5, l6⟩ := PtyP.block_eq 1 (block 0 b)
    obtain ⟨m1, m2, m3, m4, m5, m6⟩ := PtyP.block_eq 2 (block 1 (block 0 b))
    have hf : (block 2 (block 1 (block 0 b))).fds = b.fds := m1.trans (l1.trans k1)
    have hse : (block 2 (block 1 (block 0 b))).session = true := m2.trans (l2.trans (k2.trans bs))
    have hpo : (block 2 (block 1 (block 0 b))).post = c.post := m4.trans (l4.trans (k4.trans bp))
    have hnb : (block 2 (block 1 (block 0 b))).nonblock f = false := m6 f (l6 f (k5 f b0))
    generalize block 2 (block 1 (block 0 b)) = z at hb hf hse hpo hnb
    cases hasPre with
    | true =>
      simp only [if_true] at hb
      split at hb
      · rename_i hp
        split at hb
        · rename_i he
          cases hb
          exact ⟨hf, hse, hnb, fun _ => ⟨hp, rfl⟩, hpo, he⟩
        · cases hb
      · cases hb
    | false =>
      simp only [Bool.false_eq_true, if_false] at hb
      split at hb
      · rename_i he
        cases hb
        exact ⟨hf, hse, hnb, fun x => (by cases x), hpo, he⟩
      · cases hb
  by_cases h2 : 2 < s
  · rw [if_pos h2] at h
    obtain ⟨_, h⟩ := PtyP.step_exec h
    have s0 : (0 : Nat) ≠ s := by omega
    have s1 : (1 : Nat) ≠ s := by omega
    have s2 : (2 : Nat) ≠ s := by omega
    obtain ⟨t1, t2, t3, t4, t5, t6⟩ := tail { c4 with fds := upd c4.fds s none } (by show upd c4.fds s none 0 = _; simp [upd, s0, e4.2.1]) (by show upd c4.fds s none 1 = _; simp [upd, s1, e4.2.2.1])
      (by show upd c4.fds s none 2 = _; simp [upd, s2, e4.2.2.2]) rfl rfl h
    have g : ∀ n, d.fds n = upd c4.fds s none n := fun n => by rw [t1]
    refine ⟨t2, ?_, ?_, ?_, t3, ?_, ?_, ?_, t4, t5, t6, o2, o1⟩
    · rw [g]; simp [upd, s0, e4.2.1]
    · rw [g]; simp [upd, s1, e4.2.2.1]
    · rw [g]; simp [upd, s2, e4.2.2.2]
    · intro hm2
      rw [g]; unfold upd
      rw [if_neg hm, eo m hm2]; simp [upd]
    · intro _
      rw [g]; simp [upd]
    · intro n hn hnm hns
      rw [g]; unfold upd
      rw [if_neg hns, eo n hn]; simp [upd, hnm]
  · rw [if_neg h2] at h
    obtain ⟨t1, t2, t3, t4, t5, t6⟩ := tail c4 e4.2.1 e4.2.2.1 e4.2.2.2 rfl rfl h
    have g : ∀ n, d.fds n = c4.fds n := fun n => by rw [t1]
    refine ⟨t2, (g 0).trans e4.2.1, (g 1).trans e4.2.2.1, (g 2).trans e4.2.2.2, t3, ?_, fun x => absurd x h2, ?_, t4, t5, t6, o2, o1⟩
    · intro hm2
      rw [g, eo m hm2]; simp [upd]
    · intro n hn hnm _
      rw [g, eo n hn]; simp [upd, hnm]

/-- A child that starts with a master at 3 and a slave at 4, and a file at 5, on which the callback agrees. -/
example : ∃ d, child (fun _ => true) true false 3 4 ⟨fun n => if n < 6 then some (n + 10) else none, false, fun _ => true, false, false⟩ = .exec d ∧
    d.fds 0 = some 14 ∧ d.fds 1 = some 14 ∧ d.fds 2 = some 14 ∧ d.fds 3 = none ∧ d.fds 4 = none ∧ d.fds 5 = some 15 ∧ d.nonblock 14 = false ∧ d.pre = true := ⟨_, rfl, by decide +kernel⟩

/-- C125 (a program that cannot be run): if anything fails, the child ends with 242, and never goes on as a copy of the parent. -/
theorem C125_exit (ok : Step → Bool) (hasPre hasPost : Bool) (m s : Nat) (c : Child) :
    (∃ d, child ok hasPre hasPost m s c = .exec d) ∨ ∃ d, child ok hasPre hasPost m s c = .exit 242 d := by
  cases h : child ok hasPre hasPost m s c with
  | exec d => exact Or.inl ⟨d, rfl⟩
  | exit n d =>
    refine Or.inr ⟨d, ?_⟩
    have : n = 242 := by
      unfold child at h
      refine PtyP.step_exit h fun h => PtyP.step_exit h fun h => ?_
      simp only [dups] at h
      refine PtyP.step_exit h fun h => PtyP.step_exit h fun h => PtyP.step_exit h fun h => ?_
      have rest : ∀ b : Child, (setfls ok [0, 1, 2] b fun c => if hasPre then (if ok .pre then (if ok .exec then .exec { c with pre := true } else .exit 242 { c with pre := true, post := hasPost }) else .exit 242 { c with pre := true })
        else (if ok .exec then .exec c else .exit 242 { c with post := hasPost })) = .exit n d → n = 242 := by
        intro b hb
        simp only [setfls] at hb
        refine PtyP.step_exit hb fun h => PtyP.step_exit h fun h => PtyP.step_exit h fun h => ?_
        split at h
        · split at h
          · split at h
            · cases h
            · cases h; rfl
          · cases h; rfl
        · split at h
          · cases h
          · cases h; rfl
      split at h
      · exact PtyP.step_exit h fun h => rest _ h
      · exact rest _ h
    rw [this]

/-- C125 (all steps): the program is run if nothing fails, whichever callbacks there are. -/
theorem C125_runs (ok : Step → Bool) (hasPre hasPost : Bool) (m s : Nat) (c : Child) (h : ∀ x, ok x = true) : ∃ d, child ok hasPre hasPost m s c = .exec d := by
  unfold child
  simp only [step, dups, setfls, h, if_true]
  split <;> split <;> exact ⟨_, rfl⟩

namespace PtyP

theorem exit_raw (c : Nat) (h : c < 256) : wexitstatus (Fate.exit c).raw = c ∧ wifsignaled (Fate.exit c).raw = false := by
  unfold wexitstatus wifsignaled Fate.raw
  dsimp only
  have h2 : c * 256 % 128 = 0 := by omega
  exact ⟨by omega, by rw [h2]; rfl⟩

theorem signal_raw (n : Nat) (core : Bool) (h : 0 < n ∧ n < 127) : wexitstatus (Fate.signal n core).raw = 0 ∧ wifsignaled (Fate.signal n core).raw = true ∧ wtermsig (Fate.signal n core).raw = n := by
  unfold wexitstatus wifsignaled wtermsig Fate.raw
  dsimp only
  have h2 : (n + (if core = true then 128 else 0)) % 128 = n := by split <;> omega
  refine ⟨by split <;> omega, ?_, h2⟩
  rw [h2]
  simp [h.1, h.2]

/-- The state of an object whose program was started: not waited for, or waited for. -/
def Known (f : Fate) (p : Nat) (w : World) : Prop := w.obj.pid = some p ∨ (w.obj.pid = none ∧ w.obj.raw = f.raw ∧ w.ended = true)

theorem monitor_known {f : Fate} {p : Nat} {w : World} (h : Known f p w) (wait : Bool) : Known f p (w.monitor f wait) ∧ (w.monitor f wait).ended = (w.ended || wait) ∧
    ((w.monitor f wait).obj.pid.isNone = (w.ended || wait)) ∧ (w.monitor f wait).sent = w.sent ∧ ((w.ended || wait) = true → (w.monitor f wait).obj.raw = f.raw) := by
  unfold World.monitor
  rcases h with h | ⟨h1, h2, h3⟩
  · rw [h]
    dsimp only
    cases hw : (w.ended || wait) with
    | true => exact ⟨Or.inr ⟨rfl, rfl, rfl⟩, rfl, rfl, rfl, fun _ => rfl⟩
    | false =>
      have he : w.ended = false := by cases h : w.ended <;> simp [h] at hw ⊢
      simp only [Bool.false_eq_true, if_false]
      exact ⟨Or.inl h, he, by rw [h]; rfl, trivial, fun x => x.elim⟩
  · rw [h1]
    dsimp only
    refine ⟨Or.inr ⟨h1, h2, h3⟩, by rw [h3]; rfl, by rw [h1, h3]; rfl, rfl, fun _ => h2⟩

theorem op_known {f : Fate} (hf : f.Ok) {p : Nat} {w : World} (h : Known f p w) (o : Op) (hk : o = .finish → ∃ c, f = .exit c) :
    (w.op f o).1 = expected f w.ended o ∧ Known f p (w.op f o).2 ∧ (w.op f o).2.ended = (w.ended || o = .ends || o = .finish) := by
  cases o with
  | ends =>
    refine ⟨rfl, ?_, by simp [World.op]⟩
    rcases h with h | ⟨h1, h2, h3⟩
    · exact Or.inl h
    · exact Or.inr ⟨h1, h2, rfl⟩
  | kill n =>
    unfold World.op
    dsimp only
    split
    · exact ⟨rfl, h, by simp⟩
    · rename_i q hq
      refine ⟨rfl, ?_, by simp⟩
      rcases h with h | ⟨h1, h2, h3⟩
      · exact Or.inl h
      · rw [h1] at hq; cases hq
  | exited =>
    obtain ⟨m1, m2, m3, m4, m5⟩ := monitor_known h false
    refine ⟨?_, m1, by simpa [World.op] using m2⟩
    simp only [World.op, expected, m3, Bool.or_false]
  | killed =>
    obtain ⟨m1, m2, m3, m4, m5⟩ := monitor_known h false
    refine ⟨?_, m1, by simpa [World.op] using m2⟩
    simp only [World.op, expected, m3, Bool.or_false]
    cases he : w.ended with
    | false => rfl
    | true =>
      rw [m5 (by rw [he]; rfl)]
      cases f with
      | exit c => rw [(exit_raw c hf).2]
      | signal n core => rw [(signal_raw n core hf).2.1]
  | finish =>
    obtain ⟨m1, m2, m3, m4, m5⟩ := monitor_known h true
    refine ⟨?_, m1, by simpa [World.op] using m2⟩
    obtain ⟨c, rfl⟩ := hk rfl
    simp only [World.op, expected]
    rw [m5 (by simp), (exit_raw c hf).1]
  | status =>
    obtain ⟨m1, m2, m3, m4, m5⟩ := monitor_known h false
    obtain ⟨n1, n2, n3, n4, n5⟩ := monitor_known m1 false
    unfold World.op
    dsimp only
    cases he : w.ended with
    | false =>
      rw [he] at m3
      rw [m3]
      simp only [Bool.or_false, Bool.false_eq_true, if_false]
      exact ⟨rfl, m1, by rw [m2, he]; rfl⟩
    | true =>
      rw [he] at m3 m2
      rw [m3]
      simp only [Bool.true_or, if_true]
      rw [m2] at n3 n2 n5
      refine ⟨?_, n1, by rw [n2]; rfl⟩
      rw [n3, n5 rfl]
      cases f with
      | exit c => rw [(exit_raw c hf).2, (exit_raw c hf).1]; rfl
      | signal n core => rw [(signal_raw n core hf).2.1, (signal_raw n core hf).2.2]; rfl

theorem run_known {f : Fate} (hf : f.Ok) {p : Nat} : ∀ (l : List Op) (w : World), Known f p w → (.finish ∈ l → ∃ c, f = .exit c) → (w.run f l).1 = answers f w.ended l := by
  intro l
  induction l with
  | nil => intro w _ _; rfl
  | cons o l ih =>
    intro w h hk
    obtain ⟨h1, h2, h3⟩ := op_known hf h o (fun e => hk (by simp [e]))
    unfold World.run
    dsimp only
    rw [h1, ih _ h2 (fun x => hk (List.mem_cons_of_mem _ x)), h3]
    rfl

end PtyP

/-- C125 (how the program ended, the part that holds): in every history of calls, while the program runs it is said to run, with the status 242; after it has ended, it is said to
    have ended, with its code or the signal that killed it, for ever; and `finish` waits for it and gives its code, if it was not killed. -/
theorem C125_status_partial (f : Fate) (hf : f.Ok) (p : Nat) (fd : Option Nat) (l : List Op) (hk : .finish ∈ l → ∃ c, f = .exit c) :
    (World.run f ⟨⟨some p, 242, fd, none, none⟩, false, []⟩ l).1 = answers f false l :=
  PtyP.run_known hf l _ (Or.inl rfl) hk

example : answers (.exit 3) false [.exited, .status, .ends, .killed, .exited, .status, .finish] = [.bool false, .int 242, .unit, .bool false, .bool true, .int 3, .int 3] ∧
    answers (.signal 9 true) false [.kill 9, .killed, .ends, .killed, .status] = [.unit, .bool false, .unit, .bool true, .int 9] := by decide +kernel

/-- C125 (programs that are killed): for a program that is killed by a signal, `finish` gives 0, as for one that was fine. -/
theorem C125_finish_fails (n : Nat) (core : Bool) (hn : 0 < n ∧ n < 127) (p : Nat) (fd : Option Nat) :
    (World.run (.signal n core) ⟨⟨some p, 242, fd, none, none⟩, false, []⟩ [.finish]).1 = [.int 0] ∧ answers (.signal n core) false [.finish] = [.int n] := by
  refine ⟨?_, rfl⟩
  show [Ret.int (wexitstatus (Fate.signal n core).raw)] = _
  rw [(PtyP.signal_raw n core hn).1]

/-- C125 (programs that were not started): if the terminal or the process could not be had, the object says that the program was killed, by the signal 114; and that it ended with 0. -/
theorem C125_unstarted_fails (sys : Text → Opened) (c : Bool) (f : Fate) : ∃ st e, make sys none c = .obj st e ∧
    (World.run f ⟨st, false, []⟩ [.exited, .killed, .status, .finish]).1 = [.bool true, .bool true, .int 114, .int 0] := by
  have key : (World.run f ⟨⟨none, 242, none, none, none⟩, false, []⟩ [.exited, .killed, .status, .finish]).1 = [.bool true, .bool true, .int 114, .int 0] := by
    simp [World.run, World.op, World.monitor, wifsignaled, wtermsig, wexitstatus]
  unfold make
  split <;> exact ⟨_, _, rfl, key⟩

namespace PtyP

theorem monitor_pid (f : Fate) (w : World) (wait : Bool) : ((w.monitor f wait).obj.pid = w.obj.pid ∨ (w.monitor f wait).obj.pid = none) ∧ (w.monitor f wait).sent = w.sent := by
  unfold World.monitor
  split
  · exact ⟨Or.inl rfl, rfl⟩
  · split
    · exact ⟨Or.inr rfl, rfl⟩
    · exact ⟨Or.inl rfl, rfl⟩

theorem op_pid (f : Fate) (w : World) (o : Op) : ((w.op f o).2.obj.pid = w.obj.pid ∨ (w.op f o).2.obj.pid = none) ∧
    ((w.op f o).2.sent = w.sent ∨ ∃ p n, w.obj.pid = some p ∧ o = .kill n ∧ (w.op f o).2.sent = w.sent ++ [(p, n)]) := by
  cases o with
  | ends => exact ⟨Or.inl rfl, Or.inl rfl⟩
  | kill n =>
    unfold World.op
    dsimp only
    split
    · exact ⟨Or.inl rfl, Or.inl rfl⟩
    · rename_i p hp
      exact ⟨Or.inl rfl, Or.inr ⟨p, n, hp, rfl, rfl⟩⟩
  | exited => exact ⟨(monitor_pid f w false).1, Or.inl (monitor_pid f w false).2⟩
  | killed => exact ⟨(monitor_pid f w false).1, Or.inl (monitor_pid f w false).2⟩
  | finish => exact ⟨(monitor_pid f w true).1, Or.inl (monitor_pid f w true).2⟩
  | status =>
    obtain ⟨h1, h2⟩ := monitor_pid f w false
    obtain ⟨g1, g2⟩ := monitor_pid f (w.monitor f false) false
    unfold World.op
    dsimp only
    split
    · refine ⟨?_, Or.inl (g2.trans h2)⟩
      rcases g1 with g1 | g1
      · rcases h1 with h1 | h1
        · exact Or.inl (g1.trans h1)
        · exact Or.inr (g1.trans h1)
      · exact Or.inr g1
    · exact ⟨h1, Or.inl h2⟩

theorem run_sent (f : Fate) : ∀ (l : List Op) (w : World), ∃ t, (w.run f l).2.sent = w.sent ++ t ∧ (∀ x ∈ t, w.obj.pid = some x.1) ∧ (t.map (·.2)).Sublist (l.filterMap fun o => match o with | .kill n => some n | _ => none) := by
  intro l
  induction l with
  | nil => intro w; exact ⟨[], by simp [World.run], (fun _ h => by cases h), by simp⟩
  | cons o l ih =>
    intro w
    obtain ⟨h1, h2⟩ := op_pid f w o
    obtain ⟨t, e1, e2, e3⟩ := ih (w.op f o).2
    have hr : (w.run f (o :: l)).2 = ((w.op f o).2.run f l).2 := rfl
    have e2' : ∀ x ∈ t, w.obj.pid = some x.1 := by
      intro x hx
      rcases h1 with h1 | h1
      · rw [← h1]; exact e2 x hx
      · have := e2 x hx
        rw [h1] at this; cases this
    rcases h2 with h2 | ⟨p, n, hp, rfl, h2⟩
    · refine ⟨t, by rw [hr, e1, h2], e2', ?_⟩
      cases o with
      | kill n => exact e3.trans (by simp)
      | _ => exact e3
    · refine ⟨(p, n) :: t, by rw [hr, e1, h2]; simp, fun x hx => ?_, ?_⟩
      · rcases List.mem_cons.1 hx with rfl | hx
        · exact hp
        · exact e2' x hx
      · simpa using e3

end PtyP

/-- C125 (signals): in every history, signals are sent to the process of the program only, no others than those asked for and in order; none after the object has noticed that it ended, so that another
    process with the same pid gets none; and none by an object that has no process. -/
theorem C125_kill (f : Fate) (w : World) (l : List Op) : ∃ t, (w.run f l).2.sent = w.sent ++ t ∧ (∀ x ∈ t, w.obj.pid = some x.1) ∧
    (t.map (·.2)).Sublist (l.filterMap fun o => match o with | .kill n => some n | _ => none) ∧ (w.obj.pid = none → t = []) := by
  obtain ⟨t, h1, h2, h3⟩ := PtyP.run_sent f l w
  refine ⟨t, h1, h2, h3, fun hn => ?_⟩
  cases t with
  | nil => rfl
  | cons x t =>
    have := h2 x (by simp)
    rw [hn] at this; cases this

/-- C125 (signals that arrive): while the object has not noticed the end, a signal is sent; from then on none is. -/
theorem C125_sent (f : Fate) (p : Nat) (w : World) (n : Nat) (l : List Op) : (w.obj.pid = some p → (w.op f (.kill n)).2.sent = w.sent ++ [(p, n)]) ∧
    (w.obj.pid.isSome → w.ended = true → ((w.op f .exited).2.run f l).2.sent = w.sent) := by
  constructor
  · intro h
    simp [World.op, h]
  · intro h he
    have hp : (w.op f .exited).2.obj.pid = none ∧ (w.op f .exited).2.sent = w.sent := by
      unfold World.op World.monitor
      cases hw : w.obj.pid with
      | none => rw [hw] at h; cases h
      | some q => simp [he]
    obtain ⟨t, h1, _, _, h4⟩ := C125_kill f (w.op f .exited).2 l
    rw [h1, h4 hp.1, hp.2]; simp

example : (World.run (.exit 0) ⟨⟨some 5, 242, none, none, none⟩, false, []⟩ [.kill 15, .ends, .kill 9, .exited, .kill 9]).2.sent = [(5, 15), (5, 9)] := by decide +kernel

end Props
