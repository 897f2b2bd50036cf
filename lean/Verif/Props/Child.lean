import Verif.Model.Child
import Verif.Props.Split
/- C111: what a child process has. -/
namespace Props
open Wv Wv.Child Spec.Child

namespace ChP

theorem set_at (p : Proc) (n m : Nat) (e) : (p.set n e).table m = if m = n then e else p.table m := rfl
theorem close_at (p : Proc) (n m : Nat) : (p.close n).table m = if m = n then none else p.table m := rfl
theorem setfd_at (p : Proc) (n m : Nat) (b) : (p.setfd n b).table m = if m = n then (p.table n).map (fun e => ⟨e.file, b⟩) else p.table m := by
  unfold Proc.setfd
  cases h : p.table n with
  | none =>
    dsimp only
    split
    · rename_i e; subst e; exact h
    · rfl
  | some e => rfl
theorem setfd_nb (p : Proc) (n : Nat) (b) : (p.setfd n b).nonblock = p.nonblock := by
  unfold Proc.setfd; split <;> rfl
theorem setfl_at (p : Proc) (n : Nat) (b) : (p.setfl n b).table = p.table := by
  unfold Proc.setfl; split <;> rfl
theorem setfl_nb (p : Proc) (n : Nat) (b) (f : Nat) : (p.setfl n b).nonblock f = if (p.table n).map (·.file) = some f then b else p.nonblock f := by
  unfold Proc.setfl
  cases h : p.table n with
  | none => simp
  | some e => simp [eq_comm]
theorem exec_at (p : Proc) (n : Nat) : p.exec.table n = (p.table n).filter (!·.cloexec) := by
  unfold Proc.exec
  dsimp only
  cases h : p.table n with
  | none => rfl
  | some e => cases hc : e.cloexec <;> simp [Option.filter, hc]

theorem give_ne (g : Given) (i : Nat) (w : Want) (p : Proc) (m : Nat) (h : m ≠ i) : (give g i w p).table m = p.table m := by
  unfold give Proc.dup2
  cases w with
  | pipe =>
    dsimp only
    split
    · rfl
    · split
      · rfl
      · rw [set_at, if_neg h]
  | nothing => dsimp only; rw [close_at, if_neg h]
  | fd n =>
    dsimp only
    split
    · rfl
    · split
      · rfl
      · rw [set_at, if_neg h]

theorem give_nb (g : Given) (i : Nat) (w : Want) (p : Proc) : (give g i w p).nonblock = p.nonblock := by
  unfold give Proc.dup2
  cases w with
  | pipe => dsimp only; split; · rfl
            split <;> rfl
  | nothing => rfl
  | fd n => dsimp only; split; · rfl
            split <;> rfl

/-- The open file that is given. -/
theorem give_file (g : Given) (i : Nat) (w : Want) (p : Proc) (h1 : (p.table g.s1).map (·.file) = some g.f1)
    (h2 : ∀ n, w = .fd n → p.table n ≠ none) : ((give g i w p).table i).map (·.file) = w.file g.f1 p.table := by
  unfold give Proc.dup2
  cases w with
  | pipe =>
    dsimp only [Want.file]
    cases hs : p.table g.s1 with
    | none => rw [hs] at h1; cases h1
    | some e =>
      rw [hs] at h1
      dsimp only
      split
      · rename_i he; rw [← he, hs]; exact h1
      · rw [set_at, if_pos rfl]; exact h1
  | nothing => dsimp only [Want.file]; rw [close_at, if_pos rfl]; rfl
  | fd n =>
    dsimp only [Want.file]
    cases hs : p.table n with
    | none => exact absurd hs (h2 n rfl)
    | some e =>
      dsimp only
      split
      · rename_i he; rw [← he, hs]
      · rw [set_at, if_pos rfl]; rfl

theorem file_congr (f : Nat) {a b : Table} (w : Want) (h : ∀ n, w = .fd n → a n = b n) : w.file f a = w.file f b := by
  cases w with
  | pipe => rfl
  | nothing => rfl
  | fd n => simp only [Want.file]; rw [h n rfl]

end ChP

/-- C111 (partial, see the theorems below): the child of a pipe has as its standard input, output and errors what was asked for, and these are
    not closed by `exec` and do block; of its other descriptors it has those of the parent that are not closed by `exec`, and the end of
    the pipe just if it would not have it otherwise. The parent has its end of the pipe, which does not block and which other children do not get, and
    else what it had. This holds when the parent has its standard descriptors open, so that new ones have other numbers, and those given are not
    standard ones with other numbers. -/
theorem C111_pipe_partial (g : Given) (p : Proc) (h : g.Fresh p) (h3 : 3 ≤ g.s0 ∧ 3 ≤ g.s1 ∧ 3 ≤ g.w0 ∧ 3 ≤ g.w1) (w0 w1 w2 : Want)
    (k0 : w0.plain p.table 0) (k1 : w1.plain p.table 1) (k2 : w2.plain p.table 2) :
    let c := (setup g w0 w1 w2 p).1
    let q := (setup g w0 w1 w2 p).2
    (c.table 0 = (w0.file g.f1 p.table).map (⟨·, false⟩) ∧ c.table 1 = (w1.file g.f1 p.table).map (⟨·, false⟩) ∧ c.table 2 = (w2.file g.f1 p.table).map (⟨·, false⟩)) ∧
    (∀ i < 3, ∀ e, c.table i = some e → c.nonblock e.file = false) ∧
    (∀ n, 3 ≤ n → c.table n = if n = g.s1 then (if w0 ≠ .pipe ∧ w1 ≠ .pipe ∧ w2 ≠ .pipe then some ⟨g.f1, false⟩ else none) else (p.table n).filter (!·.cloexec)) ∧
    (∀ n, q.table n = if n = g.s0 then some ⟨g.f0, true⟩ else p.table n) ∧ q.nonblock = c.nonblock ∧
    (∀ f, c.nonblock f = if some f = w0.file g.f1 p.table ∨ some f = w1.file g.f1 p.table ∨ some f = w2.file g.f1 p.table then false else if f = g.f0 then true else p.nonblock f) := by
  obtain ⟨b1, b2, b3, b4⟩ := h3
  obtain ⟨e1, e2, e3, e4⟩ := h.free
  have hfd := h.fds
  simp only [List.nodup_cons, List.mem_cons, List.not_mem_nil, or_false, not_or] at hfd
  obtain ⟨⟨d1, d2, d3⟩, ⟨d4, d5⟩, d6, _⟩ := hfd
  -- the child before the choices
  obtain ⟨r, hr⟩ : ∃ r : Proc, r = (((((pair p g).set g.w0 (some ⟨g.g0, false⟩)).set g.w1 (some ⟨g.g1, false⟩)).close g.w0).close g.s0) := ⟨_, rfl⟩
  have ht : ∀ n, r.table n = if n = g.s1 then some ⟨g.f1, false⟩ else if n = g.w1 then some ⟨g.g1, false⟩ else p.table n := by
    intro n
    rw [hr]
    simp only [ChP.close_at, ChP.set_at, pair, ChP.setfl_at]
    split
    · rename_i x; subst x
      rw [if_neg d1, if_neg d3, e1]
    split
    · rename_i x; subst x
      rw [if_neg (Ne.symm d4), if_neg d6, e3]
    split
    · rename_i x; subst x
      rw [if_neg (Ne.symm d5)]
    rename_i x1 x2 x3
    split
    · rfl
    · rfl
  have hn : ∀ n, p.table n ≠ none → r.table n = p.table n := by
    intro n h0
    rw [ht, if_neg (by intro x; subst x; exact h0 e2), if_neg (by intro x; subst x; exact h0 e4)]
  have h1 : r.table g.s1 = some ⟨g.f1, false⟩ := by rw [ht, if_pos rfl]
  have hb : ∀ f, r.nonblock f = if f = g.f0 then true else p.nonblock f := by
    intro f
    rw [hr]
    show (pair p g).nonblock f = _
    unfold pair
    rw [ChP.setfl_nb, ChP.set_at, if_neg d1, ChP.set_at, if_pos rfl]
    simp [eq_comm]; rfl
  -- the choices
  obtain ⟨t, hT⟩ : ∃ t : Proc, t = give g 2 w2 (give g 1 w1 (give g 0 w0 r)) := ⟨_, rfl⟩
  have t0 : (t.table 0).map (·.file) = w0.file g.f1 p.table := by
    rw [hT, ChP.give_ne _ _ _ _ _ (by decide), ChP.give_ne _ _ _ _ _ (by decide)]
    rw [ChP.give_file _ _ _ _ (by rw [h1]; rfl) (by intro n x; subst x; rw [hn n k0.2]; exact k0.2)]
    exact ChP.file_congr _ _ (by intro n x; subst x; exact hn n k0.2)
  have q1 : ∀ n, w1 = .fd n → (give g 0 w0 r).table n = p.table n := by
    intro n x
    subst x
    rw [ChP.give_ne _ _ _ _ _ (by have := k1.1; omega), hn n k1.2]
  have t1 : (t.table 1).map (·.file) = w1.file g.f1 p.table := by
    rw [hT, ChP.give_ne _ _ _ _ _ (by decide)]
    rw [ChP.give_file _ _ _ _ (by rw [ChP.give_ne _ _ _ _ _ (by omega), h1]; rfl) (by intro n x; rw [q1 n x]; subst x; exact k1.2)]
    exact ChP.file_congr _ _ q1
  have q2 : ∀ n, w2 = .fd n → (give g 1 w1 (give g 0 w0 r)).table n = p.table n := by
    intro n x
    subst x
    rw [ChP.give_ne _ _ _ _ _ (by have := k2.1; omega), ChP.give_ne _ _ _ _ _ (by have := k2.1; omega), hn n k2.2]
  have t2 : (t.table 2).map (·.file) = w2.file g.f1 p.table := by
    rw [hT]
    rw [ChP.give_file _ _ _ _ (by rw [ChP.give_ne _ _ _ _ _ (by omega), ChP.give_ne _ _ _ _ _ (by omega), h1]; rfl) (by intro n x; rw [q2 n x]; subst x; exact k2.2)]
    exact ChP.file_congr _ _ q2
  have t3 : ∀ n, 3 ≤ n → t.table n = r.table n := by
    intro n x
    rw [hT, ChP.give_ne _ _ _ _ _ (by omega), ChP.give_ne _ _ _ _ _ (by omega), ChP.give_ne _ _ _ _ _ (by omega)]
  have tb : t.nonblock = r.nonblock := by rw [hT, ChP.give_nb, ChP.give_nb, ChP.give_nb]
  -- the flags
  obtain ⟨u, hu⟩ : ∃ u : Proc, u = ((t.setfd 0 false).setfd 1 false).setfd 2 false := ⟨_, rfl⟩
  have ul : ∀ i, i < 3 → u.table i = ((t.table i).map (·.file)).map (⟨·, false⟩) := by
    intro i x
    rw [hu]
    simp only [ChP.setfd_at]
    have : i = 0 ∨ i = 1 ∨ i = 2 := by omega
    rcases this with rfl | rfl | rfl <;> simp [Option.map_map, Function.comp_def]
  have u3 : ∀ n, 3 ≤ n → u.table n = r.table n := by
    intro n x
    rw [hu]
    simp only [ChP.setfd_at]
    rw [if_neg (by omega), if_neg (by omega), if_neg (by omega), t3 n x]
  have ub : u.nonblock = r.nonblock := by rw [hu, ChP.setfd_nb, ChP.setfd_nb, ChP.setfd_nb, tb]
  obtain ⟨v, hv⟩ : ∃ v : Proc, v = ((u.setfl 0 false).setfl 1 false).setfl 2 false := ⟨_, rfl⟩
  have vt : v.table = u.table := by rw [hv, ChP.setfl_at, ChP.setfl_at, ChP.setfl_at]
  have uf : ∀ i, i < 3 → (u.table i).map (·.file) = (t.table i).map (·.file) := by
    intro i x; rw [ul i x]; simp [Option.map_map, Function.comp_def]
  have vb : ∀ f, v.nonblock f = if some f = w0.file g.f1 p.table ∨ some f = w1.file g.f1 p.table ∨ some f = w2.file g.f1 p.table then false else if f = g.f0 then true else p.nonblock f := by
    intro f
    rw [hv]
    simp only [ChP.setfl_nb, ChP.setfl_at]
    rw [uf 0 (by decide), uf 1 (by decide), uf 2 (by decide), t0, t1, t2, ub, hb]
    by_cases a0 : some f = w0.file g.f1 p.table
    · simp [← a0]
    · by_cases a1 : some f = w1.file g.f1 p.table
      · simp [← a1]
      · by_cases a2 : some f = w2.file g.f1 p.table
        · simp [← a2]
        · have a3 : ¬ (some f = w0.file g.f1 p.table ∨ some f = w1.file g.f1 p.table ∨ some f = w2.file g.f1 p.table) :=
            fun x => x.elim a0 (fun x => x.elim a1 a2)
          rw [if_neg (Ne.symm a2), if_neg (Ne.symm a1), if_neg (Ne.symm a0), if_neg a3]
  have hc : (setup g w0 w1 w2 p).1 = ((if w0 ≠ .pipe ∧ w1 ≠ .pipe ∧ w2 ≠ .pipe then v.setfd g.s1 false else v.close g.s1).close g.w1).exec := by
    rw [hv, hu, hT, hr]; rfl
  have cb : (setup g w0 w1 w2 p).1.nonblock = v.nonblock := by
    rw [hc]
    show (if w0 ≠ .pipe ∧ w1 ≠ .pipe ∧ w2 ≠ .pipe then v.setfd g.s1 false else v.close g.s1).nonblock = _
    split
    · rw [ChP.setfd_nb]
    · rfl
  have ct : ∀ n, n ≠ g.s1 → n ≠ g.w1 → (setup g w0 w1 w2 p).1.table n = (u.table n).filter (!·.cloexec) := by
    intro n x y
    rw [hc, ChP.exec_at, ChP.close_at, if_neg y]
    split
    · rw [ChP.setfd_at, if_neg x, vt]
    · rw [ChP.close_at, if_neg x, vt]
  have cl : ∀ i, i < 3 → (setup g w0 w1 w2 p).1.table i = ((t.table i).map (·.file)).map (⟨·, false⟩) := by
    intro i x
    rw [ct i (by omega) (by omega), ul i x]
    cases (t.table i).map (·.file) <;> rfl
  refine ⟨⟨?_, ?_, ?_⟩, ?_, ?_, ?_, rfl, ?_⟩
  · rw [cl 0 (by decide), t0]
  · rw [cl 1 (by decide), t1]
  · rw [cl 2 (by decide), t2]
  · intro i x e he
    rw [cb, vb, if_pos]
    rw [cl i x] at he
    have hf : (t.table i).map (·.file) = some e.file := by
      cases hz : (t.table i).map (·.file) with
      | none => rw [hz] at he; cases he
      | some z => rw [hz] at he; cases he; rfl
    have : i = 0 ∨ i = 1 ∨ i = 2 := by omega
    rcases this with rfl | rfl | rfl
    · exact Or.inl (by rw [← hf, t0])
    · exact Or.inr (Or.inl (by rw [← hf, t1]))
    · exact Or.inr (Or.inr (by rw [← hf, t2]))
  · intro n x
    by_cases y : n = g.s1
    · subst y
      rw [if_pos rfl, hc, ChP.exec_at, ChP.close_at, if_neg d5]
      split
      · rw [ChP.setfd_at, if_pos rfl, vt, u3 _ b2, h1]; rfl
      · rw [ChP.close_at, if_pos rfl]; rfl
    · rw [if_neg y]
      by_cases z : n = g.w1
      · subst z
        rw [hc, ChP.exec_at, ChP.close_at, if_pos rfl, e4]
      · rw [ct n y z, u3 n x, ht, if_neg y, if_neg z]
  · intro n
    show (((pair p g).setfd g.s0 true).close g.s1).table n = _
    rw [ChP.close_at, ChP.setfd_at]
    simp only [pair, ChP.setfl_at, ChP.set_at]
    by_cases y : n = g.s0
    · subst y
      rw [if_neg d1, if_pos rfl, if_pos rfl, if_neg d1, if_pos trivial]; rfl
    · rw [if_neg y, if_neg y, if_neg y]
      split
      · rename_i z; rw [z, e2]
      · rfl
  · intro f
    show (setup g w0 w1 w2 p).1.nonblock f = _
    rw [cb, vb]

namespace ChP

theorem only_pipe (f : Nat) (t : Table) (w : Want) (x : Nat) (hw : ∀ n e, t n = some e → e.file ≠ x) (hf : f ≠ x) : w.file f t ≠ some x := by
  cases w with
  | pipe => simp only [Want.file]; intro a; exact hf (Option.some.inj a)
  | nothing => simp [Want.file]
  | fd n =>
    simp only [Want.file]
    cases h : t n with
    | none => simp
    | some e => intro a; exact hw n e h (Option.some.inj a)

end ChP

/-- C111: so the pipe ends just when it should: the child has its own end of it, and the parent has not; and the child has not the parent's
    end, nor has it either end of the pipe by which the parent waits for it. -/
theorem C111_end (g : Given) (p : Proc) (h : g.Fresh p) (h3 : 3 ≤ g.s0 ∧ 3 ≤ g.s1 ∧ 3 ≤ g.w0 ∧ 3 ≤ g.w1) (w0 w1 w2 : Want)
    (k0 : w0.plain p.table 0) (k1 : w1.plain p.table 1) (k2 : w2.plain p.table 2) :
    (∃ n e, (setup g w0 w1 w2 p).1.table n = some e ∧ e.file = g.f1) ∧
    (∀ n e, (setup g w0 w1 w2 p).2.table n = some e → e.file ≠ g.f1) ∧
    (∀ n e, (setup g w0 w1 w2 p).1.table n = some e → e.file ≠ g.f0 ∧ e.file ≠ g.g0 ∧ e.file ≠ g.g1) := by
  obtain ⟨⟨a0, a1, a2⟩, _, a3, a4, _, _⟩ := C111_pipe_partial g p h h3 w0 w1 w2 k0 k1 k2
  have hf := h.files
  simp only [List.nodup_cons, List.mem_cons, List.not_mem_nil, or_false, not_or] at hf
  obtain ⟨⟨c1, c2, c3⟩, ⟨c4, c5⟩, c6, _⟩ := hf
  refine ⟨?_, ?_, ?_⟩
  · by_cases x0 : w0 = .pipe
    · subst x0; exact ⟨0, _, a0, rfl⟩
    by_cases x1 : w1 = .pipe
    · subst x1; exact ⟨1, _, a1, rfl⟩
    by_cases x2 : w2 = .pipe
    · subst x2; exact ⟨2, _, a2, rfl⟩
    have := a3 g.s1 h3.2.1
    rw [if_pos rfl, if_pos ⟨x0, x1, x2⟩] at this
    exact ⟨_, _, this, rfl⟩
  · intro n e he
    rw [a4] at he
    split at he
    · cases he; exact c1
    · exact (h.new n e he).2.1
  · intro n e he
    have hlow : ∀ w : Want, (w.file g.f1 p.table).map (⟨·, false⟩) = some e → e.file ≠ g.f0 ∧ e.file ≠ g.g0 ∧ e.file ≠ g.g1 := by
      intro w hw
      have hw' : w.file g.f1 p.table = some e.file := by
        cases hz : w.file g.f1 p.table with
        | none => rw [hz] at hw; cases hw
        | some z => rw [hz] at hw; cases hw; rfl
      refine ⟨?_, ?_, ?_⟩ <;> intro x <;> rw [x] at hw'
      · exact ChP.only_pipe _ _ _ _ (fun n e he => (h.new n e he).1) (Ne.symm c1) hw'
      · exact ChP.only_pipe _ _ _ _ (fun n e he => (h.new n e he).2.2.1) c4 hw'
      · exact ChP.only_pipe _ _ _ _ (fun n e he => (h.new n e he).2.2.2) c5 hw'
    by_cases hn : 3 ≤ n
    · rw [a3 n hn] at he
      split at he
      · split at he
        · cases he; exact ⟨Ne.symm c1, c4, c5⟩
        · cases he
      · cases hp : p.table n with
        | none => rw [hp] at he; cases he
        | some e' =>
          rw [hp] at he
          have : e' = e := by
            cases hcx : e'.cloexec <;> simp [Option.filter, hcx] at he
            exact he
          subst this
          have := h.new n e' hp
          exact ⟨this.1, this.2.2.1, this.2.2.2⟩
    · have : n = 0 ∨ n = 1 ∨ n = 2 := by omega
      rcases this with rfl | rfl | rfl
      · rw [a0] at he; exact hlow _ he
      · rw [a1] at he; exact hlow _ he
      · rw [a2] at he; exact hlow _ he

/-- The parent of the examples: 0, 1 and 2 are a terminal, 3 a file that `exec` closes, 4 one that it does not. -/
def ChP.par : Proc :=
  { table := fun n => if n < 3 then some ⟨0, false⟩ else if n = 3 then some ⟨1, true⟩ else if n = 4 then some ⟨2, false⟩ else none
    nonblock := fun f => f = 2 }
def ChP.giv : Given := { s0 := 5, s1 := 6, f0 := 10, f1 := 11, w0 := 7, w1 := 8, g0 := 12, g1 := 13 }

theorem ChP.fresh : ChP.giv.Fresh ChP.par where
  fds := by decide
  free := by decide
  files := by decide
  new := by
    intro n e h
    unfold ChP.par at h
    dsimp only at h
    split at h
    · cases h; decide
    · split at h
      · cases h; decide
      · split at h
        · cases h; decide
        · cases h

/-- A case: input from the file, output to the pipe, errors where the parent has them. -/
example : (3 ≤ ChP.giv.s0 ∧ 3 ≤ ChP.giv.s1 ∧ 3 ≤ ChP.giv.w0 ∧ 3 ≤ ChP.giv.w1) ∧ Want.plain ChP.par.table 0 (.fd 3) ∧ Want.plain ChP.par.table 1 .pipe ∧
    Want.plain ChP.par.table 2 (.fd 2) ∧
    (List.range 9).map (setup ChP.giv (.fd 3) .pipe (.fd 2) ChP.par).1.table =
      [some ⟨1, false⟩, some ⟨11, false⟩, some ⟨0, false⟩, none, some ⟨2, false⟩, none, none, none, none] := by
  refine ⟨by decide, ?_, trivial, ?_, by decide +kernel⟩ <;> simp [Want.plain, ChP.par]

/-- C111 fails: of a parent that has no standard input and output a child gets no pipe for its output, although it was asked for. -/
theorem C111_closed_fails : ¬ ∀ (g : Given) (p : Proc), g.Fresh p → ((setup g .nothing .pipe .nothing p).1.table 1).map (·.file) = some g.f1 := by
  intro h
  have := h { s0 := 0, s1 := 1, f0 := 10, f1 := 11, w0 := 3, w1 := 4, g0 := 12, g1 := 13 } ⟨fun n => if n = 2 then some ⟨0, false⟩ else none, fun _ => false⟩
    ⟨by decide, by decide, by decide, by
      intro n e h
      dsimp only at h
      split at h
      · cases h; decide
      · cases h⟩
  exact absurd this (by decide +kernel)

/-- C111 fails: given its parent's standard output as input and its standard input as output, a child gets the output as both. -/
theorem C111_swapped_fails : ¬ ∀ (g : Given) (p : Proc), g.Fresh p → p.table 0 ≠ none → p.table 1 ≠ none → p.table 2 ≠ none →
    ((setup g (.fd 1) (.fd 0) .pipe p).1.table 1).map (·.file) = (p.table 0).map (·.file) := by
  intro h
  have := h ChP.giv { ChP.par with table := fun n => if n = 0 then some ⟨3, false⟩ else ChP.par.table n }
    ⟨by decide, by decide, by decide, by
      intro n e h
      dsimp only at h
      split at h
      · cases h; decide
      · exact ChP.fresh.new n e h⟩ (by decide) (by decide) (by decide)
  exact absurd this (by decide +kernel)

/-- C111 fails: an open file that the parent has as one that does not block, given to a child, blocks in the parent, too, afterwards. -/
theorem C111_shared_fails : ¬ ∀ (g : Given) (p : Proc), g.Fresh p → p.table 0 ≠ none → p.table 1 ≠ none → p.table 2 ≠ none →
    ∀ n e, p.table n = some e → (setup g (.fd n) .pipe .pipe p).2.nonblock e.file = p.nonblock e.file := by
  intro h
  have := h ChP.giv ChP.par ChP.fresh (by decide) (by decide) (by decide) 4 ⟨2, false⟩ rfl
  exact absurd this (by decide +kernel)

/-- C111 fails: when `fork` fails, the stream keeps the number of a descriptor that was closed, and two descriptors stay open. -/
theorem C111_nofork_fails : ¬ ∀ (g : Given) (p : Proc), g.Fresh p →
    (setupFails g p).1.table (setupFails g p).2 ≠ none ∨ (setupFails g p).1.table = p.table := by
  intro h
  rcases h ChP.giv ChP.par ChP.fresh with h | h
  · exact h (by decide +kernel)
  · exact absurd (congrFun h 7) (by decide +kernel)

namespace ChP

theorem fdOpen_at (fd : Nat) (got : Option (Nat × Nat)) (p : Proc) (h : ∀ n f, got = some (n, f) → (p.close fd).table n = none) (m : Nat) :
    (fdOpen fd got p).table m = if m = fd then got.map (fun x => ⟨x.2, false⟩) else p.table m := by
  unfold fdOpen
  cases got with
  | none => dsimp only; rw [close_at]; rfl
  | some x =>
    obtain ⟨n, f⟩ := x
    have hn := h n f rfl
    rw [close_at] at hn
    dsimp only
    split
    · rename_i hne
      rw [if_neg hne] at hn
      unfold Proc.dup2
      rw [set_at, if_pos rfl]
      dsimp only
      rw [if_neg hne, close_at, set_at, set_at, close_at]
      by_cases hm : m = fd
      · subst hm
        rw [if_neg (Ne.symm hne), if_pos rfl, if_pos rfl]; rfl
      · rw [if_neg hm, if_neg hm, if_neg hm]
        split
        · rename_i e; rw [e, hn]
        · rfl
    · rename_i hne
      have : n = fd := Classical.byContradiction hne
      subst this
      rw [set_at, close_at]
      split <;> rfl

end ChP

/-- What is at a descriptor when a file was named for it, or none was. -/
def ChP.named (r : Option (Option (Nat × Nat))) (old : Option Ent) : Option Ent :=
  match r with
  | none => old
  | some got => got.map (fun x => ⟨x.2, false⟩)

/-- C111: whatever descriptors the kernel gives for the files that were named, the command has these files as its standard ones, which `exec` does not close,
    and it has the other descriptors, and no more, that it would have had. Where a file could not be opened it has none. -/
theorem C111_redirect (r0 r1 r2 : Option (Option (Nat × Nat))) (p : Proc)
    (h0 : ∀ n f, r0 = some (some (n, f)) → (p.close 0).table n = none)
    (h1 : ∀ n f, r1 = some (some (n, f)) → ((redirect1 0 r0 p).close 1).table n = none)
    (h2 : ∀ n f, r2 = some (some (n, f)) → ((redirect1 1 r1 (redirect1 0 r0 p)).close 2).table n = none) :
    (redirect r0 r1 r2 p).table 0 = ChP.named r0 (p.table 0) ∧ (redirect r0 r1 r2 p).table 1 = ChP.named r1 (p.table 1) ∧
    (redirect r0 r1 r2 p).table 2 = ChP.named r2 (p.table 2) ∧ ∀ n, 3 ≤ n → (redirect r0 r1 r2 p).table n = p.table n := by
  have key : ∀ fd r (p : Proc), (∀ n f, r = some (some (n, f)) → (p.close fd).table n = none) → ∀ m,
      (redirect1 fd r p).table m = if m = fd then ChP.named r (p.table m) else p.table m := by
    intro fd r p hr m
    cases r with
    | none => simp [redirect1, ChP.named]
    | some got => exact ChP.fdOpen_at fd got p (fun n f e => hr n f (by rw [e])) m
  unfold redirect
  refine ⟨?_, ?_, ?_, ?_⟩
  · rw [key 2 r2 _ h2, key 1 r1 _ h1, key 0 r0 _ h0]; rfl
  · rw [key 2 r2 _ h2, key 1 r1 _ h1, key 0 r0 _ h0]; rfl
  · rw [key 2 r2 _ h2, key 1 r1 _ h1, key 0 r0 _ h0]; rfl
  · intro n hn
    rw [key 2 r2 _ h2, key 1 r1 _ h1, key 0 r0 _ h0, if_neg (by omega), if_neg (by omega), if_neg (by omega)]

/-- A case: input from a file, errors to another; the kernel gives 0 for the first and 5 for the second. -/
example : ((ChP.par.close 0).table 0 = none ∧ ((redirect1 1 none (redirect1 0 (some (some (0, 20))) ChP.par)).close 2).table 5 = none) ∧
    (List.range 6).map (redirect (some (some (0, 20))) none (some (some (5, 21))) ChP.par).table =
      [some ⟨20, false⟩, some ⟨0, false⟩, some ⟨21, false⟩, some ⟨1, true⟩, some ⟨2, false⟩, none] := by decide +kernel

/-- C111 fails: a file named for the output that was longer than what the command writes has afterwards its old end. -/
theorem C111_overwritten_fails : ¬ ∀ old new : Text, written old new = new := by
  intro h
  exact absurd (h [1, 2, 3] [4]) (by decide)

/-- C111: however often the result is asked for, the command runs once, and each time its status is what is returned. -/
theorem C111_once (e : Nat) (l : List (Option Nat)) (k : List (Option Nat)) (h : l = some e :: k) :
    (l.foldl System.go {}).runs = 1 ∧ (l.foldl System.go {}).estatus = e := by
  subst h
  have : ∀ (k : List (Option Nat)) (s : System), s.started = true → k.foldl System.go s = s := by
    intro k
    induction k with
    | nil => intro s _; rfl
    | cons x k ih =>
      intro s hs
      rw [List.foldl_cons]
      have : s.go x = s := by unfold System.go; rw [if_pos hs]
      rw [this, ih s hs]
  rw [List.foldl_cons, this _ _ rfl]
  exact ⟨rfl, rfl⟩

example : [some 3, some 4, none].foldl System.go {} = { started := true, runs := 1, estatus := 3 } := by decide

/-- C111 fails: a command that could not be started, since there were too many processes, has status 0, as if it had run well. -/
theorem C111_status_fails : ¬ ∀ l : List (Option Nat), l ≠ [] → (l.foldl System.go {}).estatus = 0 → 1 ≤ (l.foldl System.go {}).runs := by
  intro h
  exact absurd (h [none] (by simp) (by decide)) (by decide)

namespace ChP

theorem words (x : Text) : (Split.strict [ch '='] 0 x).headD [] = name x ∧ Split.join [ch '='] ((Split.strict [ch '='] 0 x).drop 1) = value x := by
  have hc : ∀ b : UInt8, (!([ch '='] : List UInt8).contains b) = decide (b ≠ 61) := by
    intro b
    have : ch '=' = 61 := by decide
    rw [this]
    by_cases hb : b = 61 <;> simp [hb]
  have hd : Split.upto [ch '='] x = (name x, x.dropWhile (· ≠ 61)) := by
    unfold Split.upto name
    simp only [hc]
  rw [Split.strict]
  rw [if_neg (by decide)]
  split
  · rename_i w hw
    rw [hd] at hw
    obtain ⟨e1, e2⟩ := Prod.mk.inj hw
    refine ⟨e1.symm, ?_⟩
    unfold value
    rw [e2]; rfl
  · rename_i w c e hw
    rw [hd] at hw
    obtain ⟨e1, e2⟩ := Prod.mk.inj hw
    refine ⟨e1.symm, ?_⟩
    unfold value
    rw [e2]
    show Split.join [ch '='] (Split.strict [ch '='] _ e) = e
    exact C35_join_splitstrict _ _ _

theorem step (s : EnvSt) (x : Text) : envStep s x =
    if name x = ldLibrary ∧ (s.env (name x)).isSome then
      if value x ≠ [] then
        if s.lib then none else some { s with env := setenv s.env (name x) (some (value x ++ ch ':' :: (s.env (name x)).getD [])), lib := true }
      else some s
    else if name x = ldPreload ∧ (s.env (name x)).isSome then
      if value x ≠ [] then
        if s.pre then none else some { s with env := setenv s.env (name x) (some (value x ++ ch ':' :: (s.env (name x)).getD [])), pre := true }
      else some s
    else if value x = [] then some { s with env := setenv s.env (name x) none }
    else some { s with env := setenv s.env (name x) (some (value x)) } := by
  unfold envStep
  dsimp only
  rw [(words x).1, (words x).2]

/-- The entries that set a variable. -/
def sets (n : Text) (l : List Text) : Nat := (l.filter (fun x => name x = n ∧ value x ≠ [])).length

/-- The value of a variable afterwards. -/
def after (n : Text) (old : Option Text) (l : List Text) : Option Text :=
  if n = ldLibrary ∨ n = ldPreload then merged old (l.filter (name · = n)) else plain old (l.filter (name · = n))

theorem plain_cons (old : Option Text) (x : Text) (l : List Text) : plain old (x :: l) = plain (if value x = [] then none else some (value x)) l := by
  unfold plain
  cases l with
  | nil => rfl
  | cons y l => rw [List.getLast?_cons_cons]; cases h : (y :: l).getLast? with
    | none => simp at h
    | some z => rfl

theorem after_ne (n : Text) (old : Option Text) (x : Text) (l : List Text) (h : name x ≠ n) : after n old (x :: l) = after n old l := by
  unfold after
  rw [List.filter_cons_of_neg (by simpa using h)]

theorem after_eq (n : Text) (old : Option Text) (x : Text) (l : List Text) (h : name x = n) : after n old (x :: l) =
    after n (if n = ldLibrary ∨ n = ldPreload then merged old [x] else if value x = [] then none else some (value x)) l := by
  unfold after
  rw [List.filter_cons_of_pos (by simpa using h)]
  split
  · simp only [merged]
    split <;> rfl
  · rw [plain_cons]

theorem sets_cons (n : Text) (x : Text) (l : List Text) : sets n (x :: l) = (if name x = n ∧ value x ≠ [] then 1 else 0) + sets n l := by
  unfold sets
  rw [List.filter_cons]
  by_cases h : name x = n ∧ value x ≠ []
  · rw [if_pos (by simpa using h), if_pos h, List.length_cons]; omega
  · rw [if_neg (by simpa using h), if_neg h]; omega

theorem colon : ch ':' = 58 := by decide
theorem lne : ldLibrary ≠ ldPreload := by decide

theorem loop (l : List Text) : ∀ s : EnvSt, sets ldLibrary l ≤ 1 → sets ldPreload l ≤ 1 → (s.lib = true → sets ldLibrary l = 0) →
    (s.pre = true → sets ldPreload l = 0) → ∃ s', l.foldlM envStep s = some s' ∧ ∀ n, s'.env n = after n (s.env n) l := by
  induction l with
  | nil =>
    intro s _ _ _ _
    refine ⟨s, rfl, ?_⟩
    intro n
    unfold after
    split <;> rfl
  | cons x l ih =>
    intro s c1 c2 c3 c4
    rw [sets_cons] at c1 c2 c3 c4
    have go : ∀ t : EnvSt, envStep s x = some t → (t.lib = true → sets ldLibrary l = 0) → (t.pre = true → sets ldPreload l = 0) →
        (∀ n, t.env n = if n = name x then (if n = ldLibrary ∨ n = ldPreload then merged (s.env n) [x] else if value x = [] then none else some (value x)) else s.env n) →
        ∃ s', (x :: l).foldlM envStep s = some s' ∧ ∀ n, s'.env n = after n (s.env n) (x :: l) := by
      intro t ht l1 l2 he
      obtain ⟨s', hs', hn⟩ := ih t (by omega) (by omega) l1 l2
      refine ⟨s', by rw [List.foldlM_cons, ht]; exact hs', ?_⟩
      intro n
      rw [hn n, he n]
      by_cases hx : n = name x
      · rw [if_pos hx, after_eq n _ x l hx.symm]
      · rw [if_neg hx, after_ne n _ x l (fun e => hx e.symm)]
    have hst := step s x
    by_cases hL : name x = ldLibrary ∧ (s.env (name x)).isSome
    · rw [if_pos hL] at hst
      obtain ⟨hL1, hL2⟩ := hL
      obtain ⟨old, hold⟩ := Option.isSome_iff_exists.1 hL2
      by_cases hv : value x = []
      · rw [if_neg (by simpa using hv)] at hst
        refine go s hst (fun e => by have := c3 e; omega) (fun e => by have := c4 e; omega) ?_
        intro n
        split
        · rename_i e; subst e
          rw [if_pos (Or.inl hL1)]
          simp [merged, hv]
        · rfl
      · have hl : s.lib ≠ true := by
          intro e
          have := c3 e
          rw [if_pos ⟨hL1, hv⟩] at this
          omega
        rw [if_pos hv, if_neg hl] at hst
        rw [if_pos ⟨hL1, hv⟩] at c1
        refine go _ hst (fun _ => by omega) (fun e => by have := c4 e; omega) ?_
        intro n
        show setenv s.env (name x) _ n = _
        unfold setenv
        split
        · rename_i e; subst e
          rw [if_pos (Or.inl hL1)]
          simp [merged, hv, hold, colon]
        · rfl
    · rw [if_neg hL] at hst
      by_cases hP : name x = ldPreload ∧ (s.env (name x)).isSome
      · rw [if_pos hP] at hst
        obtain ⟨hP1, hP2⟩ := hP
        obtain ⟨old, hold⟩ := Option.isSome_iff_exists.1 hP2
        by_cases hv : value x = []
        · rw [if_neg (by simpa using hv)] at hst
          refine go s hst (fun e => by have := c3 e; omega) (fun e => by have := c4 e; omega) ?_
          intro n
          split
          · rename_i e; subst e
            rw [if_pos (Or.inr hP1)]
            simp [merged, hv]
          · rfl
        · have hl : s.pre ≠ true := by
            intro e
            have := c4 e
            rw [if_pos ⟨hP1, hv⟩] at this
            omega
          rw [if_pos hv, if_neg hl] at hst
          rw [if_pos ⟨hP1, hv⟩] at c2
          refine go _ hst (fun e => by have := c3 e; omega) (fun _ => by omega) ?_
          intro n
          show setenv s.env (name x) _ n = _
          unfold setenv
          split
          · rename_i e; subst e
            rw [if_pos (Or.inr hP1)]
            simp [merged, hv, hold, colon]
          · rfl
      · rw [if_neg hP] at hst
        have hnone : name x = ldLibrary ∨ name x = ldPreload → s.env (name x) = none := by
          intro e
          rcases e with e | e
          · cases hq : s.env (name x) with
            | none => rfl
            | some z => exact absurd ⟨e, by rw [hq]; rfl⟩ hL
          · cases hq : s.env (name x) with
            | none => rfl
            | some z => exact absurd ⟨e, by rw [hq]; rfl⟩ hP
        by_cases hv : value x = []
        · rw [if_pos hv] at hst
          refine go _ hst (fun e => by have := c3 e; omega) (fun e => by have := c4 e; omega) ?_
          intro n
          show setenv s.env (name x) _ n = _
          unfold setenv
          split
          · rename_i e; subst e
            split
            · rename_i e; rw [hnone e]; simp [merged, hv]
            · first | rfl | rw [if_pos hv]
          · rfl
        · rw [if_neg hv] at hst
          refine go _ hst (fun e => by have := c3 e; omega) (fun e => by have := c4 e; omega) ?_
          intro n
          show setenv s.env (name x) _ n = _
          unfold setenv
          split
          · rename_i e; subst e
            split
            · rename_i e; rw [hnone e]; simp [merged, hv]
            · first | rfl | rw [if_neg hv]
          · rfl

end ChP

/-- C111 (partial): if a list of changes sets each of `LD_LIBRARY_PATH` and `LD_PRELOAD` at most once, the environment of the child is that of the parent
    but for the variables named in the list; of these the last entry decides, and removes the variable if its value is empty, but for the two paths,
    where the value is put in front of what the parent has. -/
theorem C111_env_partial (e : Env) (l : List Text) (h1 : (l.filter (fun x => name x = ldLibrary ∧ value x ≠ [])).length ≤ 1)
    (h2 : (l.filter (fun x => name x = ldPreload ∧ value x ≠ [])).length ≤ 1) :
    ∃ e', environment e l = some e' ∧ ∀ n, e' n =
      if n = ldLibrary ∨ n = ldPreload then merged (e n) (l.filter (name · = n)) else plain (e n) (l.filter (name · = n)) := by
  obtain ⟨s', hs, hn⟩ := ChP.loop l { env := e } h1 h2 (fun x => by cases x) (fun x => by cases x)
  refine ⟨s'.env, ?_, hn⟩
  unfold environment
  rw [hs]; rfl

example : let l := [str ['A', '=', '1'], str ['B', '='], str ['A', '=', '2', '=', '3'], ldLibrary ++ str ['=', 'x']]
    ((l.filter (fun x => name x = ldLibrary ∧ value x ≠ [])).length = 1 ∧ (l.filter (fun x => name x = ldPreload ∧ value x ≠ [])).length = 0) ∧
    plain none (l.filter (name · = str ['A'])) = some (str ['2', '=', '3']) ∧ plain (some [1]) (l.filter (name · = str ['B'])) = none ∧
    merged (some (str ['y'])) (l.filter (name · = ldLibrary)) = some (str ['x', ':', 'y']) := by decide +kernel

/-- C111 fails: a list that sets `LD_LIBRARY_PATH` twice makes the child read memory that was freed. -/
theorem C111_twice_fails : ¬ ∀ (e : Env) (l : List Text), environment e l ≠ none := by
  intro h
  apply h (fun _ => some [1]) [ldLibrary ++ str ['=', 'a'], ldLibrary ++ str ['=', 'b']]
  unfold environment
  rw [List.foldlM_cons, ChP.step]
  have e1 : name (ldLibrary ++ str ['=', 'a']) = ldLibrary := by decide +kernel
  have e2 : value (ldLibrary ++ str ['=', 'a']) = str ['a'] := by decide +kernel
  have e3 : name (ldLibrary ++ str ['=', 'b']) = ldLibrary := by decide +kernel
  have e4 : value (ldLibrary ++ str ['=', 'b']) = str ['b'] := by decide +kernel
  rw [e1, e2, if_pos ⟨rfl, rfl⟩, if_pos (by decide), if_neg (by decide)]
  show Option.map _ (List.foldlM envStep _ [ldLibrary ++ str ['=', 'b']]) = none
  rw [List.foldlM_cons, ChP.step]
  rw [e3, e4, if_pos ⟨rfl, by simp [setenv]⟩, if_pos (by decide), if_pos rfl]
  rfl

end Props
