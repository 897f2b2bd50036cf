import Verif.Model.RawIp
/- C146: packets of an IP protocol. -/
namespace Props
open Wv Wv.RawIp
open Spec.Addr (Addr)
open Spec.RawIp (Act expected last)

namespace RiP

/-- The answers of the system in a call. -/
def replies : RawIp.Op → List Sent
  | .write _ a _ b => [a, b]
  | .flush _ a => [a]
  | .read _ => []

/-- What a call is to the user. -/
def actOf : RawIp.Op → Act
  | .write d _ _ _ => .write d
  | .flush _ _ => .nothing
  | .read none => .nothing
  | .read (some p) => .came p

/-- The bytes sent are the first of those taken; all others wait if it is open. -/
def Good (s : Raw × List Byte) : Prop :=
  s.1.sent.flatMap (·.2) <+: s.2 ∧ (s.1.open_ = true → s.1.sent.flatMap (·.2) ++ s.1.outbuf = s.2)

theorem once_good (c : Raw) (t : List Byte) (n : Nat) (a : Sent) (h : Good (c, t)) : Good (flushOnce c n a, t) := by
  obtain ⟨h1, h2⟩ := h
  unfold flushOnce
  split
  · exact ⟨h1, h2⟩
  · rename_i he
    split
    · rename_i ho
      exact ⟨h1, fun q => absurd q (by simpa using ho)⟩
    · rename_i ho
      have ho : c.open_ = true := by simpa using ho
      have h2 := h2 ho
      have ht : (c.outbuf.take (n + 1)).isEmpty = false := by
        cases hb : c.outbuf with
        | nil => rw [hb] at he; exact absurd rfl he
        | cons x l => rfl
      unfold uwrite
      rw [ho, ht]
      cases a with
      | ok =>
        simp only [Bool.not_true, Bool.or_false, Bool.false_eq_true, if_false, ho, if_true]
        have e : c.outbuf.drop (c.outbuf.take (n + 1)).length = c.outbuf.drop (n + 1) := by
          rw [List.length_take]
          rcases Nat.le_total (n + 1) c.outbuf.length with q | q
          · rw [Nat.min_eq_left q]
          · rw [Nat.min_eq_right q, List.drop_length, List.drop_eq_nil_of_le q]
        have : (c.sent ++ [(c.remaddr, c.outbuf.take (n + 1))]).flatMap (·.2) ++ c.outbuf.drop (c.outbuf.take (n + 1)).length = t := by
          rw [e, List.flatMap_append]; simp only [List.flatMap_cons, List.flatMap_nil, List.append_nil, List.append_assoc, List.take_append_drop]
          exact h2
        exact ⟨⟨_, this⟩, fun _ => this⟩
      | fail e =>
        simp only [Bool.not_true, Bool.or_false, Bool.false_eq_true, if_false]
        split
        · exact ⟨h1, nofun⟩
        · simp only [ho, if_true, List.drop_zero]
          exact ⟨h1, fun _ => h2⟩

theorem step_good (s : Raw × List Byte) (o : RawIp.Op) (h : Good s) : Good (RawIp.step s o) := by
  obtain ⟨c, t⟩ := s
  cases o with
  | flush n a => exact once_good c t n a h
  | read r =>
    unfold RawIp.step RawIp.uread
    dsimp only
    split
    · exact h
    · split <;> exact h
  | write d a n b =>
    unfold RawIp.step RawIp.write
    dsimp only
    split
    · dsimp only; rw [List.take_zero, List.append_nil]; exact h
    · rename_i hd
      have ho : c.open_ = true := by
        cases q : c.open_ with
        | true => rfl
        | false => rw [q] at hd; exact absurd rfl hd
      have hd : d.isEmpty = false := by
        cases q : d.isEmpty with
        | false => rfl
        | true => rw [q] at hd; simp at hd
      dsimp only
      rw [List.take_length]
      apply once_good
      obtain ⟨h1, h2⟩ := h
      have h2 := h2 ho
      dsimp only at h1 h2
      split
      · rename_i hb
        have hb : c.outbuf = [] := List.isEmpty_iff.1 hb
        rw [hb, List.append_nil] at h2
        unfold uwrite
        rw [ho, hd]
        simp only [Bool.not_true, Bool.or_false, Bool.false_eq_true, if_false]
        cases a with
        | ok =>
          have : (c.sent ++ [(c.remaddr, d)]).flatMap (·.2) = t ++ d := by rw [List.flatMap_append, h2]; simp
          dsimp only
          unfold Good
          dsimp only
          rw [this, hb, List.drop_length]
          exact ⟨List.prefix_refl _, fun _ => by simp⟩
        | fail e =>
          dsimp only
          split
          · exact ⟨h1.trans (List.prefix_append _ _), nofun⟩
          · refine ⟨h1.trans (List.prefix_append _ _), fun _ => ?_⟩
            dsimp only
            rw [hb, h2]; rfl
      · refine ⟨h1.trans (List.prefix_append _ _), fun _ => ?_⟩
        dsimp only
        rw [List.drop_zero, ← List.append_assoc, h2]

theorem run_good : ∀ (ops : List RawIp.Op) (s : Raw × List Byte), Good s → Good (ops.foldl RawIp.step s)
  | [], _, h => h
  | o :: ops, s, h => run_good ops _ (step_good s o h)

theorem once_empty (c : Raw) (n : Nat) (a : Sent) (h : c.outbuf = []) : flushOnce c n a = c := by
  unfold flushOnce; rw [if_pos (by rw [h]; rfl)]

theorem once_open (c : Raw) (n : Nat) (a : Sent) (h : c.open_ = true) (ha : a ≠ .fail 13) : (flushOnce c n a).open_ = true := by
  have hu : ∀ d, (uwrite c d a).1.open_ = true := by
    intro d
    unfold uwrite
    split
    · exact h
    · split
      · exact h
      · split
        · rename_i e _ he; exact absurd (by rw [he]) ha
        · exact h
  unfold flushOnce
  split
  · exact h
  · split
    · rename_i q; rw [h] at q; cases q
    · dsimp only
      rw [if_pos (hu _)]; exact hu _

theorem all_sent : ∀ (ops : List RawIp.Op) (c : Raw) (t : List Byte), c.open_ = true → c.outbuf = [] → (∀ o ∈ ops, ∀ a ∈ replies o, a = .ok) →
    (ops.foldl RawIp.step (c, t)).1.sent = c.sent ++ expected c.remaddr (ops.map actOf) ∧ (ops.foldl RawIp.step (c, t)).1.remaddr = last c.remaddr (ops.map actOf)
  | [], c, t, _, _, _ => by simp [expected, last]
  | o :: ops, c, t, ho, hb, ha => by
    have hrest := fun o' q => ha o' (List.mem_cons_of_mem _ q)
    cases o with
    | flush n a =>
      have := all_sent ops c t ho hb hrest
      simp only [List.foldl_cons, RawIp.step, once_empty c n a hb]
      exact this
    | read r =>
      have e : RawIp.uread c r = match r with | none => c | some p => { c with remaddr := p } := by
        unfold RawIp.uread; rw [if_neg (by rw [ho]; decide)]; cases r <;> rfl
      simp only [List.foldl_cons, RawIp.step, e]
      cases r with
      | none => exact all_sent ops c t ho hb hrest
      | some p => exact all_sent ops { c with remaddr := p } t ho hb hrest
    | write d a n b =>
      have ea : a = .ok := ha _ List.mem_cons_self a (by simp [replies])
      subst ea
      cases d with
      | nil =>
        have := all_sent ops c (t ++ []) ho hb hrest
        simpa [RawIp.step, RawIp.write, expected, last, actOf] using this
      | cons x d =>
        have := all_sent ops { c with sent := c.sent ++ [(c.remaddr, x :: d)] } (t ++ (x :: d)) ho hb hrest
        simp only [List.foldl_cons]
        have e : RawIp.step (c, t) (.write (x :: d) .ok n b) = ({ c with sent := c.sent ++ [(c.remaddr, x :: d)] }, t ++ (x :: d)) := by
          simp [RawIp.step, RawIp.write, uwrite, ho, hb, flushOnce]
        rw [e]
        refine ⟨this.1.trans ?_, this.2⟩
        simp [expected, actOf]

end RiP

/-- C146: while the system takes all packets, each write that is not empty is a packet of its own, to the address from which one came last. -/
theorem C146_packets_partial (p : Addr) (ops : List RawIp.Op) (ha : ∀ o ∈ ops, ∀ a ∈ RiP.replies o, a = .ok) :
    (RawIp.run (RawIp.new p) ops).1.sent = expected p (ops.map RiP.actOf) ∧ src (RawIp.run (RawIp.new p) ops).1 = last p (ops.map RiP.actOf) := by
  have := RiP.all_sent ops (RawIp.new p) [] rfl rfl ha
  exact ⟨by rw [show expected p (ops.map RiP.actOf) = [] ++ expected p (ops.map RiP.actOf) from rfl]; exact this.1, this.2⟩

/-- C146: whatever the system does, the bytes sent are those that were written, in order and each once, and while it is ok all others wait. -/
theorem C146_bytes (p : Addr) (ops : List RawIp.Op) : let r := RawIp.run (RawIp.new p) ops
    r.1.sent.flatMap (·.2) <+: r.2 ∧ (r.1.open_ = true → r.1.sent.flatMap (·.2) ++ r.1.outbuf = r.2) :=
  RiP.run_good ops _ ⟨List.prefix_refl _, fun _ => rfl⟩

/-- C146: errors do not close it, except "permission denied". -/
theorem C146_errors (p : Addr) (ops : List RawIp.Op) (ha : ∀ o ∈ ops, .fail 13 ∉ RiP.replies o) : (RawIp.run (RawIp.new p) ops).1.open_ = true := by
  have key : ∀ (ops : List RawIp.Op) (s : Raw × List Byte), (∀ o ∈ ops, .fail 13 ∉ RiP.replies o) → s.1.open_ = true → (ops.foldl RawIp.step s).1.open_ = true := by
    intro ops
    induction ops with
    | nil => intro s _ h; exact h
    | cons o ops ih =>
      intro s ha h
      refine ih _ (fun o' q => ha o' (List.mem_cons_of_mem _ q)) ?_
      have hn := ha o List.mem_cons_self
      cases o with
      | flush n a => exact RiP.once_open _ n a h (fun q => hn (by simp [RiP.replies, q]))
      | read r =>
        unfold RawIp.step RawIp.uread
        dsimp only
        split
        · exact h
        · split <;> exact h
      | write d a n b =>
        simp only [RiP.replies, List.mem_cons, List.not_mem_nil, or_false, not_or] at hn
        unfold RawIp.step RawIp.write
        dsimp only
        split
        · exact h
        · refine RiP.once_open _ n b ?_ (fun q => hn.2 q.symm)
          dsimp only
          split
          · unfold uwrite
            split
            · exact h
            · split
              · exact h
              · split
                · rename_i e _ he; exact absurd (by rw [he]) hn.1
                · exact h
          · exact h
  exact key ops _ ha rfl

example : (RawIp.run (RawIp.new ⟨10, 0, 0, 1⟩) [.write [1] .ok 0 .ok, .read (some ⟨10, 0, 0, 2⟩), .write [2, 3] .ok 0 .ok]).1.sent = [(⟨10, 0, 0, 1⟩, [1]), (⟨10, 0, 0, 2⟩, [2, 3])] := by
  decide +kernel
example : (RawIp.run (RawIp.new ⟨10, 0, 0, 1⟩) [.write [1] (.fail 101) 0 (.fail 101), .flush 0 (.fail 13), .write [2] .ok 0 .ok]) = (⟨false, ⟨10, 0, 0, 1⟩, [], []⟩, [1]) := by decide +kernel

/-- C146 fails if the system refuses a packet: it waits, although a comment says that it must not, and is merged with the next one; and both go to whom was heard of meanwhile. -/
theorem C146_merge_fails : (RawIp.run (RawIp.new ⟨10, 0, 0, 1⟩) [.write [1] (.fail 101) 0 (.fail 101), .read (some ⟨10, 0, 0, 2⟩), .write [2] .ok 1 .ok]).1.sent = [(⟨10, 0, 0, 2⟩, [1, 2])] := by
  decide +kernel

end Props
