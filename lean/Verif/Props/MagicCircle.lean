import Verif.Lemmas.MagicConc
/-
C13 and C14: the magic circle is a bounded FIFO, also between two processes.
-/
namespace Props
open Wv Wv.Buf Wv.MagicCircle
open Spec.Fifo (Op Res apply applyAll Seen IsPrefix total sent)

/-- One call on a circle that no other process uses. -/
def circleCall (cap : Nat) (s : Circle) : Op → Option (Res × Circle)
  | .put d => (MagicCircle.put cap s d).map fun r => (.count r.1, r.2)
  | .get n => (MagicCircle.get cap s n).map fun r => (.bytes r.1, r.2)
  | .skip n => let r := MagicCircle.skip cap s n; some (.count r.1, r.2)

def circleCalls (cap : Nat) (s : Circle) : List Op → Option (List Res × Circle)
  | [] => some ([], s)
  | op :: ops => (circleCall cap s op).bind fun r => (circleCalls cap r.2 ops).map fun rs => (r.1 :: rs.1, rs.2)

theorem circleCall_law (cap : Nat) (s : Circle) (op : Op) (h : CInv cap s) :
    ∃ s', circleCall cap s op = some ((apply cap (cont cap s) op).1, s') ∧ CInv cap s' ∧ cont cap s' = (apply cap (cont cap s) op).2 := by
  cases op with
  | put d =>
    obtain ⟨s', e1, e2, e3⟩ := put_law cap s d h
    exact ⟨s', by simp [circleCall, e1, apply, cont_length], e2, by rw [e3]; simp [apply, cont_length]⟩
  | get n =>
    obtain ⟨s', e1, e2, e3⟩ := get_law cap s n h
    exact ⟨s', by simp [circleCall, e1, apply], e2, by rw [e3]; simp [apply]⟩
  | skip n =>
    obtain ⟨e1, e2, e3⟩ := skip_law cap s n h
    exact ⟨_, by simp [circleCall, e1, apply, cont_length], e2, by rw [e3]; simp [apply]⟩

theorem circleCalls_law (cap : Nat) (ops : List Op) : ∀ (s : Circle), CInv cap s →
    ∃ s', circleCalls cap s ops = some ((applyAll cap (cont cap s) ops).1, s') ∧ CInv cap s' ∧ cont cap s' = (applyAll cap (cont cap s) ops).2 := by
  induction ops with
  | nil => intro s h; exact ⟨s, rfl, h, rfl⟩
  | cons op ops ih =>
    intro s h
    obtain ⟨s1, e1, e2, e3⟩ := circleCall_law cap s op h
    obtain ⟨s2, f1, f2, f3⟩ := ih s1 e2
    rw [e3] at f1 f3
    exact ⟨s2, by simp [circleCalls, e1, f1, applyAll], f2, by rw [f3]; rfl⟩

/-- C13: on a new circle for `cap` bytes, any calls return what they return on a queue of at most `cap` bytes, and used() and
    left() are the bytes in it and the room in it. -/
theorem C13_bounded_fifo (cap : Nat) (m : Mem) (ops : List Op) :
    ∃ s, circleCalls cap (new m) ops = some ((applyAll cap [] ops).1, s) ∧ used cap s = (applyAll cap [] ops).2.length ∧
      used cap s + left cap s = cap := by
  have h0 : CInv cap (new m) := ⟨Nat.succ_pos _, Nat.succ_pos _⟩
  obtain ⟨s, e1, e2, e3⟩ := circleCalls_law cap ops (new m) h0
  have hc : cont cap (new m) = [] := rfl
  rw [hc] at e1 e3
  have hu := used_lt cap s e2
  refine ⟨s, e1, by rw [← e3, cont_length], ?_⟩
  unfold left size
  omega

/-- C13 for a case that wraps around. -/
example : ((circleCalls 3 (new fun _ => 9) [.put [1, 2], .skip 1, .put [3, 4, 5], .get 2, .put [6, 7], .get 9]).map Prod.fst)
    = some [.count 2, .count 1, .count 2, .bytes [2, 3], .count 2, .bytes [4, 6, 7]] := by decide +kernel

/-- C14: whatever the order in which the steps of a writing and a reading process follow each other, no access is outside of
    the memory, the reader gets the beginning of what was written, in order, and no more than `cap` bytes are on the way. The
    bytes that were written and not read yet are in the memory. -/
theorem C14_every_schedule (cap : Nat) (m : Mem) (acts : List Act) :
    ∃ s, run cap (start m) acts = some s ∧ IsPrefix s.gets (sent s.puts) ∧ total s.gets ≤ (sent s.puts).length ∧
      (sent s.puts).length ≤ total s.gets + cap ∧
      ∀ i, total s.gets ≤ i → i < (sent s.puts).length → s.mem.circle (i % (cap + 1)) = (sent s.puts).getD i 0 := by
  obtain ⟨s, e1, e2, e3⟩ := run_inv cap acts (start m) (sinv_start cap m) trivial
  exact ⟨s, e1, e3, e2.le, e2.room, e2.data⟩

/-- C14: nothing that was written is lost: whenever the reader is between two calls, a get, when the writer stops meanwhile,
    returns exactly the next bytes that were written, as many as it asks for and as there are. -/
theorem C14_nothing_lost (cap : Nat) (m : Mem) (acts : List Act) (n : Nat) (s : Sys) (hs : run cap (start m) acts = some s)
    (hr : s.reader = .idle) :
    ∃ s', run cap s (.get n :: List.replicate (n + 1) .rstep) = some s' ∧
      s'.gets = s.gets ++ [.bytes (((sent s.puts).drop (total s.gets)).take n)] := by
  obtain ⟨s0, e1, e2, e3⟩ := run_inv cap acts (start m) (sinv_start cap m) trivial
  rw [hs] at e1
  cases e1
  obtain ⟨s1, f1, f2, f3, -⟩ := step_inv cap s (.get n) e2 e3
  have hu := e2.used
  have h1 : s1 = rcall cap s n := by cases f1; rfl
  unfold rcall at h1
  rw [hr] at h1
  dsimp only at h1
  have hg : s1.gets = s.gets := by rw [h1]
  have hpu : s1.puts = s.puts := by rw [h1]
  obtain ⟨s', g1, g2, -⟩ := get_alone cap n s1 (if n > used cap s.mem then used cap s.mem else n) _ _ [] (by rw [h1]) (by simp; split <;> omega) f2 f3
  refine ⟨s', by rw [run, f1]; exact g1, ?_⟩
  rw [g2, hg, hpu, hu]
  congr 3
  split
  · have : ((sent s.puts).drop (total s.gets)).length = (sent s.puts).length - total s.gets := List.length_drop
    rw [List.take_of_length_le (by omega), List.take_of_length_le (by omega)]
  · rfl

/-- C14: whenever the writer is between two calls, a put, when the reader stops meanwhile, writes as many of its bytes as there
    is room for. -/
theorem C14_put_fills (cap : Nat) (m : Mem) (acts : List Act) (d : List UInt8) (s : Sys) (hs : run cap (start m) acts = some s)
    (hw : s.writer = .idle) :
    ∃ s', run cap s (.put d :: List.replicate (d.length + 1) .wstep) = some s' ∧
      s'.puts = s.puts ++ [(d, min d.length (cap - ((sent s.puts).length - total s.gets)))] := by
  obtain ⟨s0, e1, e2, e3⟩ := run_inv cap acts (start m) (sinv_start cap m) trivial
  rw [hs] at e1
  cases e1
  obtain ⟨s1, f1, f2, f3, -⟩ := step_inv cap s (.put d) e2 e3
  have hu := e2.used
  have h1 : s1 = wcall cap s d := by cases f1; rfl
  unfold wcall at h1
  rw [hw] at h1
  dsimp only at h1
  have hpu : s1.puts = s.puts := by rw [h1]
  obtain ⟨s', g1, g2, -⟩ := put_alone cap d.length s1 d (if d.length > left cap s.mem then left cap s.mem else d.length) _ _ 0 (by rw [h1])
    (by split <;> omega) f2 f3
  refine ⟨s', by rw [run, f1]; exact g1, ?_⟩
  rw [g2, hpu]
  congr 3
  unfold left
  rw [hu]
  unfold size
  split <;> omega

/-- A schedule in which both processes are in the middle of their calls at the same time, and the circle wraps around. -/
example : ((run 3 (start fun _ => 9) [.put [1, 2, 3, 4], .wstep, .get 5, .wstep, .wstep, .wstep, .rstep, .get 2, .put [5], .rstep, .wstep, .rstep,
      .wstep, .rstep, .skip 1, .put [6, 7], .wstep, .rstep, .wstep, .wstep, .get 9, .rstep, .rstep, .rstep]).map
      fun s => (s.puts, s.gets.length, total s.gets)) = some ([([1, 2, 3, 4], 3), ([5], 0), ([6, 7], 2)], 4, 5) := by decide +kernel

end Props
