import Verif.Model.MagicLoop
/- C144: a stream between two processes. -/
namespace Props
open Wv Wv.MagicLoop
open Spec.MagicLoop (Act OnlyWrites)

namespace MlP

/-- The bytes are in order; a reader that sleeps although there are data has something that wakes it, or will have. -/
def Inv (cap : Nat) (s : S) : Prop := s.got ++ s.data = s.given ∧ s.data.length ≤ cap

def Woken (s : S) : Prop := (s.rd = .sleeping → s.data ≠ [] → s.wake > 0 ∨ s.putting = true) ∧ (s.rd = .ready → s.data ≠ [])

theorem step_inv (cap sock : Nat) (s t : S) (a : Act) (h : step cap sock s a = some t) (hi : Inv cap s) : Inv cap t := by
  obtain ⟨h1, h2⟩ := hi
  cases a with
  | drain =>
    unfold step at h; dsimp only at h
    split at h
    · cases h; exact ⟨h1, h2⟩
    · cases h
  | look =>
    unfold step at h; dsimp only at h
    split at h
    · split at h
      · cases h; exact ⟨h1, h2⟩
      · cases h; exact ⟨h1, h2⟩
    · cases h
  | wakes =>
    unfold step at h; dsimp only at h
    split at h
    · cases h; exact ⟨h1, h2⟩
    · cases h
  | read n =>
    unfold step at h; dsimp only at h
    split at h
    · cases h
      refine ⟨?_, ?_⟩
      · show s.got ++ s.data.take n ++ s.data.drop n = s.given
        rw [List.append_assoc, List.take_append_drop]; exact h1
      · show (s.data.drop n).length ≤ cap
        rw [List.length_drop]; omega
    · cases h
  | put b =>
    unfold step at h; dsimp only at h
    split at h
    · cases h
    · split at h
      · cases h
        refine ⟨?_, ?_⟩
        · show s.got ++ (s.data ++ b.take _) = s.given ++ b.take _
          rw [← List.append_assoc, h1]
        · show (s.data ++ b.take (cap - s.data.length)).length ≤ cap
          rw [List.length_append, List.length_take]; omega
      · cases h; exact ⟨h1, h2⟩
  | signal =>
    unfold step at h; dsimp only at h
    split at h
    · cases h; exact ⟨h1, h2⟩
    · cases h
  | writerDrain =>
    unfold step at h; dsimp only at h
    split at h
    · cases h
    · cases h; exact ⟨h1, h2⟩

theorem post_woken (s : S) : Woken (post s) := by
  refine ⟨fun e => ?_, fun e => ?_⟩
  · unfold post at e; dsimp only at e; split at e <;> cases e
  · intro hd
    have hd : s.data = [] := hd
    unfold post at e
    rw [hd] at e; cases e

theorem step_woken (cap sock : Nat) (hs : 0 < sock) (s t : S) (a : Act) (ha : a ≠ .writerDrain) (h : step cap sock s a = some t) (hi : Woken s) : Woken t := by
  obtain ⟨h1, h2⟩ := hi
  cases a with
  | drain =>
    unfold step at h; dsimp only at h
    split at h
    · cases h; exact ⟨nofun, nofun⟩
    · cases h
  | look =>
    unfold step at h; dsimp only at h
    split at h
    · split at h
      · cases h; exact post_woken s
      · rename_i hl
        cases h
        exact ⟨fun _ hd => absurd (List.length_pos_iff.2 hd) hl, nofun⟩
    · cases h
  | wakes =>
    unfold step at h; dsimp only at h
    split at h
    · cases h; exact post_woken s
    · cases h
  | read n =>
    unfold step at h; dsimp only at h
    split at h
    · cases h; exact ⟨nofun, nofun⟩
    · cases h
  | put b =>
    unfold step at h; dsimp only at h
    split at h
    · cases h
    · split at h
      · cases h
        refine ⟨fun _ _ => .inr rfl, fun e hd => h2 e (List.append_eq_nil_iff.1 hd).1⟩
      · cases h; exact ⟨h1, h2⟩
  | signal =>
    unfold step at h; dsimp only at h
    split at h
    · cases h
      refine ⟨fun _ _ => .inl ?_, h2⟩
      show min (s.wake + 1) sock > 0
      omega
    · cases h
  | writerDrain => exact absurd rfl ha

theorem run_inv (cap sock : Nat) (l : List Act) : ∀ s t : S, run cap sock s l = some t → Inv cap s → Inv cap t := by
  induction l with
  | nil => intro s t h hi; cases h; exact hi
  | cons a l ih =>
    intro s t h hi
    obtain ⟨u, hu, h⟩ := Option.bind_eq_some_iff.1 h
    exact ih u t h (step_inv cap sock s u a hu hi)

theorem run_woken (cap sock : Nat) (hs : 0 < sock) (l : List Act) : ∀ s t : S, run cap sock s l = some t → OnlyWrites l → Woken s → Woken t := by
  induction l with
  | nil => intro s t h _ hi; cases h; exact hi
  | cons a l ih =>
    intro s t h hl hi
    obtain ⟨u, hu, h⟩ := Option.bind_eq_some_iff.1 h
    exact ih u t h (fun x hx => hl x (by simp [hx])) (step_woken cap sock hs s u a (hl a (by simp)) hu hi)

end MlP

/-- C144: however the two processes interleave, what was read and what is in the stream is what was put, in order, and no more is in it than its size. -/
theorem C144_order (cap sock : Nat) (l : List Act) (s : S) (h : run cap sock new l = some s) : s.got ++ s.data = s.given ∧ s.data.length ≤ cap :=
  MlP.run_inv cap sock l new s h ⟨rfl, Nat.zero_le _⟩

/-- C144: if the writer does nothing but write, a reader that sleeps although there are data can be woken at once, or as soon as the writer has
    taken its next step, which it can take; and then the reader is told that there are data. -/
theorem C144_woken_partial (cap sock : Nat) (hs : 0 < sock) (l : List Act) (hl : OnlyWrites l) (s : S) (h : run cap sock new l = some s)
    (hr : s.rd = .sleeping) (hd : s.data ≠ []) :
    (∃ t, run cap sock s [.wakes] = some t ∧ t.rd = .ready) ∨ (∃ t, run cap sock s [.signal, .wakes] = some t ∧ t.rd = .ready) := by
  have hw := (MlP.run_woken cap sock hs l new s h hl ⟨nofun, nofun⟩).1 hr hd
  have hlen := List.length_pos_iff.2 hd
  have hpost : ∀ u : S, u.data = s.data → (post u).rd = .ready := by
    intro u hu
    unfold post
    dsimp only
    rw [hu, if_pos hlen]
  by_cases hk : s.wake > 0
  · refine .inl ⟨post s, ?_, hpost s rfl⟩
    unfold run step
    dsimp only
    rw [if_pos ⟨hr, hk⟩]; rfl
  · have hp : s.putting = true := by
      rcases hw with h | h
      · exact absurd h hk
      · exact h
    refine .inr ⟨post { s with wake := min (s.wake + 1) sock, putting := false }, ?_, hpost _ rfl⟩
    unfold run
    have e : step cap sock s .signal = some { s with wake := min (s.wake + 1) sock, putting := false } := by
      unfold step
      dsimp only
      rw [if_pos hp]
    rw [e]
    show run cap sock { s with wake := min (s.wake + 1) sock, putting := false } [.wakes] = _
    unfold run step
    dsimp only
    rw [if_pos ⟨hr, (by show min (s.wake + 1) sock > 0; omega)⟩]; rfl

/-- C144: a reader is told that there are data only if there are, and they stay until it reads. -/
theorem C144_ready (cap sock : Nat) (l : List Act) (s : S) (h : run cap sock new l = some s) (hr : s.rd = .ready) : s.data ≠ [] := by
  have key : ∀ (l : List Act) (s t : S), run cap sock s l = some t → (s.rd = .ready → s.data ≠ []) → t.rd = .ready → t.data ≠ [] := by
    intro l
    induction l with
    | nil => intro s t h hi; cases h; exact hi
    | cons a l ih =>
      intro s t h hi
      obtain ⟨u, hu, h⟩ := Option.bind_eq_some_iff.1 h
      refine ih u t h ?_
      cases a with
      | drain =>
        unfold step at hu; dsimp only at hu
        split at hu
        · cases hu; exact nofun
        · cases hu
      | look =>
        unfold step at hu; dsimp only at hu
        split at hu
        · split at hu
          · cases hu; exact (MlP.post_woken s).2
          · cases hu; exact nofun
        · cases hu
      | wakes =>
        unfold step at hu; dsimp only at hu
        split at hu
        · cases hu; exact (MlP.post_woken s).2
        · cases hu
      | read n =>
        unfold step at hu; dsimp only at hu
        split at hu
        · cases hu; exact nofun
        · cases hu
      | put b =>
        unfold step at hu; dsimp only at hu
        split at hu
        · cases hu
        · split at hu
          · cases hu
            exact fun e hd => hi e (List.append_eq_nil_iff.1 hd).1
          · cases hu; exact hi
      | signal =>
        unfold step at hu; dsimp only at hu
        split at hu
        · cases hu; exact hi
        · cases hu
      | writerDrain =>
        unfold step at hu; dsimp only at hu
        split at hu
        · cases hu
        · cases hu; exact hi
  exact key l new s h nofun hr

example : (run 4 1 new [.drain, .look, .put [1, 2], .signal, .wakes, .read 1]).map (fun s => (s.got, s.data, s.rd)) = some ([1], [2], .idle) := by decide +kernel
example : (run 4 1 new [.drain, .look, .put [1, 2]]).map (fun s => (s.data, s.rd, s.putting)) = some ([1, 2], .sleeping, true) := by decide +kernel
example : OnlyWrites [.drain, .look, .put [1, 2]] := by simp [OnlyWrites]

/-- C144: a reader that begins to wait when there are no data does sleep: it is not woken for data that it has read already, until the writer wakes it. -/
theorem C144_quiet (cap sock : Nat) (s : S) (hr : s.rd = .idle) (hd : s.data = []) (b : List Byte) (t : S) (ht : run cap sock s [.drain, .look] = some t) :
    t.rd = .sleeping ∧ run cap sock t [.wakes] = none ∧ run cap sock t [.put b, .wakes] = none := by
  have e : t = { s with wake := 0, rd := .sleeping } := by
    simp [run, step, hr, hd] at ht
    rw [← ht]; simp [hd]
  subst e
  refine ⟨rfl, by simp [run, step], ?_⟩
  simp only [run, step]
  split
  · rfl
  · split <;> simp

example : (run 4 1 new [.put [1], .signal, .read 4, .drain, .look]).map (fun s => (s.data, s.wake, s.rd)) = some ([], 0, .sleeping) := by decide +kernel

/-- C144 fails if the writer waits for something itself: it may take the byte that was to wake the reader, which then sleeps although there are data. -/
theorem C144_stolen_fails : (run 4 1 new [.drain, .look, .put [1], .signal, .writerDrain]).map (fun s => (s.data, s.wake, s.rd, s.putting)) =
    some ([1], 0, .sleeping, false) := by decide +kernel

end Props
