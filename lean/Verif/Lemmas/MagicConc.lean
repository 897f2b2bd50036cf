import Verif.Lemmas.MagicCircle
/-
Two processes that share a magic circle: the invariant of every schedule.
-/
namespace Wv.MagicCircle
open Wv.Buf Spec.Fifo

theorem total_append (a b : List Seen) : total (a ++ b) = total a + total b := by
  induction a with
  | nil => simp [total]
  | cons x xs ih => cases x <;> simp [total, ih] <;> omega

theorem isPrefix_longer (s : List Seen) : ∀ (l k : List UInt8), IsPrefix s l → IsPrefix s (l ++ k) := by
  induction s with
  | nil => intro l k _; trivial
  | cons x xs ih =>
    intro l k h
    cases x with
    | bytes d =>
      obtain ⟨⟨r, hr⟩, h2⟩ := h
      refine ⟨⟨r ++ k, by rw [← hr]; simp⟩, ?_⟩
      rw [List.drop_append_of_le_length (by rw [← hr]; simp)]
      exact ih _ _ h2
    | skipped n =>
      obtain ⟨h1, h2⟩ := h
      refine ⟨by simp; omega, ?_⟩
      rw [List.drop_append_of_le_length h1]
      exact ih _ _ h2

theorem isPrefix_bytes (s : List Seen) (d : List UInt8) : ∀ (l : List UInt8), IsPrefix s l → d <+: l.drop (total s) →
    IsPrefix (s ++ [.bytes d]) l := by
  induction s with
  | nil => intro l _ h; exact ⟨by simpa [total] using h, trivial⟩
  | cons x xs ih =>
    intro l h hd
    cases x with
    | bytes e => exact ⟨h.1, ih _ h.2 (by rw [List.drop_drop]; exact hd)⟩
    | skipped n => exact ⟨h.1, ih _ h.2 (by rw [List.drop_drop]; exact hd)⟩

theorem isPrefix_skip (s : List Seen) (n : Nat) : ∀ (l : List UInt8), IsPrefix s l → total s + n ≤ l.length →
    IsPrefix (s ++ [.skipped n]) l := by
  induction s with
  | nil => intro l _ h; exact ⟨by simpa [total] using h, trivial⟩
  | cons x xs ih =>
    intro l h hd
    cases x with
    | bytes e => exact ⟨h.1, ih _ h.2 (by rw [List.length_drop]; simp [total] at hd; omega)⟩
    | skipped n => exact ⟨h.1, ih _ h.2 (by rw [List.length_drop]; simp [total] at hd; omega)⟩

theorem mod_inj (N i j : Nat) (h : i % N = j % N) (h1 : i < j + N) (h2 : j < i + N) : i = j := by
  by_cases hij : i ≤ j
  · have := Nat.sub_mod_eq_zero_of_mod_eq h.symm
    rw [Nat.mod_eq_of_lt (by omega)] at this
    omega
  · have := Nat.sub_mod_eq_zero_of_mod_eq h
    rw [Nat.mod_eq_of_lt (by omega)] at this
    omega

/-- The invariant: `P` has been written, `C` bytes have been read. -/
structure SInv (cap : Nat) (s : Sys) (P : List Byte) (C : Nat) : Prop where
  le : C ≤ P.length
  room : P.length ≤ C + cap
  head : s.mem.head = C % size cap
  tail : s.mem.tail = P.length % size cap
  data : ∀ i, C ≤ i → i < P.length → s.mem.circle (i % size cap) = P.getD i 0
  writer : match s.writer with
    | .idle => True
    | .copying d len c1 t i => len ≤ d.length ∧ P.length + len ≤ C + cap ∧ t = P.length % size cap ∧
        c1 = min len (size cap - t) ∧ i ≤ len ∧ ∀ j < i, s.mem.circle ((P.length + j) % size cap) = d.getD j 0
  reader : match s.reader with
    | .idle => True
    | .copying len c1 h got => C + len ≤ P.length ∧ h = C % size cap ∧ c1 = min len (size cap - h) ∧ got.length ≤ len ∧
        ∀ j < got.length, got.getD j 0 = P.getD (C + j) 0
    | .skipping len => C + len ≤ P.length

theorem SInv.used {cap : Nat} {s : Sys} {P : List Byte} {C : Nat} (h : SInv cap s P C) : used cap s.mem = P.length - C := by
  have h1 := h.le; have h2 := h.room
  have hp : 0 < size cap := by unfold size; omega
  have hC : C % size cap < size cap := Nat.mod_lt _ hp
  have ht : P.length % size cap = (C % size cap + (P.length - C)) % size cap := by
    rw [Nat.mod_add_mod]; congr 1; omega
  unfold MagicCircle.used
  dsimp only
  rw [h.head, h.tail, ht]
  generalize C % size cap = c at hC
  rw [mod3 (c + (P.length - C)) (size cap) hp (by unfold size at *; omega)]
  unfold size at *
  repeat' split
  all_goals omega

theorem addr (N p i len c1 : Nat) (hN : i < N) (hp : 0 < N) (hi : i < len) (hc : c1 = min len (N - p % N)) :
    (if i < c1 then p % N + i else i - c1) = (p + i) % N := by
  have hm := Nat.mod_lt p hp
  rw [← Nat.mod_add_mod p N i]
  generalize p % N = q at *
  rw [mod3 (q + i) _ hp (by omega)]
  repeat' split
  all_goals omega

theorem sinv_start (cap : Nat) (m : Mem) : SInv cap (start m) (sent (start m).puts) (total (start m).gets) := by
  have h0 : 0 % size cap = 0 := Nat.zero_mod _
  exact ⟨Nat.le_refl _, by simp [start, sent], h0.symm, h0.symm, fun i _ h => by simp [start, sent] at h, trivial, trivial⟩

/-- Every step keeps the invariant, and what was read is the beginning of what was written. -/
theorem step_inv (cap : Nat) (s : Sys) (a : Act) (h : SInv cap s (sent s.puts) (total s.gets))
    (hp : IsPrefix s.gets (sent s.puts)) :
    ∃ s', step cap s a = some s' ∧ SInv cap s' (sent s'.puts) (total s'.gets) ∧ IsPrefix s'.gets (sent s'.puts) ∧
      ∃ k, sent s'.puts = sent s.puts ++ k := by
  have hN : 0 < size cap := by unfold size; omega
  have hle := h.le
  have hroom := h.room
  have hused := h.used
  have hh : s.mem.head < size cap := by rw [h.head]; exact Nat.mod_lt _ hN
  have ht : s.mem.tail < size cap := by rw [h.tail]; exact Nat.mod_lt _ hN
  cases a with
  | put d =>
    refine ⟨wcall cap s d, rfl, ?_, ?_, [], ?_⟩
    · unfold wcall
      have hw := h.writer
      split
      · refine ⟨h.le, h.room, h.head, h.tail, h.data, ?_, h.reader⟩
        dsimp only
        unfold left
        rw [hused]
        refine ⟨?_, ?_, h.tail, ?_, Nat.zero_le _, fun j hj => by omega⟩
        · split <;> omega
        · unfold size; split <;> omega
        · split <;> (split <;> omega)
      · exact h
    · unfold wcall; split <;> exact hp
    · unfold wcall; split <;> simp
  | get n =>
    refine ⟨rcall cap s n, rfl, ?_, ?_, [], ?_⟩
    · unfold rcall
      split
      · refine ⟨h.le, h.room, h.head, h.tail, h.data, h.writer, ?_⟩
        dsimp only
        rw [hused]
        refine ⟨?_, h.head, ?_, Nat.zero_le _, fun j hj => by simp at hj⟩
        · split <;> omega
        · split <;> (split <;> omega)
      · exact h
    · unfold rcall; split <;> exact hp
    · unfold rcall; split <;> simp
  | skip n =>
    refine ⟨rskip cap s n, rfl, ?_, ?_, [], ?_⟩
    · unfold rskip
      split
      · refine ⟨h.le, h.room, h.head, h.tail, h.data, h.writer, ?_⟩
        dsimp only
        rw [hused]
        split <;> omega
      · exact h
    · unfold rskip; split <;> exact hp
    · unfold rskip; split <;> simp
  | wstep =>
    have hw := h.writer
    show ∃ s', wstep cap s = some s' ∧ _
    unfold wstep
    split
    · exact ⟨s, rfl, h, hp, [], by simp⟩
    · rename_i d len c1 t i hwr
      rw [hwr] at hw
      obtain ⟨w1, w2, w3, w4, w5, w6⟩ := hw
      have hcap : len < size cap := by unfold size; omega
      split
      · rename_i hi
        have ha : (if i < c1 then t + i else i - c1) = ((sent s.puts).length + i) % size cap := by
          rw [w3]; exact addr _ _ _ len _ (by omega) hN hi (by rw [w4, w3])
        dsimp only
        rw [ha, if_pos (Nat.mod_lt _ hN)]
        refine ⟨_, rfl, ⟨h.le, h.room, h.head, h.tail, ?_, ?_, ?_⟩, hp, [], by simp⟩
        · intro j hj1 hj2
          dsimp only at hj1 hj2 ⊢
          rw [put_out]
          · exact h.data j hj1 hj2
          · simp only [List.length_singleton]
            have : j % size cap ≠ ((sent s.puts).length + i) % size cap := by
              intro he
              have := mod_inj _ _ _ he (by unfold size; omega) (by unfold size; omega)
              omega
            omega
        · dsimp only
          refine ⟨w1, w2, w3, w4, hi, ?_⟩
          intro j hj
          by_cases hji : j = i
          · subst hji
            rw [put_getD _ _ _ _ (Nat.le_refl _) (by simp), Nat.sub_self]
            rfl
          · rw [put_out]
            · exact w6 j (by omega)
            · simp only [List.length_singleton]
              have : ((sent s.puts).length + j) % size cap ≠ ((sent s.puts).length + i) % size cap := by
                intro he
                have := mod_inj _ _ _ he (by omega) (by omega)
                omega
              omega
        · exact h.reader
      · rename_i hi
        have hil : i = len := by omega
        subst hil
        have hs : sent (s.puts ++ [(d, i)]) = sent s.puts ++ d.take i := by simp [sent]
        have hl : (d.take i).length = i := by rw [List.length_take]; omega
        refine ⟨_, rfl, ?_, ?_, d.take i, hs⟩
        · refine ⟨?_, ?_, h.head, ?_, ?_, trivial, ?_⟩
          · dsimp only; rw [hs, List.length_append]; omega
          · dsimp only; rw [hs, List.length_append, hl]; omega
          · dsimp only; rw [hs, List.length_append, hl, h.tail, Nat.mod_add_mod]
          · dsimp only
            intro j hj1 hj2
            rw [hs, List.length_append, hl] at hj2
            rw [hs]
            by_cases hj : j < (sent s.puts).length
            · rw [List.getD_eq_getElem?_getD, List.getElem?_append_left hj, ← List.getD_eq_getElem?_getD]
              exact h.data j hj1 hj
            · have := w6 (j - (sent s.puts).length) (by omega)
              rw [show (sent s.puts).length + (j - (sent s.puts).length) = j by omega] at this
              rw [this, List.getD_eq_getElem?_getD, List.getD_eq_getElem?_getD, List.getElem?_append_right (by omega),
                List.getElem?_take, if_pos (by omega)]
          · have hr := h.reader
            dsimp only
            rw [hs]
            split at hr
            · rename_i hrd; simp only [hrd]
            · rename_i l c h' g hrd
              simp only [hrd, List.length_append]
              obtain ⟨r1, r2, r3, r4, r5⟩ := hr
              refine ⟨by omega, r2, r3, r4, ?_⟩
              intro j hj
              rw [r5 j hj, List.getD_eq_getElem?_getD, List.getD_eq_getElem?_getD, List.getElem?_append_left (by omega)]
            · rename_i l hrd
              simp only [hrd, List.length_append]; omega
        · dsimp only
          rw [hs]
          exact isPrefix_longer _ _ _ hp
  | rstep =>
    have hr := h.reader
    have hw := h.writer
    show ∃ s', rstep cap s = some s' ∧ _
    unfold rstep
    split
    · exact ⟨s, rfl, h, hp, [], by simp⟩
    · rename_i len c1 hd g hrd
      rw [hrd] at hr
      obtain ⟨r1, r2, r3, r4, r5⟩ := hr
      split
      · rename_i hi
        have ha : (if g.length < c1 then hd + g.length else g.length - c1) = (total s.gets + g.length) % size cap := by
          rw [r2]; exact addr _ _ _ len _ (by unfold size; omega) hN hi (by rw [r3, r2])
        dsimp only
        rw [ha, if_pos (Nat.mod_lt _ hN)]
        refine ⟨_, rfl, ⟨h.le, h.room, h.head, h.tail, h.data, h.writer, ?_⟩, hp, [], by simp⟩
        dsimp only
        refine ⟨r1, r2, r3, by simp; omega, ?_⟩
        intro j hj
        simp only [List.length_append, List.length_singleton] at hj
        by_cases hjg : j < g.length
        · rw [List.getD_eq_getElem?_getD, List.getElem?_append_left hjg, ← List.getD_eq_getElem?_getD]
          exact r5 j hjg
        · have hjg : j = g.length := by omega
          subst hjg
          rw [h.data _ (by omega) (by omega)]
          simp
      · rename_i hi
        have hgl : g.length = len := by omega
        have hs : total (s.gets ++ [.bytes g]) = total s.gets + len := by
          simp [total_append, total, hgl]
        refine ⟨_, rfl, ?_, ?_, [], by simp⟩
        · refine ⟨?_, ?_, ?_, h.tail, ?_, ?_, trivial⟩
          · dsimp only; rw [hs]; omega
          · dsimp only; rw [hs]; omega
          · dsimp only; rw [hs, h.head, Nat.mod_add_mod]
          · dsimp only; intro j hj1 hj2; rw [hs] at hj1; exact h.data j (by omega) hj2
          · dsimp only
            rw [hs]
            cases hwr : s.writer with
            | idle => trivial
            | copying =>
              rw [hwr] at hw
              obtain ⟨w1, w2, w3⟩ := hw
              exact ⟨w1, by omega, w3⟩
        · apply isPrefix_bytes _ _ _ hp
          refine ⟨(sent s.puts).drop (total s.gets + len), ?_⟩
          show g ++ _ = (sent s.puts).drop (total s.gets)
          apply List.ext_getElem
          · simp; omega
          · intro j hj1 hj2
            rw [List.getElem_drop]
            by_cases hjg : j < g.length
            · rw [List.getElem_append_left hjg]
              have := r5 j hjg
              rw [List.getD_eq_getElem?_getD, List.getD_eq_getElem?_getD, List.getElem?_eq_getElem hjg,
                List.getElem?_eq_getElem (by omega)] at this
              exact this
            · rw [List.getElem_append_right (by omega), List.getElem_drop]
              congr 1; omega
    · rename_i len hrd
      rw [hrd] at hr
      have hr : total s.gets + len ≤ (sent s.puts).length := hr
      have hs : total (s.gets ++ [.skipped len]) = total s.gets + len := by
        simp [total_append, total]
      refine ⟨_, rfl, ?_, ?_, [], by simp⟩
      · refine ⟨?_, ?_, ?_, h.tail, ?_, ?_, trivial⟩
        · dsimp only; rw [hs]; omega
        · dsimp only; rw [hs]; omega
        · dsimp only; rw [hs, h.head, Nat.mod_add_mod]
        · dsimp only; intro j hj1 hj2; rw [hs] at hj1; exact h.data j (by omega) hj2
        · dsimp only
          rw [hs]
          cases hwr : s.writer with
          | idle => trivial
          | copying =>
            rw [hwr] at hw
            obtain ⟨w1, w2, w3⟩ := hw
            exact ⟨w1, by omega, w3⟩
      · exact isPrefix_skip _ _ _ hp hr

/-- A `get` with no step of the writer in between. -/
theorem get_alone (cap : Nat) (k : Nat) : ∀ (s : Sys) (len c1 h : Nat) (g : List Byte), s.reader = .copying len c1 h g → g.length + k ≥ len →
    SInv cap s (sent s.puts) (total s.gets) → IsPrefix s.gets (sent s.puts) →
    ∃ s', run cap s (List.replicate (k + 1) .rstep) = some s' ∧ s'.gets = s.gets ++ [.bytes (((sent s.puts).drop (total s.gets)).take len)] ∧
      s'.puts = s.puts := by
  induction k with
  | zero =>
    intro s len c1 h g hs hk hi hp
    have hr := hi.reader
    rw [hs] at hr
    obtain ⟨r1, r2, r3, r4, r5⟩ := hr
    have e : rstep cap s = some { s with mem := { s.mem with head := (s.mem.head + len) % size cap }, reader := .idle, gets := s.gets ++ [.bytes g] } := by
      unfold rstep
      rw [hs]
      dsimp only
      rw [if_neg (by omega)]
    rw [List.replicate_succ, run, step, e, Option.bind_some, List.replicate_zero, run]
    refine ⟨_, rfl, ?_, rfl⟩
    dsimp only
    congr 3
    apply List.ext_getElem
    · simp; omega
    · intro j h1 h2
      have := r5 j h1
      rw [List.getD_eq_getElem?_getD, List.getD_eq_getElem?_getD, List.getElem?_eq_getElem h1,
        List.getElem?_eq_getElem (by omega)] at this
      simpa using this
  | succ k ih =>
    intro s len c1 h g hs hk hi hp
    obtain ⟨s1, e1, e2, e3, -⟩ := step_inv cap s .rstep hi hp
    have hN : 0 < size cap := by unfold size; omega
    have hr := hi.reader
    rw [hs] at hr
    obtain ⟨r1, r2, r3, r4, r5⟩ := hr
    by_cases hlt : g.length < len
    · have : s1 = { s with reader := .copying len c1 h (g ++ [s.mem.circle (if g.length < c1 then h + g.length else g.length - c1)]) } := by
        change rstep cap s = _ at e1
        unfold rstep at e1
        rw [hs] at e1
        dsimp only at e1
        rw [if_pos hlt] at e1
        by_cases hsz : (if g.length < c1 then h + g.length else g.length - c1) < size cap
        · rw [if_pos hsz] at e1; exact (Option.some.inj e1).symm
        · rw [if_neg hsz] at e1; cases e1
      subst this
      obtain ⟨s', f1, f2, f3⟩ := ih _ len c1 h _ rfl (by simp; omega) e2 e3
      exact ⟨s', by rw [List.replicate_succ, run, e1]; exact f1, f2, f3⟩
    · have hg0 : ∀ (k : Nat) (t : Sys), t.reader = .idle → run cap t (List.replicate k .rstep) = some t := by
        intro k t ht
        induction k with
        | zero => rfl
        | succ k ihk => rw [List.replicate_succ, run, step, rstep, ht]; exact ihk
      obtain ⟨s', f1, f2, f3⟩ := ih s len c1 h g hs (by omega) hi hp
      rw [List.replicate_succ, run] at f1 ⊢
      have e : rstep cap s = some { s with mem := { s.mem with head := (s.mem.head + len) % size cap }, reader := .idle, gets := s.gets ++ [.bytes g] } := by
        unfold rstep
        rw [hs]
        dsimp only
        rw [if_neg (by omega)]
      rw [step, e, Option.bind_some, hg0 _ _ rfl] at f1 ⊢
      exact ⟨s', f1, f2, f3⟩

/-- A `put` with no step of the reader in between. -/
theorem put_alone (cap : Nat) (k : Nat) : ∀ (s : Sys) (d : List Byte) (len c1 t i : Nat), s.writer = .copying d len c1 t i → i + k ≥ len →
    SInv cap s (sent s.puts) (total s.gets) → IsPrefix s.gets (sent s.puts) →
    ∃ s', run cap s (List.replicate (k + 1) .wstep) = some s' ∧ s'.puts = s.puts ++ [(d, len)] ∧ s'.gets = s.gets := by
  have hg0 : ∀ (k : Nat) (t : Sys), t.writer = .idle → run cap t (List.replicate k .wstep) = some t := by
    intro k t ht
    induction k with
    | zero => rfl
    | succ k ihk => rw [List.replicate_succ, run, step, wstep, ht]; exact ihk
  induction k with
  | zero =>
    intro s d len c1 t i hs hk hi hp
    have e : wstep cap s = some { s with mem := { s.mem with tail := (s.mem.tail + len) % size cap }, writer := .idle, puts := s.puts ++ [(d, len)] } := by
      unfold wstep
      rw [hs]
      dsimp only
      rw [if_neg (by omega)]
    rw [List.replicate_succ, run, step, e, Option.bind_some, List.replicate_zero, run]
    exact ⟨_, rfl, rfl, rfl⟩
  | succ k ih =>
    intro s d len c1 t i hs hk hi hp
    obtain ⟨s1, e1, e2, e3, -⟩ := step_inv cap s .wstep hi hp
    by_cases hlt : i < len
    · have : s1 = { s with mem := { s.mem with circle := s.mem.circle.put (if i < c1 then t + i else i - c1) [d.getD i 0] }, writer := .copying d len c1 t (i + 1) } := by
        change wstep cap s = _ at e1
        unfold wstep at e1
        rw [hs] at e1
        dsimp only at e1
        rw [if_pos hlt] at e1
        by_cases hsz : (if i < c1 then t + i else i - c1) < size cap
        · rw [if_pos hsz] at e1; exact (Option.some.inj e1).symm
        · rw [if_neg hsz] at e1; cases e1
      subst this
      obtain ⟨s', f1, f2, f3⟩ := ih _ d len c1 t (i + 1) rfl (by omega) e2 e3
      exact ⟨s', by rw [List.replicate_succ, run, e1]; exact f1, f2, f3⟩
    · have e : wstep cap s = some { s with mem := { s.mem with tail := (s.mem.tail + len) % size cap }, writer := .idle, puts := s.puts ++ [(d, len)] } := by
        unfold wstep
        rw [hs]
        dsimp only
        rw [if_neg (by omega)]
      rw [List.replicate_succ, run, step, e, Option.bind_some, hg0 _ _ rfl]
      exact ⟨_, rfl, rfl, rfl⟩

theorem run_inv (cap : Nat) (as : List Act) : ∀ (s : Sys), SInv cap s (sent s.puts) (total s.gets) →
    IsPrefix s.gets (sent s.puts) →
    ∃ s', run cap s as = some s' ∧ SInv cap s' (sent s'.puts) (total s'.gets) ∧ IsPrefix s'.gets (sent s'.puts) := by
  induction as with
  | nil => intro s h hp; exact ⟨s, rfl, h, hp⟩
  | cons a as ih =>
    intro s h hp
    obtain ⟨s1, e1, e2, e3, -⟩ := step_inv cap s a h hp
    obtain ⟨s2, f1, f2, f3⟩ := ih s1 e2 e3
    exact ⟨s2, by simp [run, e1, f1], f2, f3⟩

end Wv.MagicCircle
