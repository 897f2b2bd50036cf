import Verif.Model.Strings
import Verif.Spec.Strings
import Verif.Props.Format
/-
Lemmas about the reference-counted strings: the invariant of the memory and the objects that use it.
-/
namespace Lemmas.Strings
open Wv Wv.Strings
open Wv.Format (header)

/-- calloc gives memory that nothing else uses. -/
def Allocates (A : Calloc) : Prop :=
  ∀ m n, 0 < A m n ∧ ∀ id b, m.buf id = some b → A m n + n ≤ b.base ∨ b.base + b.size ≤ A m n

/-- An object is a null string, or points into a buffer that is there. -/
def Ok (m : Mem) (s : Str) : Prop :=
  s = ⟨.nul, .null⟩ ∨ ∃ id off b, s = ⟨.blk id, .at id off⟩ ∧ m.buf id = some b ∧ off < b.data.length

/-- The objects that use a buffer. -/
def uses (r : Ref) (objs : List Str) : Nat := objs.countP fun s => decide (s.buf = r)

/-- The invariant. -/
structure Inv (m : Mem) (objs : List Str) : Prop where
  ok : ∀ s ∈ objs, Ok m s
  counts : ∀ id b, m.buf id = some b → b.links = uses (.blk id) objs ∧ 0 < b.links
  shape : ∀ id b, m.buf id = some b → b.size = header + b.data.length ∧ b.data.getLast? = some 0 ∧ 0 < b.base
  apart : ∀ i j bi bj, m.buf i = some bi → m.buf j = some bj → i ≠ j →
    bi.base + bi.size ≤ bj.base ∨ bj.base + bj.size ≤ bi.base
  nulls : m.nulls = 1 + uses .nul objs

/-- The value of an object. -/
def val (m : Mem) (s : Str) : Option (Option (List Byte)) :=
  if s.str = .null then some none else (text m s.str).map some

/-- The buffers of one memory are in the other, with the same contents. -/
def Sub (m m' : Mem) : Prop := ∀ id b, m.buf id = some b → ∃ b', m'.buf id = some b' ∧ b'.data = b.data ∧
  b'.base = b.base ∧ b'.size = b.size

/-- What an operation on an object gives: the object is there with the value `x` and nothing else changed. -/
def Result (m : Mem) (objs : List Str) (r : Option (Mem × Str)) (x : Option (List Byte)) : Prop :=
  ∃ m' s, r = some (m', s) ∧ Inv m' (s :: objs) ∧ val m' s = some x ∧ ∀ o ∈ objs, val m' o = val m o

theorem Sub.refl (m : Mem) : Sub m m := fun _ b h => ⟨b, h, rfl, rfl, rfl⟩

theorem Sub.trans {a b c : Mem} (h : Sub a b) (h' : Sub b c) : Sub a c := by
  intro id x hx
  obtain ⟨y, hy, y1, y2, y3⟩ := h id x hx
  obtain ⟨z, hz, z1, z2, z3⟩ := h' id y hy
  exact ⟨z, hz, z1.trans y1, z2.trans y2, z3.trans y3⟩

theorem Ok.sub {m m' : Mem} {s : Str} (h : Ok m s) (hs : Sub m m') : Ok m' s := by
  rcases h with h | ⟨id, off, b, h, hb, ho⟩
  · exact Or.inl h
  · obtain ⟨b', hb', e, -, -⟩ := hs id b hb
    exact Or.inr ⟨id, off, b', h, hb', by rw [e]; exact ho⟩

theorem text_sub {m m' : Mem} (id off : Nat) (b : Buf) (h : m.buf id = some b) (hs : Sub m m') :
    text m' (.at id off) = text m (.at id off) := by
  obtain ⟨b', hb', e, -, -⟩ := hs id b h
  simp only [text, h, hb', Option.bind_some, e]

theorem val_sub {m m' : Mem} {s : Str} (h : Ok m s) (hs : Sub m m') : val m' s = val m s := by
  rcases h with h | ⟨id, off, b, h, hb, ho⟩
  · subst h; rfl
  · subst h
    simp only [val, text_sub id off b hb hs]

theorem Inv.perm {m : Mem} {l l' : List Str} (h : Inv m l) (p : l.Perm l') : Inv m l' := by
  refine ⟨fun s hs => h.ok s (p.mem_iff.mpr hs), ?_, h.shape, h.apart, ?_⟩
  · intro id b hb
    have := h.counts id b hb
    unfold uses at *
    rw [← p.countP_eq]; exact this
  · have := h.nulls
    unfold uses at *
    rw [← p.countP_eq]; exact this

theorem uses_cons (r : Ref) (s : Str) (l : List Str) : uses r (s :: l) = uses r l + if s.buf = r then 1 else 0 := by
  unfold uses
  rw [List.countP_cons]
  simp

/-! ### Looking at the memory -/

theorem buf_put (m : Mem) (id j : Nat) (x : Option Buf) (h : id < m.heap.length) :
    (m.put id x).buf j = if j = id then x else m.buf j := by
  unfold Mem.put Mem.buf
  by_cases hj : j = id
  · subst hj
    rw [if_pos rfl]
    simp [List.getElem?_set, h]
  · rw [if_neg hj]
    simp [List.getElem?_set, Ne.symm hj]

theorem buf_lt {m : Mem} {id : Nat} {b : Buf} (h : m.buf id = some b) : id < m.heap.length := by
  unfold Mem.buf at h
  refine Decidable.byContradiction fun hn => ?_
  rw [List.getElem?_eq_none (by omega)] at h
  simp at h

/-- A new buffer. -/
def push (m : Mem) (b : Buf) : Mem := { m with heap := m.heap ++ [some b] }

theorem buf_push (m : Mem) (b : Buf) (j : Nat) : (push m b).buf j = if j = m.heap.length then some b else m.buf j := by
  unfold push Mem.buf
  by_cases h1 : j < m.heap.length
  · rw [if_neg (by omega), List.getElem?_append_left h1]
  · by_cases h2 : j = m.heap.length
    · subst h2; simp
    · rw [if_neg h2, List.getElem?_append_right (by omega), List.getElem?_eq_none (by simp; omega),
        List.getElem?_eq_none (by omega)]

theorem sub_push (m : Mem) (b : Buf) : Sub m (push m b) := by
  intro id x hx
  refine ⟨x, ?_, rfl, rfl, rfl⟩
  rw [buf_push, if_neg (by have := buf_lt hx; omega), hx]

theorem put_push (m : Mem) (b : Buf) (id : Nat) (x : Option Buf) (h : id < m.heap.length) :
    (push m b).put id x = push (m.put id x) b := by
  unfold push Mem.put
  simp only [Mem.mk.injEq, and_true]
  rw [List.set_append_left _ _ h]

theorem put_push_new (m : Mem) (b b' : Buf) : (push m b).put m.heap.length (some b') = push m b' := by
  unfold push Mem.put
  simp

/-! ### Links -/

theorem unlink_push (m : Mem) (b : Buf) (r : Ref) (m2 : Mem) (h : unlink m r = some m2) :
    unlink (push m b) r = some (push m2 b) := by
  cases r with
  | no => simp only [unlink, Option.some.injEq] at h ⊢; rw [h]
  | nul =>
    simp only [unlink] at h ⊢
    by_cases hn : m.nulls ≤ 1
    · simp [hn] at h
    · rw [if_neg hn] at h
      rw [if_neg (show ¬ (push m b).nulls ≤ 1 from hn)]
      simp only [Option.some.injEq] at h
      rw [← h]; rfl
  | blk id =>
    simp only [unlink] at h ⊢
    obtain ⟨x, hx, h⟩ := Option.bind_eq_some_iff.mp h
    have hlt := buf_lt hx
    rw [buf_push, if_neg (by omega), hx, Option.bind_some]
    by_cases h0 : x.links = 0
    · rw [if_pos h0] at h; cases h
    · rw [if_neg h0] at h ⊢
      by_cases h1 : x.links = 1
      · rw [if_pos h1] at h ⊢
        rw [put_push _ _ _ _ hlt, Option.some.inj h]
      · rw [if_neg h1] at h ⊢
        rw [put_push _ _ _ _ hlt, Option.some.inj h]

theorem unlink_length (m : Mem) (r : Ref) (m2 : Mem) (h : unlink m r = some m2) : m2.heap.length = m.heap.length := by
  cases r with
  | no => simp only [unlink, Option.some.injEq] at h; rw [h]
  | nul =>
    simp only [unlink] at h
    split at h
    · cases h
    · rw [← Option.some.inj h]
  | blk id =>
    simp only [unlink] at h
    obtain ⟨x, hx, h⟩ := Option.bind_eq_some_iff.mp h
    split at h
    · cases h
    · split at h
      · rw [← Option.some.inj h]; simp [Mem.put]
      · rw [← Option.some.inj h]; simp [Mem.put]

/-- Linking an object more. -/
theorem link_spec (m : Mem) (objs : List Str) (s0 : Str) (hi : Inv m objs) (h0 : Ok m s0) :
    ∃ m', link m s0.buf = some m' ∧ Sub m' m ∧ Sub m m' ∧ ∀ s, s.buf = s0.buf → Ok m s → Inv m' (s :: objs) := by
  rcases h0 with rfl | ⟨id, off, b, rfl, hb, ho⟩
  · have hsub : Sub m { m with nulls := m.nulls + 1 } := fun id b h => ⟨b, h, rfl, rfl, rfl⟩
    have hsub' : Sub { m with nulls := m.nulls + 1 } m := fun id b h => ⟨b, h, rfl, rfl, rfl⟩
    refine ⟨_, rfl, hsub', hsub, fun s hs hok => ?_⟩
    refine ⟨?_, ?_, hi.shape, hi.apart, ?_⟩
    · intro o hm
      rcases List.mem_cons.mp hm with rfl | hm
      · exact hok.sub hsub
      · exact (hi.ok o hm).sub hsub
    · intro id b hb
      rw [uses_cons, hs, if_neg (by simp)]
      exact hi.counts id b hb
    · rw [uses_cons, hs, if_pos rfl]
      show m.nulls + 1 = _
      rw [hi.nulls]; omega
  · have hlt := buf_lt hb
    have hbuf : ∀ j, (m.put id (some { b with links := b.links + 1 })).buf j =
        if j = id then some { b with links := b.links + 1 } else m.buf j := fun j => buf_put m id j _ hlt
    have hsub : Sub m (m.put id (some { b with links := b.links + 1 })) := by
      intro j x hx
      rw [hbuf]
      by_cases hj : j = id
      · subst hj
        rw [hb] at hx
        cases hx
        exact ⟨_, if_pos rfl, rfl, rfl, rfl⟩
      · exact ⟨x, by rw [if_neg hj, hx], rfl, rfl, rfl⟩
    have hsub' : Sub (m.put id (some { b with links := b.links + 1 })) m := by
      intro j x hx
      rw [hbuf] at hx
      by_cases hj : j = id
      · subst hj
        rw [if_pos rfl] at hx
        cases hx
        exact ⟨b, hb, rfl, rfl, rfl⟩
      · rw [if_neg hj] at hx
        exact ⟨x, hx, rfl, rfl, rfl⟩
    refine ⟨_, by simp only [link, hb, Option.map_some], hsub', hsub, fun s hs hok => ?_⟩
    refine ⟨?_, ?_, ?_, ?_, ?_⟩
    · intro o hm
      rcases List.mem_cons.mp hm with rfl | hm
      · exact hok.sub hsub
      · exact (hi.ok o hm).sub hsub
    · intro j x hx
      rw [hbuf] at hx
      rw [uses_cons, hs]
      by_cases hj : j = id
      · subst hj
        rw [if_pos rfl] at hx
        cases hx
        have := hi.counts _ b hb
        rw [if_pos rfl]
        exact ⟨by show b.links + 1 = _; omega, by show 0 < b.links + 1; omega⟩
      · rw [if_neg hj] at hx
        rw [if_neg (by simpa using Ne.symm hj)]
        exact hi.counts j x hx
    · intro j x hx
      obtain ⟨y, hy, e1, e2, e3⟩ := hsub' j x hx
      have := hi.shape j y hy
      rw [← e1, ← e2, ← e3]; exact this
    · intro i j bi bj h1 h2 hne
      obtain ⟨y, hy, -, e2, e3⟩ := hsub' i bi h1
      obtain ⟨z, hz, -, f2, f3⟩ := hsub' j bj h2
      rw [← e2, ← e3, ← f2, ← f3]
      exact hi.apart i j y z hy hz hne
    · rw [uses_cons, hs, if_neg (by simp)]
      exact hi.nulls

/-- Letting go of an object. -/
theorem unlink_spec (m : Mem) (objs : List Str) (s : Str) (hi : Inv m (s :: objs)) :
    ∃ m', unlink m s.buf = some m' ∧ Sub m' m ∧ Inv m' objs ∧ (∀ o ∈ objs, val m' o = val m o) ∧
      ∀ id b, m.buf id = some b → (s.buf ≠ .blk id ∨ 1 < b.links) → ∃ b', m'.buf id = some b' ∧ b'.data = b.data := by
  rcases hi.ok s (List.mem_cons_self ..) with rfl | ⟨id, off, b, rfl, hb, ho⟩
  · have hn := hi.nulls
    rw [uses_cons, if_pos rfl] at hn
    have hsub : Sub m { m with nulls := m.nulls - 1 } := fun id b h => ⟨b, h, rfl, rfl, rfl⟩
    refine ⟨{ m with nulls := m.nulls - 1 }, ?_, fun id b h => ⟨b, h, rfl, rfl, rfl⟩, ?_, ?_, ?_⟩
    · simp only [unlink]
      rw [if_neg (by omega)]
    · refine ⟨fun o ho => (hi.ok o (List.mem_cons_of_mem _ ho)).sub hsub, ?_, hi.shape, hi.apart, ?_⟩
      · intro id b hb
        have := hi.counts id b hb
        rw [uses_cons, if_neg (by simp)] at this
        exact this
      · show m.nulls - 1 = _
        omega
    · intro o ho
      exact val_sub (hi.ok o (List.mem_cons_of_mem _ ho)) hsub
    · intro id b hb _
      exact ⟨b, hb, rfl⟩
  · have hc := hi.counts id b hb
    rw [uses_cons, if_pos rfl] at hc
    have hlt := buf_lt hb
    by_cases h1 : b.links = 1
    · have hbuf : ∀ j, (m.put id none).buf j = if j = id then none else m.buf j := fun j => buf_put m id j _ hlt
      have hsub' : Sub (m.put id none) m := by
        intro j x hx
        rw [hbuf] at hx
        by_cases hj : j = id
        · rw [if_pos hj] at hx; cases hx
        · rw [if_neg hj] at hx
          exact ⟨x, hx, rfl, rfl, rfl⟩
      have hno : ∀ o ∈ objs, o.buf ≠ .blk id := by
        intro o ho he
        have : 0 < uses (.blk id) objs := by
          unfold uses
          exact List.countP_pos_iff.mpr ⟨o, ho, by simpa using he⟩
        omega
      have hok : ∀ o ∈ objs, Ok (m.put id none) o := by
        intro o ho
        rcases hi.ok o (List.mem_cons_of_mem _ ho) with h | ⟨j, off', x, h, hx, hof⟩
        · exact Or.inl h
        · refine Or.inr ⟨j, off', x, h, ?_, hof⟩
          rw [hbuf, if_neg, hx]
          intro e
          subst e
          exact hno o ho (by rw [h])
      refine ⟨m.put id none, ?_, hsub', ⟨hok, ?_, ?_, ?_, ?_⟩, ?_, ?_⟩
      · simp only [unlink, hb, Option.bind_some]
        rw [if_neg (by omega), if_pos h1]
      · intro j x hx
        rw [hbuf] at hx
        by_cases hj : j = id
        · rw [if_pos hj] at hx; cases hx
        · rw [if_neg hj] at hx
          have := hi.counts j x hx
          rw [uses_cons, if_neg (by simpa using Ne.symm hj)] at this
          exact this
      · intro j x hx
        obtain ⟨y, hy, e1, e2, e3⟩ := hsub' j x hx
        have := hi.shape j y hy
        rw [← e1, ← e2, ← e3]; exact this
      · intro i j bi bj g1 g2 hne
        obtain ⟨y, hy, -, e2, e3⟩ := hsub' i bi g1
        obtain ⟨z, hz, -, f2, f3⟩ := hsub' j bj g2
        rw [← e2, ← e3, ← f2, ← f3]
        exact hi.apart i j y z hy hz hne
      · have := hi.nulls
        rw [uses_cons, if_neg (by simp)] at this
        exact this
      · intro o ho
        exact (val_sub (hok o ho) hsub').symm
      · intro j x hx hj
        refine ⟨x, ?_, rfl⟩
        rw [hbuf, if_neg, hx]
        intro e
        subst e
        rw [hb] at hx
        cases hx
        rcases hj with hj | hj
        · exact hj rfl
        · omega
    · have hbuf : ∀ j, (m.put id (some { b with links := b.links - 1 })).buf j =
          if j = id then some { b with links := b.links - 1 } else m.buf j := fun j => buf_put m id j _ hlt
      have hsub : Sub m (m.put id (some { b with links := b.links - 1 })) := by
        intro j x hx
        rw [hbuf]
        by_cases hj : j = id
        · subst hj
          rw [hb] at hx
          cases hx
          exact ⟨_, if_pos rfl, rfl, rfl, rfl⟩
        · exact ⟨x, by rw [if_neg hj, hx], rfl, rfl, rfl⟩
      have hsub' : Sub (m.put id (some { b with links := b.links - 1 })) m := by
        intro j x hx
        rw [hbuf] at hx
        by_cases hj : j = id
        · subst hj
          rw [if_pos rfl] at hx
          cases hx
          exact ⟨b, hb, rfl, rfl, rfl⟩
        · rw [if_neg hj] at hx
          exact ⟨x, hx, rfl, rfl, rfl⟩
      refine ⟨_, ?_, hsub', ⟨?_, ?_, ?_, ?_, ?_⟩, ?_, ?_⟩
      · simp only [unlink, hb, Option.bind_some]
        rw [if_neg (by omega), if_neg h1]
      · intro o ho
        exact (hi.ok o (List.mem_cons_of_mem _ ho)).sub hsub
      · intro j x hx
        rw [hbuf] at hx
        by_cases hj : j = id
        · subst hj
          rw [if_pos rfl] at hx
          cases hx
          exact ⟨by show b.links - 1 = _; omega, by show 0 < b.links - 1; omega⟩
        · rw [if_neg hj] at hx
          have := hi.counts j x hx
          rw [uses_cons, if_neg (by simpa using Ne.symm hj)] at this
          exact this
      · intro j x hx
        obtain ⟨y, hy, e1, e2, e3⟩ := hsub' j x hx
        have := hi.shape j y hy
        rw [← e1, ← e2, ← e3]; exact this
      · intro i j bi bj g1 g2 hne
        obtain ⟨y, hy, -, e2, e3⟩ := hsub' i bi g1
        obtain ⟨z, hz, -, f2, f3⟩ := hsub' j bj g2
        rw [← e2, ← e3, ← f2, ← f3]
        exact hi.apart i j y z hy hz hne
      · have := hi.nulls
        rw [uses_cons, if_neg (by simp)] at this
        exact this
      · intro o ho
        exact val_sub (hi.ok o (List.mem_cons_of_mem _ ho)) hsub
      · intro j x hx _
        obtain ⟨x', h', e, -, -⟩ := hsub j x hx
        exact ⟨x', h', e⟩

/-! ### Texts -/

theorem takeWhile_zero (l r : List Byte) : (l ++ 0 :: r).takeWhile (· != 0) = l.takeWhile (· != 0) := by
  induction l with
  | nil => simp
  | cons c l ih =>
    rw [List.cons_append, List.takeWhile_cons, List.takeWhile_cons, ih]

theorem takeWhile_no (l : List Byte) : (0 : Byte) ∉ l.takeWhile (· != 0) := by
  induction l with
  | nil => simp
  | cons c l ih =>
    rw [List.takeWhile_cons]
    split
    · rename_i hc
      intro h
      rcases List.mem_cons.mp h with h | h
      · rw [← h] at hc; simp at hc
      · exact ih h
    · simp

theorem split_zero (l : List Byte) (h : (0 : Byte) ∈ l) : ∃ r, l = l.takeWhile (· != 0) ++ 0 :: r := by
  induction l with
  | nil => simp at h
  | cons c l ih =>
    by_cases hc : c = 0
    · subst hc
      exact ⟨l, by simp⟩
    · obtain ⟨r, hr⟩ := ih (by rcases List.mem_cons.mp h with h | h; exact absurd h.symm hc; exact h)
      refine ⟨r, ?_⟩
      rw [List.takeWhile_cons, if_pos (by simpa using hc), List.cons_append, ← hr]

theorem last_drop (l : List Byte) (k : Nat) (h : l.getLast? = some 0) (hk : k < l.length) :
    (l.drop k).getLast? = some 0 := by
  rw [List.getLast?_drop, if_neg (by omega)]; exact h

/-- The text of an object. -/
theorem text_ok {m : Mem} {objs : List Str} (hi : Inv m objs) (id off : Nat) (b : Buf) (hb : m.buf id = some b)
    (ho : off < b.data.length) : ∃ t r, text m (.at id off) = some t ∧ (0 : Byte) ∉ t ∧ b.data.drop off = t ++ 0 :: r := by
  have hmem : (0 : Byte) ∈ b.data.drop off := List.mem_of_getLast? (last_drop _ _ (hi.shape id b hb).2.1 ho)
  obtain ⟨r, hr⟩ := split_zero _ hmem
  refine ⟨(b.data.drop off).takeWhile (· != 0), r, ?_, takeWhile_no _, hr⟩
  simp only [text, hb, Option.bind_some]
  rw [if_pos hmem]

theorem text_eq {m : Mem} (id off : Nat) (b : Buf) (hb : m.buf id = some b) (l r : List Byte)
    (h : b.data.drop off = l ++ 0 :: r) : text m (.at id off) = some (l.takeWhile (· != 0)) := by
  simp only [text, hb, Option.bind_some, h, takeWhile_zero]
  rw [if_pos (by simp)]

theorem takeWhile_all (l : List Byte) (h : (0 : Byte) ∉ l) : l.takeWhile (· != 0) = l :=
  Lemmas.Format.takeWhile_all l h

/-! ### New buffers -/

/-- The buffer that `alloc` and a copy of a text give. -/
def fresh (base : Nat) (t : List Byte) (l : Nat) : Buf :=
  ⟨base, header + t.length + 1 ||| 3, l, t ++ List.replicate ((header + t.length + 1 ||| 3) - header - t.length) 0⟩

theorem alloc_eq (A : Calloc) (m : Mem) (n l : Nat) : alloc A m n l =
    (push m ⟨A m (header + n + 1 ||| 3), header + n + 1 ||| 3, l, List.replicate ((header + n + 1 ||| 3) - header) 0⟩,
      m.heap.length) := rfl

theorem room_le (n : Nat) : n + 1 ≤ (header + n + 1 ||| 3) - header := by
  have := (Props.FormatFacts.or3 (header + n + 1)).1
  unfold header at *
  omega

theorem write_alloc (A : Calloc) (m : Mem) (t : List Byte) (l : Nat) :
    write (alloc A m t.length l).1 m.heap.length 0 t =
      some (push m (fresh (A m (header + t.length + 1 ||| 3)) t l)) := by
  have := room_le t.length
  rw [alloc_eq, write, buf_push, if_pos rfl, Option.bind_some]
  simp only [List.length_replicate, Nat.zero_add, List.take_zero, List.nil_append, List.drop_replicate]
  rw [if_pos (by omega), put_push_new]
  rfl

theorem write_alloc' (A : Calloc) (m : Mem) (t : List Byte) (l : Nat) :
    write (alloc A m t.length l).1 m.heap.length 0 (t ++ [0]) =
      some (push m (fresh (A m (header + t.length + 1 ||| 3)) t l)) := by
  have := room_le t.length
  rw [alloc_eq, write, buf_push, if_pos rfl, Option.bind_some]
  simp only [List.length_replicate, Nat.zero_add, List.take_zero, List.nil_append, List.drop_replicate,
    List.length_append, List.length_singleton]
  rw [if_pos (by omega), put_push_new]
  unfold fresh
  have e : (header + t.length + 1 ||| 3) - header - t.length = ((header + t.length + 1 ||| 3) - header - (t.length + 1)) + 1 := by
    omega
  rw [e, List.replicate_succ, List.append_assoc]
  rfl

theorem inv_new (m : Mem) (objs : List Str) (hi : Inv m objs) (base : Nat) (t : List Byte) (hpos : 0 < base)
    (hfr : ∀ id b, m.buf id = some b → base + (header + t.length + 1 ||| 3) ≤ b.base ∨ b.base + b.size ≤ base) :
    Inv (push m (fresh base t 1)) (⟨.blk m.heap.length, .at m.heap.length 0⟩ :: objs) := by
  have hroom := room_le t.length
  have hsize : (fresh base t 1).data.length = (header + t.length + 1 ||| 3) - header := by
    simp only [fresh, List.length_append, List.length_replicate]; omega
  have hno : uses (.blk m.heap.length) objs = 0 := by
    unfold uses
    rw [List.countP_eq_zero]
    intro o ho he
    simp only [decide_eq_true_eq] at he
    rcases hi.ok o ho with h | ⟨j, off, b, h, hb, -⟩
    · rw [h] at he; cases he
    · rw [h] at he
      cases he
      have := buf_lt hb
      omega
  refine ⟨?_, ?_, ?_, ?_, ?_⟩
  · intro o ho
    rcases List.mem_cons.mp ho with rfl | ho
    · refine Or.inr ⟨m.heap.length, 0, fresh base t 1, rfl, by rw [buf_push, if_pos rfl], by omega⟩
    · exact (hi.ok o ho).sub (sub_push _ _)
  · intro j x hx
    rw [buf_push] at hx
    rw [uses_cons]
    by_cases hj : j = m.heap.length
    · subst hj
      rw [if_pos rfl] at hx
      cases hx
      rw [if_pos rfl, hno]
      exact ⟨rfl, by show 0 < 1; omega⟩
    · rw [if_neg hj] at hx
      rw [if_neg (by simpa using Ne.symm hj)]
      exact hi.counts j x hx
  · intro j x hx
    rw [buf_push] at hx
    by_cases hj : j = m.heap.length
    · rw [if_pos hj] at hx
      cases hx
      refine ⟨?_, ?_, hpos⟩
      · rw [hsize]; show (header + t.length + 1 ||| 3) = _; omega
      · obtain ⟨k, hk⟩ : ∃ k, (header + t.length + 1 ||| 3) - header - t.length = k + 1 := ⟨_, (Nat.sub_add_cancel (by omega)).symm⟩
        show (t ++ List.replicate _ 0).getLast? = _
        rw [hk, List.replicate_succ', ← List.append_assoc, List.getLast?_concat]
    · rw [if_neg hj] at hx
      exact hi.shape j x hx
  · intro i j bi bj g1 g2 hne
    rw [buf_push] at g1 g2
    by_cases h1 : i = m.heap.length
    · rw [if_pos h1] at g1
      rw [if_neg (by omega)] at g2
      cases g1
      exact hfr j bj g2
    · rw [if_neg h1] at g1
      by_cases h2 : j = m.heap.length
      · rw [if_pos h2] at g2
        cases g2
        exact (hfr i bi g1).symm
      · rw [if_neg h2] at g2
        exact hi.apart i j bi bj g1 g2 hne
  · rw [uses_cons, if_neg (by simp)]
    exact hi.nulls

theorem val_new (m : Mem) (base : Nat) (t : List Byte) (l : Nat) (hz : (0 : Byte) ∉ t) :
    val (push m (fresh base t l)) ⟨.blk m.heap.length, .at m.heap.length 0⟩ = some (some t) := by
  have hroom := room_le t.length
  obtain ⟨k, hk⟩ : ∃ k, (header + t.length + 1 ||| 3) - header - t.length = k + 1 := ⟨_, (Nat.sub_add_cancel (by omega)).symm⟩
  have hd : (fresh base t l).data.drop 0 = t ++ 0 :: List.replicate k 0 := by
    rw [List.drop_zero]
    show t ++ List.replicate _ 0 = _
    rw [hk, List.replicate_succ]
  unfold val
  rw [if_neg (by simp), text_eq _ _ (fresh base t l) (by rw [buf_push, if_pos rfl]) _ _ hd, takeWhile_all t hz]
  rfl

/-- `unique()` of an object that shares its buffer. -/
theorem unique_shared (A : Calloc) (m m2 : Mem) (s : Str) (l : Nat) (t : List Byte) (hl : links m s.buf = some l)
    (h1 : 1 < l) (hn : s.str ≠ .null) (ht : text m s.str = some t) (hu : unlink m s.buf = some m2) :
    unique A m s = some (push m2 (fresh (A m (header + t.length + 1 ||| 3)) t 1),
      ⟨.blk m2.heap.length, .at m2.heap.length 0⟩) := by
  have hlen := unlink_length m s.buf m2 hu
  have hp := unlink_push m (fresh (A m (header + t.length + 1 ||| 3)) t 0) s.buf m2 hu
  have hw := write_alloc A m t 0
  have e2 : (alloc A m t.length 0).2 = m.heap.length := rfl
  unfold unique
  rw [hl, Option.bind_some, if_neg (by rintro (h | h); omega; exact hn h), ht, Option.bind_some]
  dsimp only
  rw [e2, hw, Option.bind_some, hp, Option.bind_some]
  simp only [link, ← hlen]
  rw [buf_push, if_pos rfl, Option.map_some, put_push_new]
  rfl

/-- `unique()` of a variable. -/
theorem unique_spec (A : Calloc) (hA : Allocates A) (m : Mem) (objs : List Str) (s : Str) (x : Option (List Byte))
    (hi : Inv m (s :: objs)) (hv : val m s = some x) : ∃ m' s', unique A m s = some (m', s') ∧ Inv m' (s' :: objs) ∧
      val m' s' = some x ∧ (∀ o ∈ objs, val m' o = val m o) ∧
      (s'.str = .null ∨ ∃ id b, s'.buf = .blk id ∧ m'.buf id = some b ∧ b.links = 1) := by
  rcases hi.ok s (List.mem_cons_self ..) with rfl | ⟨id, off, b, rfl, hb, ho⟩
  · refine ⟨m, _, ?_, hi, hv, fun _ _ => rfl, Or.inl rfl⟩
    unfold unique
    simp [links]
  · have hc := (hi.counts id b hb).2
    by_cases h1 : b.links ≤ 1
    · refine ⟨m, _, ?_, hi, hv, fun _ _ => rfl, Or.inr ⟨id, b, rfl, hb, by omega⟩⟩
      unfold unique
      simp only [links, hb, Option.map_some, Option.bind_some]
      rw [if_pos (Or.inl h1)]
    · obtain ⟨t, r, ht, hz, -⟩ := text_ok hi id off b hb ho
      obtain ⟨m2, hu, hsub, hi2, hvals, -⟩ := unlink_spec m objs _ hi
      have he := unique_shared A m m2 ⟨.blk id, .at id off⟩ b.links t (by simp [links, hb]) (by omega) (by simp) ht hu
      have hx : x = some t := by
        unfold val at hv
        rw [if_neg (by simp), ht] at hv
        simpa using hv.symm
      refine ⟨_, _, he, ?_, ?_, ?_, Or.inr ⟨_, _, rfl, by rw [buf_push, if_pos rfl], rfl⟩⟩
      · refine inv_new m2 objs hi2 _ t (hA m _).1 ?_
        intro j y hy
        obtain ⟨y', hy', -, e2, e3⟩ := hsub j y hy
        rw [← e2, ← e3]
        exact (hA m _).2 j y' hy'
      · rw [val_new m2 _ t 1 hz, hx]
      · intro o ho'
        rw [val_sub (hi2.ok o ho') (sub_push _ _), hvals o ho']

/-- A string of chars, perhaps null: what `link(&nullbuf, p); unique();` gives. -/
theorem chars_spec (A : Calloc) (hA : Allocates A) (m : Mem) (objs : List Str) (p : Ptr) (x : Option (List Byte))
    (hi : Inv m objs) (hp : (p = .null ∧ x = none) ∨ ∃ t, p ≠ .null ∧ text m p = some t ∧ (0 : Byte) ∉ t ∧ x = some t) :
    Result m objs ((link m .nul).bind fun m => unique A m ⟨.nul, p⟩) x := by
  obtain ⟨m1, h1, -, hs1, hl⟩ := link_spec m objs ⟨.nul, .null⟩ hi (Or.inl rfl)
  have hi1 := hl ⟨.nul, .null⟩ rfl (Or.inl rfl)
  have hm1 : m1 = { m with nulls := m.nulls + 1 } := by
    simp only [link, Option.some.injEq] at h1
    exact h1.symm
  have hn := hi1.nulls
  rw [uses_cons, if_pos rfl] at hn
  rw [show link m .nul = some m1 from h1, Option.bind_some]
  rcases hp with ⟨rfl, rfl⟩ | ⟨t, hne, ht, hz, rfl⟩
  · refine ⟨m1, ⟨.nul, .null⟩, ?_, hi1, rfl, ?_⟩
    · unfold unique
      simp [links]
    · intro o ho
      exact val_sub (hi.ok o ho) hs1
  · have ht1 : text m1 p = some t := by rw [hm1]; exact ht
    obtain ⟨m2, hu, hsub, hi2, hvals, -⟩ := unlink_spec m1 objs ⟨.nul, .null⟩ hi1
    have he := unique_shared A m1 m2 ⟨.nul, p⟩ m1.nulls t rfl (by omega) hne ht1 hu
    refine ⟨_, _, he, ?_, val_new m2 _ t 1 hz, ?_⟩
    · refine inv_new m2 objs hi2 _ t (hA m1 _).1 ?_
      intro j y hy
      obtain ⟨y', hy', -, e2, e3⟩ := hsub j y hy
      rw [← e2, ← e3]
      exact (hA m1 _).2 j y' hy'
    · intro o ho
      rw [val_sub (hi2.ok o ho) (sub_push _ _), hvals o ho, val_sub (hi.ok o ho) hs1]

/-! ### Writing -/

/-- Storing bytes in a buffer that one object uses. -/
theorem write_spec (m : Mem) (objs : List Str) (id off k : Nat) (b : Buf) (bs : List Byte)
    (hi : Inv m (⟨.blk id, .at id off⟩ :: objs)) (hb : m.buf id = some b) (h1 : b.links = 1)
    (hk : k + bs.length ≤ b.data.length)
    (hlast : (b.data.take k ++ bs ++ b.data.drop (k + bs.length)).getLast? = some 0) :
    ∃ m', write m id k bs = some m' ∧ Inv m' (⟨.blk id, .at id off⟩ :: objs) ∧ (∀ o ∈ objs, val m' o = val m o) ∧
      m'.buf id = some { b with data := b.data.take k ++ bs ++ b.data.drop (k + bs.length) } := by
  have hlt := buf_lt hb
  have hbuf := fun j => buf_put m id j (some { b with data := b.data.take k ++ bs ++ b.data.drop (k + bs.length) }) hlt
  have hlen : (b.data.take k ++ bs ++ b.data.drop (k + bs.length)).length = b.data.length := by
    simp; omega
  have hno : ∀ o ∈ objs, o.buf ≠ .blk id := by
    intro o ho he
    have hc := hi.counts id b hb
    rw [uses_cons, if_pos rfl] at hc
    have : 0 < uses (.blk id) objs := by
      unfold uses
      exact List.countP_pos_iff.mpr ⟨o, ho, by simpa using he⟩
    omega
  have hok : ∀ o, Ok m o → Ok (m.put id (some { b with data := b.data.take k ++ bs ++ b.data.drop (k + bs.length) })) o := by
    intro o h
    rcases h with h | ⟨j, off', x, h, hx, hof⟩
    · exact Or.inl h
    · by_cases hj : j = id
      · subst hj
        rw [hb] at hx
        cases hx
        exact Or.inr ⟨j, off', _, h, by rw [hbuf, if_pos rfl], by rw [hlen]; exact hof⟩
      · exact Or.inr ⟨j, off', x, h, by rw [hbuf, if_neg hj, hx], hof⟩
  refine ⟨m.put id (some { b with data := b.data.take k ++ bs ++ b.data.drop (k + bs.length) }), ?_,
    ⟨?_, ?_, ?_, ?_, ?_⟩, ?_, ?_⟩
  · simp only [write, hb, Option.bind_some]
    rw [if_pos hk]
  · intro o ho
    exact hok o (hi.ok o ho)
  · intro j x hx
    rw [hbuf] at hx
    by_cases hj : j = id
    · subst hj
      rw [if_pos rfl] at hx
      cases hx
      exact hi.counts _ b hb
    · rw [if_neg hj] at hx
      exact hi.counts j x hx
  · intro j x hx
    rw [hbuf] at hx
    by_cases hj : j = id
    · subst hj
      rw [if_pos rfl] at hx
      cases hx
      have := hi.shape _ b hb
      refine ⟨?_, hlast, this.2.2⟩
      rw [hlen]; exact this.1
    · rw [if_neg hj] at hx
      exact hi.shape j x hx
  · have key : ∀ j x, (m.put id (some { b with data := b.data.take k ++ bs ++ b.data.drop (k + bs.length) })).buf j = some x →
        ∃ y, m.buf j = some y ∧ y.base = x.base ∧ y.size = x.size := by
      intro j x hx
      rw [hbuf] at hx
      by_cases hj : j = id
      · subst hj
        rw [if_pos rfl] at hx
        cases hx
        exact ⟨b, hb, rfl, rfl⟩
      · rw [if_neg hj] at hx
        exact ⟨x, hx, rfl, rfl⟩
    intro i j bi bj g1 g2 hne
    obtain ⟨y, hy, e2, e3⟩ := key i bi g1
    obtain ⟨z, hz, f2, f3⟩ := key j bj g2
    rw [← e2, ← e3, ← f2, ← f3]
    exact hi.apart i j y z hy hz hne
  · exact hi.nulls
  · intro o ho
    rcases hi.ok o (List.mem_cons_of_mem _ ho) with h | ⟨j, off', x, h, hx, hof⟩
    · subst h; rfl
    · have hj : j ≠ id := by
        intro e
        subst e
        exact hno o ho (by rw [h])
      subst h
      simp only [val, text, hbuf, if_neg hj]
  · rw [hbuf, if_pos rfl]

end Lemmas.Strings
