import Verif.Lemmas.Strings
/-
What each operation on the reference-counted strings gives.
-/
namespace Lemmas.Strings
open Wv Wv.Strings
open Wv.Format (header)

theorem newNull_spec (m : Mem) (objs : List Str) (hi : Inv m objs) : Result m objs (newNull m) none := by
  obtain ⟨m1, h1, -, hs1, hl⟩ := link_spec m objs ⟨.nul, .null⟩ hi (Or.inl rfl)
  refine ⟨m1, ⟨.nul, .null⟩, ?_, hl _ rfl (Or.inl rfl), rfl, fun o ho => val_sub (hi.ok o ho) hs1⟩
  unfold newNull
  rw [show link m .nul = some m1 from h1]
  rfl

/-- The base class's constructor, undone. -/
theorem newNull_unlink (m : Mem) (h : 1 ≤ m.nulls) (f : Mem → Option (Mem × Str)) :
    ((newNull m).bind fun r => (unlink r.1 r.2.buf).bind f) = f m := by
  have e : unlink { m with nulls := m.nulls + 1 } .nul = some m := by
    simp only [unlink]
    rw [if_neg (by omega)]
    rfl
  simp only [newNull, link, Option.map_some, Option.bind_some, e]

theorem newText_spec (A : Calloc) (hA : Allocates A) (m : Mem) (objs : List Str) (p : Option (Nat × List Byte))
    (hi : Inv m objs) (hz : ∀ a t, p = some (a, t) → (0 : Byte) ∉ t) :
    Result m objs (newText A m (chars p)) (p.map (·.2)) := by
  have := hi.nulls
  unfold newText
  rw [newNull_unlink m (by omega)]
  refine chars_spec A hA m objs _ _ hi ?_
  match p, hz with
  | none, _ => exact Or.inl ⟨rfl, rfl⟩
  | some (a, t), hz => exact Or.inr ⟨t, by simp [chars], rfl, hz a t rfl, rfl⟩

theorem newCopy_spec (A : Calloc) (m : Mem) (objs : List Str) (s : Str) (x : Option (List Byte)) (hi : Inv m objs)
    (hs : Ok m s) (hv : val m s = some x) :
    Result m objs (newCopy A m s) x ∧ ∀ m' s', newCopy A m s = some (m', s') → m'.heap.length = m.heap.length := by
  have hn := hi.nulls
  have hb : s.buf ≠ .no := by
    rcases hs with rfl | ⟨id, off, b, rfl, -⟩ <;> simp
  obtain ⟨m1, h1, -, hs1, hl⟩ := link_spec m objs s hi hs
  have e : newCopy A m s = some (m1, s) := by
    unfold newCopy
    rw [newNull_unlink m (by omega), if_neg hb, h1]
    rfl
  refine ⟨⟨m1, s, e, hl s rfl hs, ?_, fun o ho => val_sub (hi.ok o ho) hs1⟩, ?_⟩
  · rw [val_sub hs hs1]; exact hv
  · intro m' s' h
    rw [e] at h
    cases h
    exact link_length m s.buf m1 h1
where
  link_length (m : Mem) (r : Ref) (m2 : Mem) (h : link m r = some m2) : m2.heap.length = m.heap.length := by
    cases r with
    | no => simp only [link, Option.some.injEq] at h; rw [h]
    | nul => simp only [link, Option.some.injEq] at h; rw [← h]
    | blk id =>
      simp only [link] at h
      obtain ⟨x, hx, h⟩ := Option.map_eq_some_iff.mp h
      rw [← h]; simp [Mem.put]

/-- The text from an index on. -/
theorem text_plus {m : Mem} {objs : List Str} (hi : Inv m objs) (id off i : Nat) (b : Buf) (hb : m.buf id = some b)
    (ho : off < b.data.length) (t : List Byte) (ht : text m (.at id off) = some t) (h : i ≤ t.length) :
    text m (.at id (off + i)) = some (t.drop i) ∧ off + i < b.data.length ∧ (0 : Byte) ∉ t.drop i := by
  obtain ⟨t', r, ht', hz, hd⟩ := text_ok hi id off b hb ho
  rw [ht'] at ht
  cases ht
  have hz' : (0 : Byte) ∉ t.drop i := fun hm => hz (List.mem_of_mem_drop hm)
  have hd' : b.data.drop (off + i) = t.drop i ++ 0 :: r := by
    rw [← List.drop_drop, hd, List.drop_append_of_le_length h]
  refine ⟨?_, ?_, hz'⟩
  · rw [text_eq id (off + i) b hb _ _ hd', takeWhile_all _ hz']
  · have := congrArg List.length hd'
    simp only [List.length_drop, List.length_append, List.length_cons] at this
    omega

theorem val_at {m : Mem} {id off : Nat} {x : Option (List Byte)} (h : val m ⟨.blk id, .at id off⟩ = some x) :
    ∃ t, x = some t ∧ text m (.at id off) = some t := by
  unfold val at h
  rw [if_neg (by simp)] at h
  obtain ⟨t, ht, h⟩ := Option.map_eq_some_iff.mp h
  exact ⟨t, h.symm, ht⟩

theorem offset_spec (m : Mem) (objs : List Str) (s : Str) (i : Nat) (x : Option (List Byte)) (hi : Inv m objs)
    (hs : Ok m s) (hv : val m s = some x) :
    Result m objs (offset m s i) (x.map (·.drop i)) ∧
      ∀ m' s', offset m s i = some (m', s') → s'.buf = s.buf ∧ m'.heap.length = m.heap.length := by
  obtain ⟨m1, h1, hs1', hs1, hl⟩ := link_spec m objs s hi hs
  have hlen := newCopy_spec.link_length m s.buf m1 h1
  rcases hs with rfl | ⟨id, off, b, rfl, hb, ho⟩
  · have hx : x = none := by
      unfold val at hv
      rw [if_pos rfl] at hv
      cases hv; rfl
    have e : offset m ⟨.nul, .null⟩ i = some (m1, ⟨.nul, .null⟩) := by
      unfold offset
      rw [h1]; rfl
    refine ⟨⟨m1, _, e, hl _ rfl (Or.inl rfl), by rw [hx]; rfl, fun o ho => val_sub (hi.ok o ho) hs1⟩, ?_⟩
    intro m' s' h
    rw [e] at h
    cases h
    exact ⟨rfl, hlen⟩
  · obtain ⟨t, rfl, ht⟩ := val_at hv
    have hp := text_plus hi id off (min i t.length) b hb ho t ht (by omega)
    have ht1 : text m1 (.at id off) = some t := by rw [text_sub id off b hb hs1, ht]
    have e : offset m ⟨.blk id, .at id off⟩ i = some (m1, ⟨.blk id, .at id (off + min i t.length)⟩) := by
      unfold offset
      rw [h1, Option.bind_some]
      simp only [ht1, Option.map_some]
    refine ⟨⟨m1, _, e, hl _ rfl (Or.inr ⟨id, _, b, rfl, hb, hp.2.1⟩), ?_, fun o ho => val_sub (hi.ok o ho) hs1⟩, ?_⟩
    · unfold val
      rw [if_neg (by simp), text_sub id _ b hb hs1, hp.1]
      simp only [Option.map_some, Option.some.injEq]
      by_cases hle : i ≤ t.length
      · rw [Nat.min_eq_left hle]
      · rw [Nat.min_eq_right (by omega), List.drop_length, List.drop_eq_nil_of_le (by omega)]
    · intro m' s' h
      rw [e] at h
      cases h
      exact ⟨rfl, hlen⟩

/-- Addresses of pointers into buffers. -/
theorem addr_at {m : Mem} {id off : Nat} {b : Buf} (h : m.buf id = some b) :
    addr m (.at id off) = some (b.base + header + off) := by simp [addr, h]

theorem addr_ok {m : Mem} {s : Str} (h : Ok m s) : ∃ a, addr m s.str = some a := by
  rcases h with rfl | ⟨id, off, b, rfl, hb, -⟩
  · exact ⟨0, rfl⟩
  · exact ⟨_, addr_at hb⟩

/-- Two objects with the same buffer and address are the same. -/
theorem same_of_addr {m : Mem} {s s2 : Str} (h : Ok m s) (h2 : Ok m s2) (hb : s2.buf = s.buf) (ha : addr m s2.str = addr m s.str) :
    s2 = s := by
  rcases h with rfl | ⟨id, off, b, rfl, hid, -⟩
  · rcases h2 with rfl | ⟨id, off, b, rfl, -, -⟩
    · rfl
    · cases hb
  · rcases h2 with rfl | ⟨id', off', b', rfl, hid', -⟩
    · cases hb
    · cases hb
      rw [addr_at hid, addr_at hid'] at ha
      rw [hid] at hid'
      cases hid'
      simp only [Option.some.injEq, Nat.add_left_cancel_iff] at ha
      rw [ha]

/-- Taking over another object's buffer: the last lines of both assignments. -/
theorem relink_spec (m : Mem) (objs : List Str) (s s2 : Str) (x : Option (List Byte)) (hi : Inv m (s :: objs)) (h2 : s2 ∈ objs)
    (hv : val m s2 = some x) :
    Result m objs ((unlink m s.buf).bind fun m => (link m s2.buf).map fun m => (m, s2)) x := by
  obtain ⟨m1, hu, -, hi1, hvals, -⟩ := unlink_spec m objs s hi
  obtain ⟨m2, hl, -, hs2, hinv⟩ := link_spec m1 objs s2 hi1 (hi1.ok s2 h2)
  refine ⟨m2, s2, ?_, hinv s2 rfl (hi1.ok s2 h2), ?_, ?_⟩
  · rw [hu, Option.bind_some, hl]; rfl
  · rw [val_sub (hi1.ok s2 h2) hs2, hvals s2 h2, hv]
  · intro o ho
    rw [val_sub (hi1.ok o ho) hs2, hvals o ho]

theorem relink_length (m m' : Mem) (s s2 s' : Str)
    (h : ((unlink m s.buf).bind fun m => (link m s2.buf).map fun m => (m, s2)) = some (m', s')) :
    m'.heap.length = m.heap.length := by
  obtain ⟨m1, h1, h⟩ := Option.bind_eq_some_iff.mp h
  obtain ⟨m2, h2, h⟩ := Option.map_eq_some_iff.mp h
  cases h
  rw [newCopy_spec.link_length _ _ _ h2, unlink_length _ _ _ h1]

theorem fastAssign_spec (m : Mem) (objs : List Str) (s s2 : Str) (x : Option (List Byte)) (hi : Inv m (s :: objs))
    (h2 : s2 ∈ s :: objs) (hv : val m s2 = some x) : Result m objs (fastAssign m s s2) x := by
  have hok := hi.ok s (List.mem_cons_self ..)
  obtain ⟨a2, ha2⟩ := addr_ok (hi.ok s2 h2)
  obtain ⟨a1, ha1⟩ := addr_ok hok
  unfold fastAssign
  rw [ha2, ha1, Option.bind_some, Option.bind_some]
  by_cases h : s2.buf = s.buf ∧ a2 = a1
  · rw [if_pos h]
    have e := same_of_addr hok (hi.ok s2 h2) h.1 (by rw [ha2, ha1, h.2])
    subst e
    exact ⟨m, s2, rfl, hi, hv, fun _ _ => rfl⟩
  · rw [if_neg h]
    refine relink_spec m objs s s2 x hi ?_ hv
    rcases List.mem_cons.mp h2 with rfl | h2
    · rw [ha1] at ha2
      cases ha2
      exact absurd ⟨rfl, rfl⟩ h
    · exact h2

theorem fastAssign_length (m m' : Mem) (s s2 s' : Str) (h : fastAssign m s s2 = some (m', s')) :
    m'.heap.length = m.heap.length := by
  unfold fastAssign at h
  obtain ⟨a2, -, h⟩ := Option.bind_eq_some_iff.mp h
  obtain ⟨a1, -, h⟩ := Option.bind_eq_some_iff.mp h
  split at h
  · cases h; rfl
  · exact relink_length m m' s s2 s' h

theorem assign_spec (A : Calloc) (m : Mem) (objs : List Str) (s s2 : Str) (x : Option (List Byte)) (hi : Inv m (s :: objs))
    (h2 : s2 ∈ s :: objs) (hv : val m s2 = some x) :
    Result m objs (assign A m s s2) x ∧ ∀ m' s', assign A m s s2 = some (m', s') → m'.heap.length = m.heap.length := by
  have hok := hi.ok s (List.mem_cons_self ..)
  have hok2 := hi.ok s2 h2
  have hno : s2.buf ≠ .no := by
    rcases hok2 with h | ⟨id, off, b, h, -⟩ <;> rw [h] <;> simp
  obtain ⟨a2, ha2⟩ := addr_ok hok2
  obtain ⟨a1, ha1⟩ := addr_ok hok
  unfold assign
  rw [ha2, ha1, Option.bind_some, Option.bind_some]
  by_cases h : a2 = a1 ∧ (s2.buf = .no ∨ s2.buf = s.buf)
  · rw [if_pos h]
    have e := same_of_addr hok hok2 (h.2.resolve_left hno) (by rw [ha2, ha1, h.1])
    subst e
    refine ⟨⟨m, s2, rfl, hi, hv, fun _ _ => rfl⟩, ?_⟩
    intro m' s' h
    cases h; rfl
  · rw [if_neg h, if_neg hno]
    refine ⟨relink_spec m objs s s2 x hi ?_ hv, fun m' s' h => relink_length m m' s s2 s' h⟩
    rcases List.mem_cons.mp h2 with rfl | h2
    · rw [ha1] at ha2
      cases ha2
      exact absurd ⟨rfl, Or.inr rfl⟩ h
    · exact h2

/-- Copying chars after letting go of the old buffer. -/
theorem reassign_spec (A : Calloc) (hA : Allocates A) (m : Mem) (objs : List Str) (s : Str) (p : Ptr) (x : Option (List Byte))
    (hi : Inv m (s :: objs))
    (hp : ∀ m2, unlink m s.buf = some m2 →
      (p = .null ∧ x = none) ∨ ∃ t, p ≠ .null ∧ text m2 p = some t ∧ (0 : Byte) ∉ t ∧ x = some t) :
    Result m objs (reassign A m s p) x := by
  obtain ⟨m1, hu, -, hi1, hvals, -⟩ := unlink_spec m objs s hi
  obtain ⟨m2, s2, h2, hi2, hv2, hvals2⟩ := chars_spec A hA m1 objs p x hi1 (hp m1 hu)
  refine ⟨m2, s2, ?_, hi2, hv2, fun o ho => by rw [hvals2 o ho, hvals o ho]⟩
  unfold reassign
  rw [hu, Option.bind_some]
  exact h2

/-- The overlap test, which keeps the buffer. -/
def Near (m : Mem) (s : Str) (a2 : Nat) : Prop :=
  ∃ id b a1, s.buf = .blk id ∧ m.buf id = some b ∧ b.links = 1 ∧ addr m s.str = some a1 ∧ a1 < a2 ∧ a2 ≤ a1 + b.size

/-- A string of the program's own is outside of all buffers. -/
def Outside (m : Mem) (a : Nat) (t : List Byte) : Prop :=
  0 < a ∧ ∀ id b, m.buf id = some b → a + t.length + 1 ≤ b.base ∨ b.base + b.size ≤ a

theorem assignChars_far (A : Calloc) (m : Mem) (s : Str) (p : Ptr) (a1 a2 : Nat) (hs : Ok m s) (ha1 : addr m s.str = some a1)
    (hn : ¬ Near m s a2) : assignChars A m s p a1 a2 = reassign A m s p := by
  rcases hs with rfl | ⟨id, off, b, rfl, hb, -⟩
  · rfl
  · unfold assignChars
    simp only [hb, Option.bind_some]
    rw [if_neg]
    intro h
    exact hn ⟨id, b, a1, rfl, hb, h.1, ha1, h.2.1, h.2.2⟩

theorem assignText_spec (A : Calloc) (hA : Allocates A) (m : Mem) (objs : List Str) (s : Str) (p : Option (Nat × List Byte))
    (hi : Inv m (s :: objs)) (hz : ∀ a t, p = some (a, t) → (0 : Byte) ∉ t ∧ Outside m a t ∧ ¬ Near m s a) :
    Result m objs (assign A m s ⟨.no, chars p⟩) (p.map (·.2)) := by
  have hok := hi.ok s (List.mem_cons_self ..)
  obtain ⟨a1, ha1⟩ := addr_ok hok
  unfold assign
  match p, hz with
  | none, _ =>
    rw [show addr m (chars none) = some 0 from rfl, Option.bind_some, ha1, Option.bind_some]
    by_cases h : 0 = a1
    · rw [if_pos ⟨h, Or.inl rfl⟩]
      refine ⟨m, s, rfl, hi, ?_, fun _ _ => rfl⟩
      rcases hok with rfl | ⟨id, off, b, rfl, hb, -⟩
      · rfl
      · rw [addr_at hb] at ha1
        have := (hi.shape id b hb).2.2
        simp only [Option.some.injEq] at ha1
        omega
    · rw [if_neg (fun hh => h hh.1), if_pos rfl, assignChars_far A m s _ a1 0 hok ha1]
      · exact reassign_spec A hA m objs s _ _ hi fun _ _ => Or.inl ⟨rfl, rfl⟩
      · rintro ⟨id, b, x, -, -, -, hx, hlt, -⟩
        omega
  | some (a, t), hz =>
    obtain ⟨hzt, hout, hnear⟩ := hz a t rfl
    rw [show addr m (chars (some (a, t))) = some a from rfl, Option.bind_some, ha1, Option.bind_some]
    rw [if_neg, if_pos rfl, assignChars_far A m s _ a1 a hok ha1 hnear]
    · exact reassign_spec A hA m objs s _ _ hi fun m2 _ => Or.inr ⟨t, by simp [chars], rfl, hzt, rfl⟩
    · rintro ⟨e, -⟩
      rcases hok with rfl | ⟨id, off, b, rfl, hb, ho⟩
      · cases ha1
        have := hout.1
        omega
      · rw [addr_at hb] at ha1
        have h1 := (hi.shape id b hb).1
        have h2 := hout.2 id b hb
        simp only [Option.some.injEq] at ha1
        omega

/-- The data after a text and its NUL were stored at the start. -/
theorem store_start (m : Mem) (objs : List Str) (id : Nat) (b : Buf) (t : List Byte) (hz : (0 : Byte) ∉ t)
    (hi : Inv m (⟨.blk id, .at id 0⟩ :: objs)) (hb : m.buf id = some b) (h1 : b.links = 1)
    (hk : t.length + 1 ≤ b.data.length) :
    Result m objs ((write m id 0 (t ++ [0])).map fun m => (m, ⟨.blk id, .at id 0⟩)) (some t) := by
  obtain ⟨m', hw, hi', hvals, hb'⟩ := write_spec m objs id 0 0 b (t ++ [0]) hi hb h1 (by simpa using hk) (by
    simp only [List.take_zero, List.nil_append, Nat.zero_add, List.length_append, List.length_singleton]
    rw [List.getLast?_append]
    by_cases he : t.length + 1 < b.data.length
    · rw [last_drop _ _ (hi.shape id b hb).2.1 he]; rfl
    · rw [List.drop_eq_nil_of_le (by omega)]; simp)
  refine ⟨m', _, by rw [hw]; rfl, hi', ?_, hvals⟩
  unfold val
  rw [if_neg (by simp), text_eq id 0 _ hb' t (b.data.drop (0 + (t ++ [0]).length)) (by simp), takeWhile_all t hz]
  rfl

theorem assignTail_spec (A : Calloc) (hA : Allocates A) (m : Mem) (objs : List Str) (s s2 : Str) (i a2 : Nat) (t : List Byte)
    (hi : Inv m (s :: objs)) (h2 : s2 ∈ s :: objs) (hv : val m s2 = some (some t)) (hle : i ≤ t.length)
    (ha2 : addr m (s2.str.plus i) = some a2)
    (hclear : Near m s a2 → s2 = s ∧ ∃ id, s.str = .at id 0) :
    Result m objs (assign A m s ⟨.no, s2.str.plus i⟩) (some (t.drop i)) := by
  have hok := hi.ok s (List.mem_cons_self ..)
  obtain ⟨a1, ha1⟩ := addr_ok hok
  rcases hi.ok s2 h2 with rfl | ⟨id2, off2, b2, rfl, hb2, ho2⟩
  · simp [val] at hv
  obtain ⟨t', e, ht⟩ := val_at hv
  cases e
  obtain ⟨htp, hop, hzp⟩ := text_plus hi id2 off2 i b2 hb2 ho2 t ht hle
  have e2 : a2 = b2.base + header + (off2 + i) := by
    rw [show Ptr.plus (.at id2 off2) i = .at id2 (off2 + i) from rfl, addr_at hb2] at ha2
    exact (Option.some.inj ha2).symm
  have hsh2 := hi.shape id2 b2 hb2
  unfold assign
  rw [ha2, Option.bind_some, ha1, Option.bind_some]
  rcases hok with rfl | ⟨id, off, b, rfl, hb, ho⟩
  · -- a null string
    cases ha1
    rw [if_neg (by rintro ⟨h, -⟩; omega), if_pos rfl, assignChars_far A m _ _ 0 a2 (Or.inl rfl) rfl (by
      rintro ⟨id, b, x, h, -⟩; cases h)]
    refine reassign_spec A hA m objs _ _ _ hi fun m2 hm2 => Or.inr ⟨t.drop i, by simp [Ptr.plus], ?_, hzp, rfl⟩
    obtain ⟨m2', hu, -, -, -, hlive⟩ := unlink_spec m objs _ hi
    rw [hm2] at hu
    cases hu
    obtain ⟨b', hb', hd'⟩ := hlive id2 b2 hb2 (Or.inl (by simp))
    rw [← htp]
    simp only [Ptr.plus, text, hb', hb2, Option.bind_some, hd']
  · rw [addr_at hb] at ha1
    have e1 := Option.some.inj ha1
    have hsh := hi.shape id b hb
    by_cases heq : a2 = a1
    · -- the same place
      rw [if_pos ⟨heq, Or.inl rfl⟩]
      have hid : id2 = id := by
        refine Decidable.byContradiction fun hne => ?_
        have := hi.apart id2 id b2 b hb2 hb hne
        omega
      subst hid
      rw [hb] at hb2
      cases hb2
      have : off2 + i = off := by omega
      subst this
      refine ⟨m, _, rfl, hi, ?_, fun _ _ => rfl⟩
      unfold val
      rw [if_neg (by simp), htp]
      rfl
    · rw [if_neg (fun h => heq h.1), if_pos rfl]
      by_cases hnear : Near m ⟨.blk id, .at id off⟩ a2
      · -- the part of our own string
        obtain ⟨hs, id0, hs0⟩ := hclear hnear
        cases hs
        cases hs0
        rw [hb] at hb2
        cases hb2
        obtain ⟨id', b', a1', h1, h2', h3, h4, h5, h6⟩ := hnear
        cases h1
        rw [hb] at h2'
        cases h2'
        rw [addr_at hb] at h4
        cases h4
        unfold assignChars
        simp only [hb, Option.bind_some]
        rw [if_pos ⟨h3, by omega, by omega⟩]
        rw [show Ptr.plus (.at id2 0) i = .at id2 (0 + i) from rfl, htp, Option.bind_some]
        refine store_start m objs id2 b2 (t.drop i) hzp hi hb h3 ?_
        obtain ⟨t', r, ht', -, hd⟩ := text_ok hi id2 0 b2 hb ho
        rw [ht] at ht'
        cases ht'
        have := congrArg List.length hd
        simp only [List.drop_zero, List.length_append, List.length_cons] at this
        rw [List.length_drop]
        omega
      · rw [assignChars_far A m _ _ a1 a2 (Or.inr ⟨id, off, b, rfl, hb, ho⟩) (by rw [addr_at hb, e1]) hnear]
        refine reassign_spec A hA m objs _ _ _ hi fun m2 hm2 => Or.inr ⟨t.drop i, by simp [Ptr.plus], ?_, hzp, rfl⟩
        obtain ⟨m2', hu, -, hi2, hvals, hlive⟩ := unlink_spec m objs _ hi
        rw [hm2] at hu
        cases hu
        have hl : ∃ b', m2.buf id2 = some b' ∧ b'.data = b2.data := by
          by_cases hid : id2 = id
          · subst hid
            rw [hb] at hb2
            cases hb2
            refine hlive id2 b2 hb (Or.inr ?_)
            rcases List.mem_cons.mp h2 with h2 | h2
            · cases h2
              refine Decidable.byContradiction fun hn => hnear ⟨id2, b2, a1, rfl, hb, ?_, by rw [addr_at hb, e1], ?_, ?_⟩
              · have := (hi.counts id2 b2 hb).2
                omega
              · omega
              · omega
            · have := (hi.counts id2 b2 hb).1
              rw [uses_cons, if_pos rfl] at this
              have h0 : 0 < uses (.blk id2) objs := List.countP_pos_iff.mpr ⟨_, h2, by simp⟩
              omega
          · exact hlive id2 b2 hb2 (Or.inl (by simpa using Ne.symm hid))
        obtain ⟨b', hb', hd'⟩ := hl
        rw [← htp]
        simp only [Ptr.plus, text, hb', hb2, Option.bind_some, hd']

theorem edit_spec (A : Calloc) (hA : Allocates A) (m : Mem) (objs : List Str) (s : Str) (i : Nat) (c : Byte) (t : List Byte)
    (hi : Inv m (s :: objs)) (hv : val m s = some (some t)) (h : i < t.length) :
    Result m objs (editAt A m s i [c]) (some ((t.set i c).takeWhile (· != 0))) := by
  obtain ⟨m1, s1, hu, hi1, hv1, hvals1, hshape⟩ := unique_spec A hA m objs s _ hi hv
  rcases hi1.ok s1 (List.mem_cons_self ..) with rfl | ⟨id, off, b, rfl, hb, ho⟩
  · simp [val] at hv1
  obtain ⟨t', e, ht⟩ := val_at hv1
  cases e
  rcases hshape with hn | ⟨id', b', hid, hb', h1⟩
  · cases hn
  cases hid
  rw [hb] at hb'
  cases hb'
  obtain ⟨t', r, ht', hz, hd⟩ := text_ok hi1 id off b hb ho
  rw [ht] at ht'
  cases ht'
  have hlen := congrArg List.length hd
  simp only [List.length_drop, List.length_append, List.length_cons] at hlen
  have hlast := (hi1.shape id b hb).2.1
  obtain ⟨m2, hw, hi2, hvals2, hb2⟩ := write_spec m1 objs id off (off + i) b [c] hi1 hb h1 (by
      simp only [List.length_singleton]; omega) (by
    rw [List.getLast?_append, last_drop _ _ hlast (by simp only [List.length_singleton]; omega)]; rfl)
  refine ⟨m2, ⟨.blk id, .at id off⟩, ?_, hi2, ?_, fun o ho => by rw [hvals2 o ho, hvals1 o ho]⟩
  · unfold editAt
    rw [hu, Option.bind_some]
    simp only [hw, Option.map_some]
  · have hd2 : (b.data.take (off + i) ++ [c] ++ b.data.drop (off + i + [c].length)).drop off = t.set i c ++ 0 :: r := by
      have e1 : b.data = b.data.take off ++ (t ++ 0 :: r) := by rw [← hd, List.take_append_drop]
      have e2 : t.set i c = t.take i ++ c :: t.drop (i + 1) := List.set_eq_take_append_cons_drop .. |>.trans (by rw [if_pos h])
      have e3 : (b.data.take off).length = off := by rw [List.length_take]; omega
      have e4 : b.data.take (off + i) = b.data.take off ++ t.take i := by
        rw [List.take_add, hd, List.take_append_of_le_length (by omega)]
      have e5 : b.data.drop (off + i + [c].length) = t.drop (i + 1) ++ 0 :: r := by
        rw [List.length_singleton, Nat.add_assoc, ← List.drop_drop, hd, List.drop_append_of_le_length (by omega)]
      rw [e4, e5, e2, List.append_assoc, List.append_assoc, List.drop_left' e3]
      simp
    unfold val
    rw [if_neg (by simp), text_eq id off _ hb2 _ r hd2]
    rfl

theorem fill_spec (A : Calloc) (hA : Allocates A) (m : Mem) (objs : List Str) (s : Str) (t : List Byte)
    (hi : Inv m (s :: objs)) (hz : (0 : Byte) ∉ t) :
    Result m objs ((setsize A m s t.length).bind fun r => editAt A r.1 r.2 0 (t ++ [0])) (some t) := by
  obtain ⟨m1, hu, hsub, hi1, hvals, -⟩ := unlink_spec m objs s hi
  have e1 : setsize A m s t.length = some ((alloc A m1 t.length 1).1, ⟨.blk m1.heap.length, .at m1.heap.length 0⟩) := by
    unfold setsize
    rw [hu]; rfl
  have e2 : unique A (alloc A m1 t.length 1).1 ⟨.blk m1.heap.length, .at m1.heap.length 0⟩ =
      some ((alloc A m1 t.length 1).1, ⟨.blk m1.heap.length, .at m1.heap.length 0⟩) := by
    unfold unique
    rw [alloc_eq]
    simp only [links, buf_push, if_true, Option.map_some, Option.bind_some]
    rw [if_pos (Or.inl (Nat.le_refl 1))]
  refine ⟨push m1 (fresh (A m1 (header + t.length + 1 ||| 3)) t 1), ⟨.blk m1.heap.length, .at m1.heap.length 0⟩, ?_,
    inv_new m1 objs hi1 _ t (hA m1 _).1 (hA m1 _).2, val_new m1 _ t 1 hz, ?_⟩
  · rw [e1, Option.bind_some]
    unfold editAt
    rw [e2, Option.bind_some]
    simp only [Nat.add_zero, write_alloc', Option.map_some]
  · intro o ho
    rw [val_sub (hi1.ok o ho) (sub_push _ _), hvals o ho]

theorem concat_spec (A : Calloc) (hA : Allocates A) (m : Mem) (objs : List Str) (t1 t2 : List Byte) (hi : Inv m objs)
    (hz : (0 : Byte) ∉ t1 ++ t2) (hl : (t1 ++ t2).length < 2 ^ 31) :
    Result m objs (concat A m t1 t2) (some (t1 ++ t2)) := by
  refine ⟨push m (fresh (A m (header + (t1 ++ t2).length + 1 ||| 3)) (t1 ++ t2) 1), ⟨.blk m.heap.length, .at m.heap.length 0⟩, ?_,
    inv_new m objs hi _ _ (hA m _).1 (hA m _).2, val_new m _ _ 1 hz, fun o ho => val_sub (hi.ok o ho) (sub_push _ _)⟩
  unfold concat
  rw [Props.C61_append t1 t2 hz hl, Option.bind_some]
  have e : newbuf A m (t1 ++ t2).length = ((alloc A m (t1 ++ t2).length 1).1, ⟨.blk m.heap.length, .at m.heap.length 0⟩) := rfl
  simp only [e, write_alloc, Option.map_some]

/-- Appending when both strings have a text. -/
theorem append_both (A : Calloc) (hA : Allocates A) (m : Mem) (objs : List Str) (s s2 : Str) (t1 t2 : List Byte)
    (hi : Inv m (s :: objs)) (hn1 : s.str ≠ .null) (hn2 : s2.str ≠ .null) (h1 : text m s.str = some t1)
    (h2 : text m s2.str = some t2) (hz : (0 : Byte) ∉ t1 ++ t2) (hl : (t1 ++ t2).length < 2 ^ 31) :
    Result m objs (append A m s s2) (some (t1 ++ t2)) := by
  obtain ⟨m1, x, hc, hi1, hv1, hvals1⟩ := concat_spec A hA m (s :: objs) t1 t2 hi hz hl
  obtain ⟨m2, s', hf, hi2, hv2, hvals2⟩ := fastAssign_spec m1 (x :: objs) s x (some (t1 ++ t2))
    (hi1.perm (List.Perm.swap ..)) (by simp) hv1
  obtain ⟨m3, hu, -, hi3, hvals3, -⟩ := unlink_spec m2 (s' :: objs) x (hi2.perm (List.Perm.swap ..))
  refine ⟨m3, s', ?_, hi3, ?_, ?_⟩
  · unfold append
    rw [if_neg hn2, if_neg hn1, h1, Option.bind_some, h2, Option.bind_some, hc, Option.bind_some]
    dsimp only
    rw [hf, Option.bind_some]
    dsimp only
    rw [hu]; rfl
  · rw [hvals3 s' (by simp), hv2]
  · intro o ho
    rw [hvals3 o (by simp [ho]), hvals2 o (by simp [ho]), hvals1 o (by simp [ho])]

theorem append_spec (A : Calloc) (hA : Allocates A) (m : Mem) (objs : List Str) (s s2 : Str) (a b : Option (List Byte))
    (hi : Inv m (s :: objs)) (h2 : s2 ∈ s :: objs) (hv : val m s = some a) (hv2 : val m s2 = some b)
    (hl : ((Spec.Strings.join a b).getD []).length < 2 ^ 31) :
    Result m objs (append A m s s2) (Spec.Strings.join a b) := by
  rcases hi.ok s2 h2 with rfl | ⟨id2, off2, b2, rfl, hb2, ho2⟩
  · have : b = none := by simpa [val] using hv2.symm
    subst this
    refine ⟨m, s, ?_, hi, ?_, fun _ _ => rfl⟩
    · simp [append]
    · cases a <;> exact hv
  · obtain ⟨t2, rfl, ht2⟩ := val_at hv2
    rcases hi.ok s (List.mem_cons_self ..) with rfl | ⟨id, off, bb, rfl, hb, ho⟩
    · have : a = none := by simpa [val] using hv.symm
      subst this
      have e : append A m ⟨.nul, .null⟩ ⟨.blk id2, .at id2 off2⟩ = assign A m ⟨.nul, .null⟩ ⟨.blk id2, .at id2 off2⟩ := by
        simp [append]
      rw [e]
      exact (assign_spec A m objs _ _ _ hi h2 hv2).1
    · obtain ⟨t1, rfl, ht1⟩ := val_at hv
      obtain ⟨t1', _, h1, hz1, -⟩ := text_ok hi id off bb hb ho
      obtain ⟨t2', _, h2', hz2, -⟩ := text_ok hi id2 off2 b2 hb2 ho2
      rw [ht1] at h1
      rw [ht2] at h2'
      cases h1
      cases h2'
      refine append_both A hA m objs _ _ t1 t2 hi (by simp) (by simp) ht1 ht2 ?_ hl
      simp [hz1, hz2]

theorem appendText_spec (A : Calloc) (hA : Allocates A) (m : Mem) (objs : List Str) (s : Str) (x : Option (List Byte)) (a : Nat)
    (t : List Byte) (hi : Inv m (s :: objs)) (hv : val m s = some x) (hz : (0 : Byte) ∉ t) (hout : Outside m a t)
    (hl : ((Spec.Strings.join x (some t)).getD []).length < 2 ^ 31) :
    Result m objs (append A m s ⟨.no, .ext a t⟩) (Spec.Strings.join x (some t)) := by
  rcases hi.ok s (List.mem_cons_self ..) with rfl | ⟨id, off, bb, rfl, hb, ho⟩
  · have : x = none := by simpa [val] using hv.symm
    subst this
    have e : append A m ⟨.nul, .null⟩ ⟨.no, .ext a t⟩ = assign A m ⟨.nul, .null⟩ ⟨.no, chars (some (a, t))⟩ := by
      simp [append, chars]
    rw [e]
    refine assignText_spec A hA m objs _ (some (a, t)) hi ?_
    intro a' t' h
    cases h
    refine ⟨hz, hout, ?_⟩
    rintro ⟨id, b, x, h, -⟩
    cases h
  · obtain ⟨t1, rfl, ht1⟩ := val_at hv
    obtain ⟨t1', _, h1, hz1, -⟩ := text_ok hi id off bb hb ho
    rw [ht1] at h1
    cases h1
    refine append_both A hA m objs _ _ t1 t hi (by simp) (by simp) ht1 rfl ?_ hl
    simp [hz1, hz]

end Lemmas.Strings
