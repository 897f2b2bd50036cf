import Verif.Model.Stream
/-
What each call of the stream model does to the buffers, the device and the close callbacks.
-/
namespace Wv.Stream

/-- Each close callback that was set has been called, given back, or is still set. -/
def RegOk (s : St) : Prop := List.Perm s.reg (s.called ++ s.replaced ++ s.closecb.toList)

/-- A device that takes less than it is offered calls neither `close` nor `seterr(0)`. -/
def Tidy (dev : Nat → Ans) : Prop := ∀ i, (∃ a ∈ (dev i).acts, a = .close ∨ a = .seterr 0) → max 1 (dev i).chunk ≤ (dev i).n

/-- What happens between two states, if `x` is taken from the user for writing. -/
structure Rel (P : Prop) (s s' : St) (x : List Byte) : Prop where
  dead : isok s = false → isok s' = false ∧ s'.sent = s.sent
  shut : s.closed = true → s'.closed = true
  err : s.err ≠ 0 → s'.err = s.err
  live : isok s' = true → s'.sent ++ s'.outbuf = s.sent ++ s.outbuf ++ x
  pre : P → s'.sent <+: s.sent ++ s.outbuf ++ x
  ext : s.sent <+: s'.sent
  inb : s'.inbuf = s.inbuf
  io : s'.io = s.io
  cbk : (s.closed = true → s.closecb = none) → s'.closed = true → s'.closecb = none
  reg : RegOk s → RegOk s'

namespace Rel
variable {P : Prop}

theorem refl (s : St) : Rel P s s [] :=
  ⟨fun h => ⟨h, rfl⟩, fun h => h, fun _ => rfl, fun _ => by simp, fun _ => by simp, List.prefix_refl _, rfl, rfl, fun h => h, fun h => h⟩

theorem ok {s s' : St} {x : List Byte} (h : Rel P s s' x) (h' : isok s' = true) : isok s = true := by
  cases hs : isok s with
  | true => rfl
  | false => have := (h.dead hs).1; rw [h'] at this; simp at this

theorem trans {s s' s'' : St} {x y : List Byte} (h : Rel P s s' x) (g : Rel P s' s'' y) : Rel P s s'' (x ++ y) where
  dead hs := by
    obtain ⟨h1, h2⟩ := h.dead hs
    obtain ⟨g1, g2⟩ := g.dead h1
    exact ⟨g1, g2.trans h2⟩
  shut hs := g.shut (h.shut hs)
  err hs := by
    have h1 := h.err hs
    rw [g.err (by rw [h1]; exact hs), h1]
  live hs := by rw [g.live hs, h.live (g.ok hs)]; simp
  pre hp := by
    cases hs : isok s' with
    | true =>
      have := g.pre hp
      rw [h.live hs] at this
      simpa using this
    | false =>
      rw [(g.dead hs).2]
      refine (h.pre hp).trans ?_
      rw [← List.append_assoc]
      exact List.prefix_append _ _
  ext := h.ext.trans g.ext
  inb := g.inb.trans h.inb
  io := g.io.trans h.io
  cbk hs := g.cbk (h.cbk hs)
  reg hs := g.reg (h.reg hs)

theorem trans0 {s s' s'' : St} {x : List Byte} (h : Rel P s s' []) (g : Rel P s' s'' x) : Rel P s s'' x := by simpa using h.trans g

theorem trans1 {s s' s'' : St} {x : List Byte} (h : Rel P s s' x) (g : Rel P s' s'' []) : Rel P s s'' x := by simpa using h.trans g

/-- Nothing that matters changes. -/
theorem same {s s' : St} (h1 : s'.closed = s.closed) (h2 : s'.err = s.err) (h3 : s'.sent = s.sent) (h4 : s'.outbuf = s.outbuf) (h5 : s'.inbuf = s.inbuf)
    (h6 : s'.io = s.io) (h7 : s'.closecb = s.closecb) (h8 : s'.reg = s.reg) (h9 : s'.called = s.called) (h10 : s'.replaced = s.replaced) : Rel P s s' [] where
  dead hs := by
    refine ⟨?_, h3⟩
    rw [← hs]; unfold isok; rw [h1, h2]
  shut hs := by rw [h1, hs]
  err _ := h2
  live _ := by rw [h3, h4]; simp
  pre _ := by rw [h3]; simp
  ext := by rw [h3]; exact List.prefix_refl _
  inb := h5
  io := h6
  cbk hs := by rw [h1, h7]; exact hs
  reg hs := by unfold RegOk at *; rw [h7, h8, h9, h10]; exact hs

/-- Nothing that matters changes first. -/
theorem after {s s1 s2 : St} {x : List Byte} (g : Rel P s1 s2 x) (h1 : s1.closed = s.closed) (h2 : s1.err = s.err) (h3 : s1.sent = s.sent) (h4 : s1.outbuf = s.outbuf)
    (h5 : s1.inbuf = s.inbuf) (h6 : s1.io = s.io) (h7 : s1.closecb = s.closecb) (h8 : s1.reg = s.reg) (h9 : s1.called = s.called) (h10 : s1.replaced = s.replaced) :
    Rel P s s2 x := (same h1 h2 h3 h4 h5 h6 h7 h8 h9 h10).trans0 g

/-- Nothing that matters changes last. -/
theorem before {s s1 s2 : St} {x : List Byte} (g : Rel P s s1 x) (h1 : s2.closed = s1.closed) (h2 : s2.err = s1.err) (h3 : s2.sent = s1.sent) (h4 : s2.outbuf = s1.outbuf)
    (h5 : s2.inbuf = s1.inbuf) (h6 : s2.io = s1.io) (h7 : s2.closecb = s1.closecb) (h8 : s2.reg = s1.reg) (h9 : s2.called = s1.called) (h10 : s2.replaced = s1.replaced) :
    Rel P s s2 x := g.trans1 (same h1 h2 h3 h4 h5 h6 h7 h8 h9 h10)

/-- Bytes are put in the buffer. -/
theorem put (s : St) (x : List Byte) : Rel P s { s with outbuf := s.outbuf ++ x } x where
  dead hs := ⟨hs, rfl⟩
  shut hs := hs
  err _ := rfl
  live _ := by simp
  pre _ := by simp
  ext := List.prefix_refl _
  inb := rfl
  io := rfl
  cbk hs := hs
  reg hs := hs

/-- The buffer of a stream that is not good is emptied. -/
theorem zap (s : St) (h : isok s = false) : Rel P s { s with outbuf := [] } [] where
  dead hs := ⟨hs, rfl⟩
  shut hs := hs
  err _ := rfl
  live hs := by have : isok s = true := hs; rw [h] at this; simp at this
  pre _ := by simp
  ext := List.prefix_refl _
  inb := rfl
  io := rfl
  cbk hs := hs
  reg hs := hs

end Rel

/-- Nothing is written unless the stream closes. -/
def Quiet (s s' : St) : Prop := isok s' = true → s'.outbuf = s.outbuf ∧ s'.sent = s.sent

/-- What is assumed of calls, to show it of calls one level higher. -/
structure Good (P : Prop) (rec : Call → St → St × Nat) : Prop where
  write : ∀ b s, (rec (.write b) s).2 ≤ b.length ∧ Rel P s (rec (.write b) s).1 (b.take (rec (.write b) s).2) ∧ (isok s = false → (rec (.write b) s).2 = 0)
  flush : ∀ ms s, Rel P s (rec (.flush ms) s).1 [] ∧ ((rec (.flush ms) s).2 = 1 → isok (rec (.flush ms) s).1 = true → (rec (.flush ms) s).1.outbuf = [])
  flushOutbuf : ∀ ms s, Rel P s (rec (.flushOutbuf ms) s).1 [] ∧
    ((rec (.flushOutbuf ms) s).2 = 1 → isok (rec (.flushOutbuf ms) s).1 = true → (rec (.flushOutbuf ms) s).1.outbuf = [])
  loop : ∀ ms s, Rel P s (rec (.loop ms) s).1 [] ∧ ((rec (.loop ms) s).2 = 1 → isok (rec (.loop ms) s).1 = true → (rec (.loop ms) s).1.outbuf = [])
  close : ∀ s, Rel P s (rec .close s).1 [] ∧ Quiet s (rec .close s).1
  seterr : ∀ e s, Rel P s (rec (.seterr e) s).1 [] ∧ Quiet s (rec (.seterr e) s).1 ∧ (P → e ≠ 0 → (rec (.seterr e) s).1.sent = s.sent)
  autoclose : ∀ s, Rel P s (rec .autoclose s).1 [] ∧ Quiet s (rec .autoclose s).1 ∧ (P → (rec .autoclose s).1.sent = s.sent)
  select : ∀ s, Rel P s (rec .select s).1 []
  acts : ∀ l s, Rel P s (rec (.acts l) s).1 [] ∧ Quiet s (rec (.acts l) s).1 ∧
    (P → (∀ a ∈ l, a ≠ .close ∧ a ≠ .seterr 0) → (rec (.acts l) s).1.sent = s.sent)
  ops : ∀ l s, isok s = false → Rel P s (rec (.ops l) s).1 []
  op : ∀ o s, Rel P s (rec (.op o) s).1 (match o with | .write b => b.take (rec (.op o) s).2 | _ => []) ∧ (isok s = false → (rec (.op o) s).2 = 0 ∨ ∀ b, o ≠ .write b)

section
variable {P : Prop} {dev : Nat → Ans} {cb : St → Nat → List Op} {rec : Call → St → St × Nat}

theorem nil_good (P : Prop) : Good P (fun _ s => (s, 0)) := by
  refine ⟨fun b s => ⟨by simp, by simpa using Rel.refl s, fun _ => rfl⟩, fun _ s => ⟨Rel.refl s, by simp⟩, fun _ s => ⟨Rel.refl s, by simp⟩,
    fun _ s => ⟨Rel.refl s, by simp⟩, fun s => ⟨Rel.refl s, fun _ => ⟨rfl, rfl⟩⟩, fun _ s => ⟨Rel.refl s, fun _ => ⟨rfl, rfl⟩, fun _ _ => rfl⟩,
    fun s => ⟨Rel.refl s, fun _ => ⟨rfl, rfl⟩, fun _ => rfl⟩, fun s => Rel.refl s, fun _ s => ⟨Rel.refl s, fun _ => ⟨rfl, rfl⟩, fun _ _ => rfl⟩,
    fun _ s _ => Rel.refl s, fun o s => ⟨?_, fun _ => Or.inl rfl⟩⟩
  cases o <;> simpa using Rel.refl s

theorem writeRest_rel (h : Good P rec) (b : List Byte) (s : St) (w : Nat) (hw : w ≤ b.length) :
    (writeRest rec b s w).2 ≤ b.length ∧ ∃ x, b.take (writeRest rec b s w).2 = b.take w ++ x ∧ Rel P s (writeRest rec b s w).1 x := by
  unfold writeRest
  simp only []
  have hc : canBuffer s (b.length - w) ≤ b.length - w := by
    unfold canBuffer
    by_cases hm : s.max ≠ 0
    · rw [if_pos hm]; exact Nat.min_le_left _ _
    · rw [if_neg hm]; exact Nat.le_refl _
  refine ⟨by omega, (b.drop w).take (canBuffer s (b.length - w)), List.take_add, ?_⟩
  refine (Rel.put s _).trans1 ?_
  by_cases hf : s.wantFlush = true
  · simp only [hf, if_true]
    by_cases ha : s.autoFlush = true
    · simp only [ha, if_true]; exact (h.flush 0 _).1
    · have ha' : s.autoFlush = false := by simpa using ha
      simp only [ha']; exact (h.flushOutbuf 0 _).1
  · have hf' : s.wantFlush = false := by simpa using hf
    simp only [hf']; exact Rel.refl _

theorem write_good (h : Good P rec) (b : List Byte) (s : St) :
    (write dev rec b s).2 ≤ b.length ∧ Rel P s (write dev rec b s).1 (b.take (write dev rec b s).2) ∧ (isok s = false → (write dev rec b s).2 = 0) := by
  unfold write
  by_cases h1 : (!isok s || b.isEmpty || s.stopWrite) = true
  · rw [if_pos h1]; exact ⟨by simp, by simpa using Rel.refl s, fun _ => rfl⟩
  · rw [if_neg h1]
    have hok : isok s = true := by
      cases hk : isok s with
      | true => rfl
      | false => simp [hk] at h1
    by_cases h2 : (!s.delayed && s.outbuf.isEmpty) = true
    · rw [if_pos h2]
      simp only []
      have hu : (uwrite dev rec b s).2 ≤ b.length := Nat.min_le_right _ _
      obtain ⟨k1, x, k2, k3⟩ := writeRest_rel h b (uwrite dev rec b s).1 _ hu
      refine ⟨k1, ?_, fun hs => by rw [hok] at hs; simp at hs⟩
      rw [k2]
      refine Rel.trans (Rel.trans1 (s' := { s with tick := s.tick + 1, sent := s.sent ++ b.take (uwrite dev rec b s).2 }) ?_ (h.acts _ _).1) k3
      have hb : s.outbuf = [] := by simp at h2; exact h2.2
      constructor
      case dead => intro hs; rw [hok] at hs; simp at hs
      case shut => exact fun hs => hs
      case err => exact fun _ => rfl
      case live => intro _; simp [hb]
      case pre => intro _; simp [hb]
      case ext => simp
      case inb => rfl
      case io => rfl
      case cbk => exact fun hs => hs
      case reg => exact fun hs => hs
    · rw [if_neg h2]
      obtain ⟨k1, x, k2, k3⟩ := writeRest_rel h b s 0 (by simp)
      refine ⟨k1, ?_, fun hs => by rw [hok] at hs; simp at hs⟩
      rw [k2]; simpa using k3

theorem flush_good (h : Good P rec) (ms : Int) (s : St) : Rel P s (flush rec ms s).1 [] ∧
    ((flush rec ms s).2 = 1 → isok (flush rec ms s).1 = true → (flush rec ms s).1.outbuf = []) := by
  unfold flush
  by_cases h1 : s.flushing = true
  · rw [if_pos h1]; exact ⟨Rel.refl s, by simp⟩
  · rw [if_neg h1]
    simp only []
    obtain ⟨k1, k2⟩ := h.flushOutbuf ms { s with flushing := true, wantFlush := true }
    refine ⟨?_, k2⟩
    exact (k1.after (s := s) rfl rfl rfl rfl rfl rfl rfl rfl rfl rfl).before rfl rfl rfl rfl rfl rfl rfl rfl rfl rfl

theorem flushEnd_good (h : Good P rec) (s : St) (done : Bool) : Rel P s (flushEnd dev rec s done).1 [] ∧ Quiet s (flushEnd dev rec s done).1 ∧
    ((flushEnd dev rec s done).2 = 1 → done = true) := by
  unfold flushEnd
  simp only []
  have e1 : ∀ s1 : St, Rel P s s1 [] → Quiet s s1 → ∀ d : Bool,
      let s2 := if s1.delayed && d then { s1 with wantFlush := false } else s1
      let s3 := if !d && !isok s2 then { s2 with outbuf := [] } else s2
      Rel P s (rec .autoclose s3).1 [] ∧ Quiet s (rec .autoclose s3).1 := by
    intro s1 r1 q1 d
    simp only []
    have e2 : Rel P s (if (s1.delayed && d) = true then { s1 with wantFlush := false } else s1) [] ∧
        Quiet s (if (s1.delayed && d) = true then { s1 with wantFlush := false } else s1) := by
      by_cases hc : (s1.delayed && d) = true
      · rw [if_pos hc]; exact ⟨r1.trans1 (Rel.same rfl rfl rfl rfl rfl rfl rfl rfl rfl rfl), q1⟩
      · rw [if_neg hc]; exact ⟨r1, q1⟩
    generalize (if (s1.delayed && d) = true then { s1 with wantFlush := false } else s1) = s2 at e2
    obtain ⟨r2, q2⟩ := e2
    have e3 : Rel P s (if (!d && !isok s2) = true then { s2 with outbuf := [] } else s2) [] ∧
        Quiet s (if (!d && !isok s2) = true then { s2 with outbuf := [] } else s2) := by
      by_cases hc : (!d && !isok s2) = true
      · rw [if_pos hc]
        have hk : isok s2 = false := by simp at hc; exact hc.2
        refine ⟨r2.trans1 (Rel.zap s2 hk), ?_⟩
        intro hs
        have : isok s2 = true := hs
        rw [hk] at this; simp at this
      · rw [if_neg hc]; exact ⟨r2, q2⟩
    generalize (if (!d && !isok s2) = true then { s2 with outbuf := [] } else s2) = s3 at e3
    obtain ⟨r3, q3⟩ := e3
    obtain ⟨a1, a2, _⟩ := h.autoclose s3
    refine ⟨r3.trans1 a1, ?_⟩
    intro hs
    obtain ⟨b1, b2⟩ := a2 hs
    obtain ⟨c1, c2⟩ := q3 (a1.ok hs)
    exact ⟨b1.trans c1, b2.trans c2⟩
  have e0 : Rel P s (if (s.autoclose && isok s) = true then
        if (s.outbuf.isEmpty || (dev s.tick).yes) = true then (rec .close { { s with tick := s.tick + 1 } with autoclose := false }).1
        else { s with tick := s.tick + 1 } else s) [] ∧
      Quiet s (if (s.autoclose && isok s) = true then
        if (s.outbuf.isEmpty || (dev s.tick).yes) = true then (rec .close { { s with tick := s.tick + 1 } with autoclose := false }).1
        else { s with tick := s.tick + 1 } else s) := by
    by_cases h1 : (s.autoclose && isok s) = true
    · rw [if_pos h1]
      by_cases h2 : (s.outbuf.isEmpty || (dev s.tick).yes) = true
      · rw [if_pos h2]
        obtain ⟨c1, c2⟩ := h.close { { s with tick := s.tick + 1 } with autoclose := false }
        exact ⟨Rel.after c1 rfl rfl rfl rfl rfl rfl rfl rfl rfl rfl, c2⟩
      · rw [if_neg h2]; exact ⟨Rel.same rfl rfl rfl rfl rfl rfl rfl rfl rfl rfl, fun _ => ⟨rfl, rfl⟩⟩
    · rw [if_neg h1]; exact ⟨Rel.refl s, fun _ => ⟨rfl, rfl⟩⟩
  obtain ⟨f1, f2⟩ := e1 _ e0.1 e0.2 done
  refine ⟨f1, f2, ?_⟩
  intro hd
  cases done with
  | true => rfl
  | false => simp at hd

theorem flushOutbuf_good (h : Good P rec) (ms : Int) (s : St) : Rel P s (flushOutbuf dev rec ms s).1 [] ∧
    ((flushOutbuf dev rec ms s).2 = 1 → isok (flushOutbuf dev rec ms s).1 = true → (flushOutbuf dev rec ms s).1.outbuf = []) := by
  unfold flushOutbuf
  by_cases h1 : s.outbuf.isEmpty = true
  · have hb : s.outbuf = [] := by simpa using h1
    rw [if_pos h1]
    by_cases h2 : (!s.autoclose && !s.delayed) = true
    · rw [if_pos h2]
      obtain ⟨a1, a2, _⟩ := h.autoclose s
      exact ⟨a1, fun _ hk => by rw [(a2 hk).1, hb]⟩
    · rw [if_neg h2]
      obtain ⟨a1, a2, _⟩ := flushEnd_good (dev := dev) h s true
      exact ⟨a1, fun _ hk => by rw [(a2 hk).1, hb]⟩
  · rw [if_neg h1]
    simp only []
    obtain ⟨l1, l2⟩ := h.loop ms s
    obtain ⟨a1, a2, a3⟩ := flushEnd_good (dev := dev) h (rec (.loop ms) s).1 ((rec (.loop ms) s).2 == 1)
    refine ⟨l1.trans1 a1, ?_⟩
    intro hr hk
    rw [(a2 hk).1]
    exact l2 (by simpa using a3 hr) (a1.ok hk)

theorem loopWrite_rel (hP : P → Tidy dev) (h : Good P rec) (s : St) (hok : isok s = true) : Rel P s (loopWrite dev rec s) [] := by
  unfold loopWrite
  simp only []
  have hn : attempt dev s = max 1 (min (dev s.tick).chunk s.outbuf.length) := rfl
  generalize hat : attempt dev s = n at *
  obtain ⟨k, hk⟩ : ∃ k, k = min (dev s.tick).n (s.outbuf.take n).length := ⟨_, rfl⟩
  have hu : uwrite dev rec (s.outbuf.take n) { s with outbuf := s.outbuf.drop n } =
      ((rec (.acts (dev s.tick).acts) { s with outbuf := s.outbuf.drop n, tick := s.tick + 1, sent := s.sent ++ (s.outbuf.take n).take k }).1, k) := by
    rw [hk]; rfl
  rw [hu]
  simp only []
  obtain ⟨a1, a2, a3⟩ := h.acts (dev s.tick).acts { s with outbuf := s.outbuf.drop n, tick := s.tick + 1, sent := s.sent ++ (s.outbuf.take n).take k }
  generalize (rec (.acts (dev s.tick).acts) { s with outbuf := s.outbuf.drop n, tick := s.tick + 1, sent := s.sent ++ (s.outbuf.take n).take k }).1 = u at *
  have hall : (s.outbuf.take n).take k ++ ((s.outbuf.take n).drop k ++ s.outbuf.drop n) = s.outbuf := by
    rw [← List.append_assoc, List.take_append_drop, List.take_append_drop]
  have hext : s.sent <+: u.sent := List.IsPrefix.trans (by simp) a1.ext
  cases hiu : isok u with
  | true =>
    obtain ⟨q1, q2⟩ := a2 hiu
    by_cases hkn : k < n
    · rw [if_pos (by simp [hkn])]
      refine Rel.mk (fun hs => by rw [hok] at hs; simp at hs) a1.shut a1.err ?_ ?_ hext a1.inb a1.io a1.cbk a1.reg
      · intro _
        show u.sent ++ ((s.outbuf.take n).drop k ++ u.outbuf) = _
        rw [q1, q2]
        simp only [List.append_nil]
        rw [List.append_assoc, hall]
      · intro _
        show u.sent <+: _
        rw [q2]
        simp only [List.append_nil]
        rw [List.prefix_append_right_inj]
        exact ⟨_, hall⟩
    · rw [if_neg (by simp [hkn])]
      have hlen : (s.outbuf.take n).length ≤ k := by
        have := List.length_take_le n s.outbuf
        omega
      refine Rel.mk (fun hs => by rw [hok] at hs; simp at hs) a1.shut a1.err ?_ ?_ hext a1.inb a1.io a1.cbk a1.reg
      · intro _
        rw [q1, q2]
        simp only [List.append_nil]
        rw [List.take_of_length_le hlen, List.append_assoc, List.take_append_drop]
      · intro _
        rw [q2]
        simp only [List.append_nil]
        rw [List.prefix_append_right_inj]
        exact ⟨_, hall⟩
  | false =>
    rw [if_neg (by simp)]
    refine Rel.mk (fun hs => by rw [hok] at hs; simp at hs) a1.shut a1.err (fun hs => by rw [hiu] at hs; simp at hs) ?_ hext a1.inb a1.io a1.cbk a1.reg
    intro hp
    simp only [List.append_nil]
    by_cases hact : ∃ a ∈ (dev s.tick).acts, a = .close ∨ a = .seterr 0
    · have ht := hP hp s.tick hact
      have hlen : (s.outbuf.take n).length ≤ k := by
        rw [hk]
        have := List.length_take_le n s.outbuf
        omega
      have := a1.pre hp
      simp only [List.append_nil] at this
      rw [List.take_of_length_le hlen, List.append_assoc, List.take_append_drop] at this
      exact this
    · have := a3 hp (by
        intro a ha
        constructor
        · intro e; exact hact ⟨a, ha, Or.inl e⟩
        · intro e; exact hact ⟨a, ha, Or.inr e⟩)
      rw [this]
      simp only []
      rw [List.prefix_append_right_inj]
      exact ⟨_, hall⟩

theorem loopNext_good (h : Good P rec) (ms : Int) (s : St) : Rel P s (loopNext rec ms s).1 [] ∧
    ((loopNext rec ms s).2 = 1 → isok (loopNext rec ms s).1 = true → (loopNext rec ms s).1.outbuf = []) := by
  unfold loopNext
  by_cases h1 : s.outbuf.isEmpty = true
  · rw [if_pos h1]; exact ⟨Rel.refl s, fun _ _ => by simpa using h1⟩
  · rw [if_neg h1]; exact h.loop ms s

theorem loop_good (hP : P → Tidy dev) (h : Good P rec) (ms : Int) (s : St) : Rel P s (loop dev rec ms s).1 [] ∧
    ((loop dev rec ms s).2 = 1 → isok (loop dev rec ms s).1 = true → (loop dev rec ms s).1.outbuf = []) := by
  unfold loop
  by_cases h1 : (!isok s) = true
  · rw [if_pos h1]; exact ⟨Rel.refl s, by simp⟩
  · rw [if_neg h1]
    have hok : isok s = true := by simpa using h1
    have hw := loopWrite_rel hP h s hok
    simp only []
    generalize loopWrite dev rec s = u at *
    by_cases h2 : (ms == 0) = true
    · rw [if_pos h2]; exact ⟨hw, by simp⟩
    · rw [if_neg h2]
      by_cases h3 : ms < 0
      · rw [if_pos h3]
        obtain ⟨n1, n2⟩ := loopNext_good h ms u
        exact ⟨hw.trans1 n1, n2⟩
      · rw [if_neg h3]
        have hw' : Rel P s { u with tick := u.tick + 1 } [] := hw.trans1 (Rel.same rfl rfl rfl rfl rfl rfl rfl rfl rfl rfl)
        by_cases h4 : (dev u.tick).yes = true
        · rw [if_pos h4]; exact ⟨hw', by simp⟩
        · rw [if_neg h4]
          have hs := hw'.trans1 (h.select { u with tick := u.tick + 1 })
          by_cases h5 : ((rec .select { u with tick := u.tick + 1 }).2 == 1) = true
          · rw [if_pos h5]
            obtain ⟨n1, n2⟩ := loopNext_good h ms (rec .select { u with tick := u.tick + 1 }).1
            exact ⟨hs.trans1 n1, n2⟩
          · rw [if_neg h5]; exact ⟨hs, by simp⟩

theorem closed_not_ok (s : St) (h : s.closed = true) : isok s = false := by simp [isok, h]

theorem close_good (h : Good P rec) (s : St) : Rel P s (close cb rec s).1 [] ∧ (close cb rec s).1.closed = true := by
  unfold close
  simp only []
  obtain ⟨f1, _⟩ := h.flush 2000 s
  generalize (rec (.flush 2000) s).1 = u at *
  cases hcb : u.closecb with
  | none =>
    refine ⟨Rel.mk (fun hs => ⟨rfl, (f1.dead hs).2⟩) (fun _ => rfl) f1.err (fun hs => by simp [isok] at hs) f1.pre f1.ext f1.inb f1.io (fun _ _ => rfl)
      (fun hr => by have := f1.reg hr; unfold RegOk at *; rw [hcb] at this; exact this), rfl⟩
  | some id =>
    simp only []
    have hr := h.ops (cb { u with closed := true, closecb := none, called := u.called ++ [id] } id)
      { u with closed := true, closecb := none, called := u.called ++ [id] } (closed_not_ok _ rfl)
    refine ⟨Rel.trans0 ?_ hr, hr.shut rfl⟩
    refine Rel.mk (fun hs => ⟨rfl, (f1.dead hs).2⟩) (fun _ => rfl) f1.err (fun hs => by simp [isok] at hs) f1.pre f1.ext f1.inb f1.io (fun _ _ => rfl) ?_
    intro hreg
    have := f1.reg hreg
    unfold RegOk at this ⊢
    rw [hcb] at this
    refine this.trans ?_
    rw [List.perm_iff_count]
    intro a
    simp only [List.count_append, Option.toList_none, List.count_nil, Option.toList_some]
    omega

theorem seterr_good (h : Good P rec) (e : Nat) (s : St) : Rel P s (seterr rec e s).1 [] ∧ Quiet s (seterr rec e s).1 ∧
    (P → e ≠ 0 → (seterr rec e s).1.sent = s.sent) := by
  unfold seterr
  by_cases h1 : (s.err == 0) = true
  · rw [if_pos h1]
    simp only []
    obtain ⟨c1, c2⟩ := h.close { s with err := e }
    have h1' : s.err = 0 := by simpa using h1
    have r1 : Rel P s { s with err := e } [] := by
      refine Rel.mk ?_ (fun hs => hs) (fun hs => absurd h1' hs) (fun _ => by simp) (fun _ => by simp) (List.prefix_refl _) rfl rfl (fun hs => hs) (fun hs => hs)
      intro hs
      refine ⟨?_, rfl⟩
      simp only [isok, h1'] at hs ⊢
      simp at hs
      simp [hs]
    refine ⟨r1.trans0 c1, fun hs => c2 hs, ?_⟩
    intro _ he
    exact (c1.dead (by simp [isok, he])).2
  · rw [if_neg h1]; exact ⟨Rel.refl s, fun _ => ⟨rfl, rfl⟩, fun _ _ => rfl⟩

theorem autoclose_good (h : Good P rec) (s : St) : Rel P s (maybeAutoclose rec s).1 [] ∧ Quiet s (maybeAutoclose rec s).1 ∧
    (P → (maybeAutoclose rec s).1.sent = s.sent) := by
  unfold maybeAutoclose
  by_cases h1 : (s.stopRead && s.stopWrite && s.outbuf.isEmpty && s.inbuf.isEmpty && !s.closed) = true
  · rw [if_pos h1]
    simp only []
    have hb : s.outbuf = [] := by simp at h1; exact h1.1.1.2
    obtain ⟨c1, c2⟩ := h.close s
    refine ⟨c1, c2, ?_⟩
    intro hp
    have := c1.pre hp
    rw [hb] at this
    simp only [List.append_nil] at this
    exact (List.IsPrefix.eq_of_length this (Nat.le_antisymm this.length_le c1.ext.length_le))
  · rw [if_neg h1]; exact ⟨Rel.refl s, fun _ => ⟨rfl, rfl⟩, fun _ => rfl⟩

theorem select_good (h : Good P rec) (s : St) : Rel P s (select dev rec s).1 [] := by
  unfold select
  simp only []
  have r1 := (h.autoclose s).1
  generalize (rec .autoclose s).1 = s1 at *
  have r2 : Rel P s (rec (.acts (dev s1.tick).acts) { s1 with tick := s1.tick + 1 }).1 [] :=
    r1.trans1 (Rel.after (s1 := { s1 with tick := s1.tick + 1 }) (h.acts _ _).1 rfl rfl rfl rfl rfl rfl rfl rfl rfl rfl)
  generalize (rec (.acts (dev s1.tick).acts) { s1 with tick := s1.tick + 1 }).1 = s2 at *
  have r3 : Rel P s (if s2.wantFlush = true then (rec (.flush 0) s2).1 else s2) [] := by
    by_cases hw : s2.wantFlush = true
    · rw [if_pos hw]; exact r2.trans1 (h.flush 0 s2).1
    · rw [if_neg hw]; exact r2
  generalize (if s2.wantFlush = true then (rec (.flush 0) s2).1 else s2) = s3 at *
  by_cases hw : ((dev s1.tick).again && (!s3.outbuf.isEmpty || s3.autoclose) && s3.wantFlush) = true
  · rw [if_pos hw]; exact r3.trans1 (h.flushOutbuf 0 s3).1
  · rw [if_neg hw]; exact r3

theorem act_good (h : Good P rec) (s : St) (a : Act) : Rel P s (act rec s a) [] ∧ Quiet s (act rec s a) ∧
    (P → a ≠ .close ∧ a ≠ .seterr 0 → (act rec s a).sent = s.sent) := by
  cases a with
  | seterr e =>
    obtain ⟨k1, k2, k3⟩ := h.seterr e s
    exact ⟨k1, k2, fun hp hq => k3 hp (fun e0 => hq.2 (by rw [e0]))⟩
  | noread =>
    obtain ⟨k1, k2, k3⟩ := h.autoclose { s with stopRead := true }
    exact ⟨Rel.after k1 rfl rfl rfl rfl rfl rfl rfl rfl rfl rfl, k2, fun hp _ => k3 hp⟩
  | nowrite =>
    obtain ⟨k1, k2, k3⟩ := h.autoclose { s with stopWrite := true }
    exact ⟨Rel.after k1 rfl rfl rfl rfl rfl rfl rfl rfl rfl rfl, k2, fun hp _ => k3 hp⟩
  | close =>
    obtain ⟨k1, k2⟩ := h.close s
    exact ⟨k1, k2, fun _ hq => absurd rfl hq.1⟩

theorem acts_good (h : Good P rec) (l : List Act) : ∀ s, Rel P s (l.foldl (act rec) s) [] ∧ Quiet s (l.foldl (act rec) s) ∧
    (P → (∀ a ∈ l, a ≠ .close ∧ a ≠ .seterr 0) → (l.foldl (act rec) s).sent = s.sent) := by
  induction l with
  | nil => intro s; exact ⟨Rel.refl s, fun _ => ⟨rfl, rfl⟩, fun _ _ => rfl⟩
  | cons a l ih =>
    intro s
    rw [List.foldl_cons]
    obtain ⟨i1, i2, i3⟩ := ih (act rec s a)
    obtain ⟨k1, k2, k3⟩ := act_good h s a
    refine ⟨k1.trans1 i1, ?_, ?_⟩
    · intro hs
      obtain ⟨b1, b2⟩ := i2 hs
      obtain ⟨c1, c2⟩ := k2 (i1.ok hs)
      exact ⟨b1.trans c1, b2.trans c2⟩
    · intro hp hq
      rw [i3 hp (fun x hx => hq x (by simp [hx])), k3 hp (hq a (by simp))]

theorem ops_good (h : Good P rec) (l : List Op) : ∀ s, isok s = false → Rel P s (l.foldl (fun s o => (rec (.op o) s).1) s) [] := by
  induction l with
  | nil => intro s _; exact Rel.refl s
  | cons o l ih =>
    intro s hs
    rw [List.foldl_cons]
    obtain ⟨k1, k2⟩ := h.op o s
    have k3 : Rel P s (rec (.op o) s).1 [] := by
      rcases k2 hs with k | k
      · cases o <;> simp_all
      · cases o <;> simp_all
    exact k3.trans1 (ih _ (k3.dead hs).1)

theorem onclose_good (h : Good P rec) (id : Option Nat) (s : St) : Rel P s (onclose cb rec id s) [] := by
  unfold onclose
  simp only []
  by_cases h1 : isok s = true
  · have h1' : isok { s with reg := s.reg ++ id.toList } = true := h1
    rw [if_pos h1']
    refine Rel.mk (fun hs => by rw [h1] at hs; simp at hs) (fun hs => hs) (fun _ => rfl) (fun _ => by simp) (fun _ => by simp) (List.prefix_refl _) rfl rfl ?_ ?_
    · intro _ hs
      have := closed_not_ok s hs
      rw [h1] at this; simp at this
    · intro hreg
      unfold RegOk at hreg ⊢
      simp only []
      rw [List.perm_iff_count] at hreg ⊢
      intro a
      have := hreg a
      simp only [List.count_append] at this ⊢
      omega
  · have h1' : ¬ isok { s with reg := s.reg ++ id.toList } = true := h1
    rw [if_neg h1']
    have hf : isok s = false := by simpa using h1
    cases id with
    | none =>
      simp only []
      refine Rel.mk (fun hs => ⟨hs, rfl⟩) (fun hs => hs) (fun _ => rfl) (fun _ => by simp) (fun _ => by simp) (List.prefix_refl _) rfl rfl (fun _ _ => rfl) ?_
      intro hreg
      unfold RegOk at hreg ⊢
      simp only []
      rw [List.perm_iff_count] at hreg ⊢
      intro a
      have := hreg a
      simp only [List.count_append, Option.toList_none, List.count_nil] at this ⊢
      omega
    | some id =>
      simp only []
      refine Rel.trans0 ?_ (h.ops _ _ hf)
      refine Rel.mk (fun hs => ⟨hs, rfl⟩) (fun hs => hs) (fun _ => rfl) (fun _ => by simp) (fun _ => by simp) (List.prefix_refl _) rfl rfl (fun _ _ => rfl) ?_
      intro hreg
      unfold RegOk at hreg ⊢
      simp only []
      rw [List.perm_iff_count] at hreg ⊢
      intro a
      have := hreg a
      simp only [List.count_append, Option.toList_none, List.count_nil, Option.toList_some] at this ⊢
      omega

theorem op_good (h : Good P rec) (o : Op) (s : St) : Rel P s (op cb rec s o).1 (match o with | .write b => b.take (op cb rec s o).2 | _ => []) ∧
    (isok s = false → (op cb rec s o).2 = 0 ∨ ∀ b, o ≠ .write b) := by
  cases o with
  | write b =>
    obtain ⟨_, k2, k3⟩ := h.write b s
    exact ⟨k2, fun hs => Or.inl (k3 hs)⟩
  | flush ms => exact ⟨(h.flush ms s).1, fun _ => Or.inr (by simp)⟩
  | close => exact ⟨(h.close s).1, fun _ => Or.inr (by simp)⟩
  | seterr e => exact ⟨(h.seterr e s).1, fun _ => Or.inr (by simp)⟩
  | noread => exact ⟨Rel.after (h.autoclose _).1 rfl rfl rfl rfl rfl rfl rfl rfl rfl rfl, fun _ => Or.inr (by simp)⟩
  | nowrite => exact ⟨Rel.after (h.autoclose _).1 rfl rfl rfl rfl rfl rfl rfl rfl rfl rfl, fun _ => Or.inr (by simp)⟩
  | onclose id => exact ⟨onclose_good h id s, fun _ => Or.inr (by simp)⟩
  | delay on => exact ⟨Rel.same rfl rfl rfl rfl rfl rfl rfl rfl rfl rfl, fun _ => Or.inr (by simp)⟩
  | autoFlush on => exact ⟨Rel.same rfl rfl rfl rfl rfl rfl rfl rfl rfl rfl, fun _ => Or.inr (by simp)⟩
  | limit n => exact ⟨Rel.same rfl rfl rfl rfl rfl rfl rfl rfl rfl rfl, fun _ => Or.inr (by simp)⟩
  | queuemin n => exact ⟨Rel.same rfl rfl rfl rfl rfl rfl rfl rfl rfl rfl, fun _ => Or.inr (by simp)⟩
  | flushThenClose => exact ⟨Rel.after (h.flush 0 _).1 rfl rfl rfl rfl rfl rfl rfl rfl rfl rfl, fun _ => Or.inr (by simp)⟩
  | select => exact ⟨h.select s, fun _ => Or.inr (by simp)⟩

theorem body_good (hP : P → Tidy dev) (h : Good P rec) : Good P (body dev cb rec) where
  write b s := write_good h b s
  flush ms s := flush_good h ms s
  flushOutbuf ms s := flushOutbuf_good h ms s
  loop ms s := loop_good hP h ms s
  close s := ⟨(close_good h s).1, fun hs => by
    have : isok (close cb rec s).1 = true := hs
    rw [closed_not_ok _ (close_good h s).2] at this; simp at this⟩
  seterr e s := seterr_good h e s
  autoclose s := autoclose_good h s
  select s := select_good h s
  acts l s := acts_good h l s
  ops l s := ops_good h l s
  op o s := op_good h o s

theorem exec_good (hP : P → Tidy dev) (f : Nat) : Good P (exec dev cb f) := by
  induction f with
  | zero => exact nil_good P
  | succ f ih => exact body_good hP ih

end
end Wv.Stream
