import Verif.Model.Modem
namespace Props
open Wv.Modem Spec.Modem

namespace MdP

/-- The same settings, but `clocal` may have been set; it has been if `c`. -/
def Like (c : Bool) (a b : Setting) : Prop := b = { a with clocal := b.clocal } ∧ (a.clocal = true ∨ c = true → b.clocal = true)

structure Inv (D : Driver) (orig : Setting) (n : Nat) (c : Bool) (P : Prop) (s : St) : Prop where
  fd : s.fd = !s.closed
  err : s.err = true → s.closed = true
  old : s.haveOld = true → Like c orig s.oldT
  port : s.closed = true → Like c orig s.port
  count : s.closes + (if s.fd = true then 1 else 0) = n
  have_ : s.fd = true → s.haveOld = true
  gone : P → s.closed = true

variable {D : Driver} {orig : Setting} {n : Nat} {c : Bool} {P : Prop}

theorem Inv.congr {s s' : St} (h : Inv D orig n c P s) (e1 : s'.fd = s.fd) (e2 : s'.closed = s.closed) (e3 : s'.err = s.err)
    (e4 : s'.haveOld = s.haveOld) (e5 : s'.oldT = s.oldT) (e6 : s'.port = s.port) (e7 : s'.closes = s.closes) : Inv D orig n c P s' :=
  ⟨(by rw [e1, e2]; exact h.fd), (by rw [e3, e2]; exact h.err), (by rw [e4, e5]; exact h.old), (by rw [e2, e6]; exact h.port),
    (by rw [e7, e1]; exact h.count), (by rw [e1, e4]; exact h.have_), (by rw [e2]; exact h.gone)⟩

theorem like_take (ht : D.take orig.ospeed = orig.ospeed) {x : Setting} (h : Like c orig x) : Like c orig { x with ospeed := D.take x.ospeed } := by
  obtain ⟨h1, h2⟩ := h
  have e : x.ospeed = orig.ospeed := by rw [h1]
  have e1 : x.ispeed = orig.ispeed := by rw [h1]
  have e2 : x.flags = orig.flags := by rw [h1]
  refine ⟨?_, h2⟩
  simp only [e, ht, e1, e2]

theorem tcset_inv {s : St} (h : Inv D orig n c P s) (x : Setting) : Inv D orig n c P (tcset D s x) := by
  unfold tcset
  split
  · rename_i hf
    have hc : s.closed = false := by have := h.fd; rw [hf] at this; simpa using this.symm
    exact ⟨h.fd, h.err, h.old, (fun e => by rw [hc] at e; exact absurd e (by decide)), h.count, h.have_, h.gone⟩
  · exact h

theorem tail_inv (ht : D.take orig.ospeed = orig.ospeed) {s : St} (h : Inv D orig n c P s) :
    Inv D orig n c P (closeTail D s) ∧ (closeTail D s).closed = true := by
  have hfd := h.fd
  have hcount := h.count
  unfold closeTail
  cases hc : s.closed
  · have hf : s.fd = true := by rw [hfd, hc]; rfl
    have ho := h.have_ hf
    have hl := h.old ho
    rw [hf] at hcount
    simp only [hf, ho, Bool.and_self, if_true, tcset, hc, Bool.false_eq_true, if_false]
    exact ⟨⟨rfl, fun _ => rfl, fun _ => hl, fun _ => like_take ht hl, (by simpa using hcount), fun e => absurd e (by simp), fun _ => rfl⟩, trivial⟩
  · have hf : s.fd = false := by rw [hfd, hc]; rfl
    simp only [hf, Bool.false_and, Bool.false_eq_true, if_false, hc, if_true]
    exact ⟨⟨(by simp [hf]), fun _ => rfl, h.old, fun _ => h.port hc, (by rw [hf] at hcount; exact hcount), (fun e => absurd e (by simp)), fun _ => rfl⟩, trivial⟩

theorem fail_inv (ht : D.take orig.ospeed = orig.ospeed) {s : St} (h : Inv D orig n c P s) :
    Inv D orig n c P (fail D s) ∧ (fail D s).closed = true := by
  unfold fail
  cases he : s.err
  · simp only [Bool.false_eq_true, if_false]
    cases hc : s.closed
    · simp only [Bool.false_eq_true, if_false]
      -- an error and not closed, for a moment
      have key : ∀ s' : St, s'.fd = s.fd → s'.closed = false → s'.haveOld = s.haveOld → s'.oldT = s.oldT → s'.closes = s.closes →
          Inv D orig n c P (closeTail D s') ∧ (closeTail D s').closed = true := by
        intro s' e1 e2 e3 e4 e5
        have hf : s.fd = true := by rw [h.fd, hc]; rfl
        have ho := h.have_ hf
        have hl := h.old ho
        have hcount := h.count
        rw [hf] at hcount
        unfold closeTail
        simp only [e1, hf, e3, ho, Bool.and_self, if_true, tcset, e2, Bool.false_eq_true, if_false, e4, e5]
        exact ⟨⟨rfl, fun _ => rfl, fun _ => hl, fun _ => like_take ht hl, (by simpa using hcount), fun e => absurd e (by simp), fun _ => rfl⟩, trivial⟩
      split
      · exact key _ rfl rfl rfl rfl rfl
      · exact key _ rfl rfl rfl rfl rfl
    · simp only [if_true]
      exact ⟨⟨(by rw [h.fd, hc]), fun _ => rfl, h.old, fun _ => h.port hc, h.count, h.have_, fun _ => rfl⟩, trivial⟩
  · simp only [if_true]
    exact ⟨h, h.err he⟩

theorem io_inv (ht : D.take orig.ospeed = orig.ospeed) (E : St → St) (hE : ∀ s, Inv D orig n c P s → Inv D orig n c P (E s)) {s : St}
    (h : Inv D orig n c P s) : Inv D orig n c P (io D E s) := by
  unfold io
  split
  · exact h
  · have h' : Inv D orig n c P { s with ios := s.ios.tail } := ⟨h.fd, h.err, h.old, h.port, h.count, h.have_, h.gone⟩
    dsimp only
    split
    · exact h'
    · exact (fail_inv ht h').1
    · exact hE _ h'

theorem carrier_inv {s : St} (h : Inv D orig n c P s) : Inv D orig n c P (getCarrier s).2 := by
  unfold getCarrier
  split
  · exact h
  · exact ⟨h.fd, h.err, h.old, h.port, h.count, h.have_, h.gone⟩

theorem wait_inv (k : Nat) : ∀ {s : St}, Inv D orig n c P s → Inv D orig n c P (waitCarrier k s) := by
  induction k with
  | zero => intro s h; exact carrier_inv h
  | succ k ih =>
    intro s h
    unfold waitCarrier
    dsimp only
    split
    · exact ih (carrier_inv h)
    · exact carrier_inv h

theorem nudge_inv (ht : D.take orig.ospeed = orig.ospeed) (E : St → St) (hE : ∀ s, Inv D orig n c P s → Inv D orig n c P (E s)) (k : Nat) :
    ∀ {s : St}, Inv D orig n c P s → Inv D orig n c P (nudge D E k s) := by
  induction k with
  | zero => intro s h; exact ⟨h.fd, h.err, h.old, h.port, h.count, h.have_, h.gone⟩
  | succ k ih =>
    intro s h
    have h' : Inv D orig n c P { s with ready := s.ready.tail } := ⟨h.fd, h.err, h.old, h.port, h.count, h.have_, h.gone⟩
    unfold nudge
    dsimp only
    split
    · exact h'
    · exact ih (io_inv ht E hE h')

theorem real_inv {s : St} (h : Inv D orig n c P s) : Inv D orig n c P (realSpeed s).2 := by
  unfold realSpeed
  split
  · exact h
  · dsimp only
    split <;> exact ⟨h.fd, h.err, h.old, h.port, h.count, h.have_, h.gone⟩

theorem speed_inv {s : St} (h : Inv D orig n c P s) (b : Int) : Inv D orig n c P (speed D s b).2 := by
  unfold speed
  dsimp only
  refine real_inv (tcset_inv ?_ _)
  exact h.congr rfl rfl rfl rfl rfl rfl rfl

theorem hangup_inv (ht : D.take orig.ospeed = orig.ospeed) (E : St → St) (hE : ∀ s, Inv D orig n c P s → Inv D orig n c P (E s)) {s : St}
    (h : Inv D orig n c P s) : Inv D orig n c P (hangup D E s) := by
  have hio : ∀ {s : St}, Inv D orig n c P s → Inv D orig n c P (io D E s) := io_inv ht E hE
  unfold hangup
  dsimp only
  split
  · exact h
  · have h1 := hio (nudge_inv ht E hE 10 (hio (hio h)))
    generalize io D E (nudge D E 10 (io D E (io D E s))) = s1 at h1 ⊢
    have h2 := carrier_inv h1
    generalize getCarrier s1 = r at h2 ⊢
    have h3 : Inv D orig n c P (if r.1 = true then
        (speed D (waitCarrier 10 (tcset D { r.2 with t := { r.2.t with ospeed := 0 } } { r.2.t with ospeed := 0 })) s.baud).2 else r.2) := by
      split
      · refine speed_inv (wait_inv 10 (tcset_inv ?_ _)) _
        exact h2.congr rfl rfl rfl rfl rfl rfl rfl
      · exact h2
    generalize (if r.1 = true then
        (speed D (waitCarrier 10 (tcset D { r.2 with t := { r.2.t with ospeed := 0 } } { r.2.t with ospeed := 0 })) s.baud).2 else r.2) = s3 at h3 ⊢
    have h4 := carrier_inv h3
    split
    · exact wait_inv 5 (hio (hio h4))
    · exact h4

theorem again_inv (ht : D.take orig.ospeed = orig.ospeed) (s : St) (h : Inv D orig n c P s) : Inv D orig n c P (closeAgain D s) := by
  unfold closeAgain
  split
  · exact h
  · exact (tail_inv ht h).1

theorem close_inv (ht : D.take orig.ospeed = orig.ospeed) (s : St) (h : Inv D orig n c P s) :
    Inv D orig n c P (close D s) ∧ (close D s).closed = true := by
  unfold close
  split
  · rename_i hc; exact ⟨h, hc⟩
  · dsimp only
    refine tail_inv ht ?_
    have h' : Inv D orig n c P { s with closing := true } := ⟨h.fd, h.err, h.old, h.port, h.count, h.have_, h.gone⟩
    split
    · exact h
    · split
      · exact hangup_inv ht _ (again_inv ht) h'
      · have h1 := io_inv ht _ (again_inv ht) h'
        refine io_inv ht _ (again_inv ht) ?_
        exact h1.congr rfl rfl rfl rfl rfl rfl rfl

theorem step_inv (ht : D.take orig.ospeed = orig.ospeed) (s : St) (o : Op) (h : Inv D orig n c P s) : Inv D orig n c P (step D s o) := by
  cases o with
  | speed b => exact speed_inv h b
  | hangup => exact hangup_inv ht _ (fun s h => (close_inv ht s h).1) h
  | io => exact io_inv ht _ (fun s h => (close_inv ht s h).1) h
  | close => exact (close_inv ht s h).1

theorem run_inv (ht : D.take orig.ospeed = orig.ospeed) (l : List Op) : ∀ (s : St), Inv D orig n c P s → Inv D orig n c P (run D s l) := by
  induction l with
  | nil => intro s h; exact h
  | cons o l ih => intro s h; exact ih _ (step_inv ht s o h)

/-- After the settings have been read. -/
theorem setup_inv (ht : D.take orig.ospeed = orig.ospeed) (rtscts serial : Bool) (s : St) (hok : s.isok = true) (hp : s.port = orig)
    (hc : s.closed = false) (he : s.err = false) (hf : s.fd = true) (hn : s.closes = 0) :
    ∃ c, Inv D orig 1 c (c = false) (setup D rtscts true serial s) := by
  unfold setup
  rw [hok]
  simp only [Bool.not_true, Bool.false_eq_true, if_false]
  have hE : ∀ (c : Bool) (P : Prop) (s : St), Inv D orig 1 c P s → Inv D orig 1 c P (close D s) := fun _ _ s h => (close_inv ht s h).1
  have h0 : Inv D orig 1 false False { s with t := s.port, oldT := s.port, haveOld := true } :=
    ⟨(by simp [hf, hc]), fun h => absurd h (by simp [he]), fun _ => (by rw [hp]; exact ⟨rfl, fun h => by simpa using h⟩),
      fun h => absurd h (by simp [hc]), (by simp [hn, hf]), fun _ => rfl, False.elim⟩
  have h1 := io_inv ht (close D) (hE _ _) h0
  generalize io D (close D) { s with t := s.port, oldT := s.port, haveOld := true } = s1 at h1 ⊢
  have h2 : Inv D orig 1 false False (if (serial && s1.fd) = true then { s1 with wait := false } else s1) := by
    split
    · exact ⟨h1.fd, h1.err, h1.old, h1.port, h1.count, h1.have_, h1.gone⟩
    · exact h1
  generalize (if (serial && s1.fd) = true then { s1 with wait := false } else s1) = s2 at h2 ⊢
  have h3 := tcset_inv (D := D) (s := { s2 with t := { s2.t with clocal := true, flags := D.flags rtscts s2.t.flags } })
    ⟨h2.fd, h2.err, h2.old, h2.port, h2.count, h2.have_, h2.gone⟩ { s2.t with clocal := true, flags := D.flags rtscts s2.t.flags }
  generalize tcset D { s2 with t := { s2.t with clocal := true, flags := D.flags rtscts s2.t.flags } }
    { s2.t with clocal := true, flags := D.flags rtscts s2.t.flags } = s3 at h3 ⊢
  have h4 : ∃ c, Inv D orig 1 c (c = false) { s3 with oldT := { s3.oldT with clocal := true } } := by
    by_cases hcl : s3.closed = false
    · refine ⟨true, ⟨h3.fd, h3.err, fun h => ?_, fun h => absurd (show s3.closed = true from h) (by simp [hcl]), h3.count, h3.have_, fun h => absurd h (by decide)⟩⟩
      obtain ⟨e1, -⟩ := h3.old h
      refine ⟨?_, fun _ => rfl⟩
      show ({ s3.oldT with clocal := true } : Setting) = { orig with clocal := true }
      rw [e1]
    · refine ⟨false, ⟨h3.fd, h3.err, fun h => ?_, h3.port, h3.count, h3.have_, fun _ => (show s3.closed = true by simpa using hcl)⟩⟩
      obtain ⟨e1, -⟩ := h3.old h
      refine ⟨?_, fun _ => rfl⟩
      show ({ s3.oldT with clocal := true } : Setting) = { orig with clocal := true }
      rw [e1]
  obtain ⟨c, h4⟩ := h4
  refine ⟨c, ?_⟩
  generalize ({ s3 with oldT := { s3.oldT with clocal := true } } : St) = s4 at h4 ⊢
  have hio : ∀ {s : St}, Inv D orig 1 c (c = false) s → Inv D orig 1 c (c = false) (io D (close D) s) := io_inv ht _ (hE _ _)
  have h5 : Inv D orig 1 c (c = false) (if s3.t.ospeed ≠ 0 ∧ s3.noReset = false then
      io D (close D) (io D (close D) (io D (close D) (io D (close D) (io D (close D) s4)))) else s4) := by
    split
    · exact hio (hio (hio (hio (hio h4))))
    · exact h4
  generalize (if s3.t.ospeed ≠ 0 ∧ s3.noReset = false then
      io D (close D) (io D (close D) (io D (close D) (io D (close D) (io D (close D) s4)))) else s4) = s5 at h5 ⊢
  refine hio (speed_inv (carrier_inv (tcset_inv ?_ _)) _)
  exact h5.congr rfl rfl rfl rfl rfl rfl rfl

/-- Any object. -/
theorem make_inv (D : Driver) (e : Env) (baud : Int) (rtscts noReset : Bool) (ht : D.take e.port.ospeed = e.port.ospeed) :
    ∃ n c, Inv D e.port n c (c = false) (make D e baud rtscts noReset) ∧ n = if e.lock = true ∧ e.opens = true then 1 else 0 := by
  unfold make
  dsimp only
  by_cases h : e.lock = true ∧ e.opens = true
  · rw [if_neg (by simp [h.1, h.2]), if_pos h]
    cases htty : e.tty
    · refine ⟨1, false, ?_, rfl⟩
      refine ⟨rfl, fun _ => rfl, fun h => Bool.noConfusion (show false = true from h), fun _ => ⟨rfl, fun h => h.resolve_right (by decide)⟩, rfl,
        fun h => Bool.noConfusion (show false = true from h), fun _ => rfl⟩
    · obtain ⟨c, hi⟩ := setup_inv (D := D) ht rtscts e.serial
        ⟨e.port, e.port, false, baud, false, noReset, false, false, false, true, 0, e.port, e.wait, e.ios, e.carrier, e.ready⟩ rfl rfl rfl rfl rfl rfl
      exact ⟨1, c, hi, rfl⟩
  · rw [if_pos (by
      cases h1 : e.lock <;> cases h2 : e.opens <;> simp_all), if_neg h]
    refine ⟨0, false, ?_, rfl⟩
    cases noReset
    all_goals exact ⟨rfl, fun _ => rfl, fun h => Bool.noConfusion (show false = true from h), fun _ => ⟨rfl, fun h => h.resolve_right (by decide)⟩, rfl,
        fun h => Bool.noConfusion (show false = true from h), fun _ => rfl⟩

theorem find_best (b : Int) (l : List (Int × Nat)) (hl : l.Pairwise fun x y => y.1 < x.1) :
    match l.find? fun e => decide (e.1 ≤ b) with
    | some e => e ∈ l ∧ e.1 ≤ b ∧ ∀ x ∈ l, x.1 ≤ b → x.1 ≤ e.1
    | none => ∀ x ∈ l, b < x.1 := by
  induction l with
  | nil => simp
  | cons a l ih =>
    rw [List.pairwise_cons] at hl
    have := ih hl.2
    rw [List.find?_cons]
    by_cases h : a.1 ≤ b
    · rw [decide_eq_true h]
      refine ⟨by simp, h, ?_⟩
      intro x hx _
      rcases List.mem_cons.1 hx with rfl | hx
      · exact Int.le_refl _
      · exact Int.le_of_lt (hl.1 x hx)
    · rw [decide_eq_false h]
      simp only
      cases hf : l.find? fun e => decide (e.1 ≤ b) with
      | none =>
        rw [hf] at this
        intro x hx
        rcases List.mem_cons.1 hx with rfl | hx
        · omega
        · exact this x hx
      | some e =>
        rw [hf] at this
        refine ⟨by simp [this.1], this.2.1, ?_⟩
        intro x hx hb
        rcases List.mem_cons.1 hx with rfl | hx
        · exact absurd hb h
        · exact this.2.2 x hx hb

theorem sorted : speeds.Pairwise fun x y => y.1 < x.1 := by decide +kernel
theorem speeds_codes : ∀ e ∈ speeds, ∃ c ∈ codes, (c.1 : Int) = e.1 ∧ c.2 = e.2 := by decide +kernel
theorem codes_speeds : ∀ c ∈ codes, ((c.1 : Int), c.2) ∈ speeds := by decide +kernel
theorem distinct : ∀ e ∈ speeds, (speeds.find? fun x => x.2 == e.2) = some e := by decide +kernel
theorem nonzero : ∀ e ∈ speeds, e.2 ≠ 0 := by decide +kernel

theorem isok_iff (s : St) : s.isok = true ↔ s.closed = false ∧ s.err = false ∧ s.fd = true := by
  unfold St.isok; cases s.closed <;> cases s.err <;> cases s.fd <;> simp

/-- The answer of `get_real_speed` on a port that can be used. -/
theorem real_eq (s : St) (h : s.isok = true) : realSpeed s = (match speeds.find? fun e => e.2 == s.port.ospeed with
    | some e => (e.1, { s with t := s.port, baud := e.1 })
    | none => (s.baud, { s with t := s.port })) := by
  unfold realSpeed
  rw [h]
  simp only [Bool.not_true, Bool.false_eq_true, if_false]
  cases speeds.find? (fun e => e.2 == s.port.ospeed) <;> rfl

theorem speed_eq (D : Driver) (s : St) (b : Int) (h : s.isok = true) (code : Nat)
    (hc : codeFor b = code) :
    speed D s b = (match speeds.find? fun e => e.2 == D.take code with
    | some e => (e.1, { s with port := { s.t with ispeed := 0, ospeed := D.take code }, t := { s.t with ispeed := 0, ospeed := D.take code }, baud := e.1 })
    | none => (0, { s with port := { s.t with ispeed := 0, ospeed := D.take code }, t := { s.t with ispeed := 0, ospeed := D.take code }, baud := 0 })) := by
  obtain ⟨h1, h2, h3⟩ := (isok_iff s).1 h
  unfold speed
  rw [hc]
  dsimp only
  have e : tcset D { s with baud := 0, t := { s.t with ispeed := 0, ospeed := code } } { s.t with ispeed := 0, ospeed := code } =
      { s with baud := 0, t := { s.t with ispeed := 0, ospeed := code }, port := { s.t with ispeed := 0, ospeed := D.take code } } := by
    unfold tcset; rw [if_pos h3]
  have r := real_eq { s with baud := 0, t := { s.t with ispeed := 0, ospeed := code }, port := { s.t with ispeed := 0, ospeed := D.take code } }
    ((isok_iff _).2 ⟨h1, h2, h3⟩)
  rw [e, r]

end MdP

/-- C133. Setting the speed sets the port to the greatest speed there is that is not above what was asked for, and that is what it
    answers. If all are above, it answers 0. The driver must take the speeds it is given. -/
theorem C133_speed_partial (D : Driver) (s : St) (b : Int) (hok : s.isok = true) (hD : ∀ c, D.take c = c) :
    (∃ r, Best b r ∧ (speed D s b).1 = r ∧ (speed D s b).2.baud = r ∧ ∃ c ∈ codes, (c.1 : Int) = r ∧ (speed D s b).2.port.ospeed = c.2) ∨
    ((∀ c ∈ codes, b < (c.1 : Int)) ∧ (speed D s b).1 = 0 ∧ (speed D s b).2.baud = 0) := by
  have hb := MdP.find_best b speeds MdP.sorted
  cases h : speeds.find? fun e => decide (e.1 ≤ b) with
  | none =>
    rw [h] at hb
    right
    rw [MdP.speed_eq D s b hok 0 (by rw [codeFor, h]; rfl), hD]
    have : (speeds.find? fun e => e.2 == 0) = none := by decide +kernel
    rw [this]
    exact ⟨fun c hc => hb _ (MdP.codes_speeds c hc), rfl, rfl⟩
  | some e =>
    rw [h] at hb
    left
    obtain ⟨h1, h2, h3⟩ := hb
    rw [MdP.speed_eq D s b hok e.2 (by rw [codeFor, h]; rfl), hD, MdP.distinct e h1]
    obtain ⟨c, hc, e1, e2⟩ := MdP.speeds_codes e h1
    refine ⟨e.1, ⟨⟨c, hc, e1⟩, h2, ?_⟩, rfl, rfl, c, hc, e1, e2.symm⟩
    intro d hd hb'
    exact h3 _ (MdP.codes_speeds d hd) hb'

/-- C133. Whatever the driver makes of it, the answer is the speed the port really has; 0 if it is none of those there are, or if the
    port is not open any more. -/
theorem C133_real (D : Driver) (s : St) (b : Int) :
    (s.isok = true → (∃ c ∈ codes, (speed D s b).2.port.ospeed = c.2 ∧ (speed D s b).1 = c.1 ∧ (speed D s b).2.baud = c.1) ∨
      ((∀ c ∈ codes, (speed D s b).2.port.ospeed ≠ c.2) ∧ (speed D s b).1 = 0 ∧ (speed D s b).2.baud = 0)) ∧
    (s.isok = false → (speed D s b).1 = 0) := by
  refine ⟨fun hok => ?_, fun hno => ?_⟩
  · rw [MdP.speed_eq D s b hok _ rfl]
    generalize codeFor b = code
    cases h : speeds.find? fun e => e.2 == D.take code with
    | some e =>
      left
      have h1 := List.mem_of_find?_eq_some h
      have h2 : e.2 = D.take code := by simpa using List.find?_some h
      obtain ⟨c, hc, e1, e2⟩ := MdP.speeds_codes e h1
      exact ⟨c, hc, (by show D.take code = c.2; rw [e2, h2]), e1.symm, e1.symm⟩
    | none =>
      right
      refine ⟨?_, rfl, rfl⟩
      intro c hc he
      have := List.find?_eq_none.1 h _ (MdP.codes_speeds c hc)
      exact this (by simpa using he.symm)
  · have : ∀ x : St, x.closed = s.closed → x.err = s.err → x.fd = s.fd → (realSpeed x).1 = 0 := by
      intro x e1 e2 e3
      have : x.isok = false := by unfold St.isok at hno ⊢; rw [e1, e2, e3]; exact hno
      unfold realSpeed
      rw [this]; rfl
    unfold speed tcset
    dsimp only
    split
    · exact this _ rfl rfl rfl
    · exact this _ rfl rfl rfl

/-- C133. Once the modem is closed, its port has all the settings back it had before, apart from one: it now takes no notice of the modem's
    lines, if the object could be used at all. The file has been closed once if it was opened. This holds whatever has been done with
    the modem and whichever reads and writes have failed or found the end, also while it is being closed. The driver must take the speed
    the port had. -/
theorem C133_close (D : Driver) (e : Env) (baud : Int) (rtscts noReset : Bool) (l : List Op) (ht : D.take e.port.ospeed = e.port.ospeed) :
    let s := close D (run D (make D e baud rtscts noReset) l)
    s.closed = true ∧ s.fd = false ∧ s.closes = (if e.lock = true ∧ e.opens = true then 1 else 0) ∧
    s.port = { e.port with clocal := s.port.clocal } ∧ (e.port.clocal = true → s.port.clocal = true) ∧
    ((make D e baud rtscts noReset).isok = true → s.port = { e.port with clocal := true }) := by
  obtain ⟨n, c, hi, hn⟩ := MdP.make_inv D e baud rtscts noReset ht
  have h1 := MdP.run_inv ht l _ hi
  obtain ⟨h2, h3⟩ := MdP.close_inv ht _ h1
  have hf : (close D (run D (make D e baud rtscts noReset) l)).fd = false := by rw [h2.fd, h3]; rfl
  have hc := h2.count
  rw [hf] at hc
  obtain ⟨p1, p2⟩ := h2.port h3
  refine ⟨h3, hf, by rw [← hn]; simpa using hc, p1, fun h => p2 (Or.inl h), ?_⟩
  intro hok
  have hct : c = true := by
    cases c
    · have := hi.gone rfl
      rw [((MdP.isok_iff _).1 hok).1] at this
      exact absurd this (by decide)
    · rfl
  rw [p1, p2 (Or.inr hct)]

/-- A modem at 9600 with a carrier that stays, and a write that fails. -/
def MdP.D : Driver := ⟨fun c => c, fun _ f => f + 1, fun f => f + 2⟩
def MdP.env : Env := ⟨⟨5, 13, false, 77⟩, true, [.ok, .ok, .ok, .ok, .ok, .ok, .ok, .ok, .eof], [true, true, true, true], [], true, true, true, true⟩

example : (make MdP.D MdP.env 115200 true false).isok = true ∧ (make MdP.D MdP.env 115200 true false).port ≠ MdP.env.port ∧
    (make MdP.D MdP.env 115200 true false).baud = 115200 ∧ (speed MdP.D (make MdP.D MdP.env 115200 true false) 100000).1 = 57600 ∧
    (close MdP.D (run MdP.D (make MdP.D MdP.env 115200 true false) [.speed 20000, .hangup])).port = ⟨5, 13, true, 77⟩ := by decide +kernel

namespace MdP

theorem tail_closed (D : Driver) (s : St) : (closeTail D s).closed = true := by
  unfold closeTail tcset
  cases h1 : s.closed <;> cases h2 : s.fd <;> cases h3 : s.haveOld <;> simp [h1]

theorem fail_bad (D : Driver) (s : St) (h : s.isok = true) : (fail D s).isok = false := by
  obtain ⟨h1, h2, h3⟩ := (isok_iff s).1 h
  have : (fail D s).closed = true := by
    unfold fail
    simp only [h2, h1, Bool.false_eq_true, if_false]
    exact tail_closed D _
  unfold St.isok; rw [this]; rfl

theorem close_bad (D : Driver) (s : St) : (close D s).isok = false := by
  have : (close D s).closed = true := by
    unfold close
    split
    · assumption
    · exact tail_closed D _
  unfold St.isok; rw [this]; rfl

/-- If it can still be used, nothing has happened to its speed. -/
def Keeps (s s' : St) : Prop := s'.isok = true → s.isok = true ∧ s'.baud = s.baud ∧ s'.port.ospeed = s.port.ospeed

theorem Keeps.trans {a b c : St} (h : Keeps a b) (g : Keeps b c) : Keeps a c := fun hc =>
  let ⟨g1, g2, g3⟩ := g hc
  let ⟨h1, h2, h3⟩ := h g1
  ⟨h1, g2.trans h2, g3.trans h3⟩

theorem io_keeps (D : Driver) (s : St) : Keeps s (io D (close D) s) := by
  unfold io
  split
  · exact fun h => ⟨h, rfl, rfl⟩
  · rename_i hok
    have hok : s.isok = true := by simpa using hok
    dsimp only
    split
    · exact fun _ => ⟨hok, rfl, rfl⟩
    · exact fun h => absurd h (by rw [fail_bad D { s with ios := s.ios.tail } hok]; decide)
    · exact fun h => absurd h (by rw [close_bad]; decide)

theorem carrier_keeps (s : St) : Keeps s (getCarrier s).2 := by
  unfold getCarrier
  split
  · exact fun h => ⟨h, rfl, rfl⟩
  · exact fun h => ⟨h, rfl, rfl⟩

theorem wait_keeps (k : Nat) : ∀ (s : St), Keeps s (waitCarrier k s) := by
  induction k with
  | zero => intro s; exact carrier_keeps s
  | succ k ih =>
    intro s
    unfold waitCarrier
    dsimp only
    split
    · exact (carrier_keeps s).trans (ih _)
    · exact carrier_keeps s

theorem nudge_keeps (D : Driver) (k : Nat) : ∀ (s : St), Keeps s (nudge D (close D) k s) := by
  induction k with
  | zero => intro s h; exact ⟨h, rfl, rfl⟩
  | succ k ih =>
    intro s
    have h' : Keeps s { s with ready := s.ready.tail } := fun h => ⟨h, rfl, rfl⟩
    unfold nudge
    dsimp only
    split
    · exact h'
    · exact (h'.trans (io_keeps D _)).trans (ih _)

theorem real_isok (s : St) : (realSpeed s).2.isok = s.isok := by
  unfold realSpeed
  split
  · rfl
  · dsimp only
    split <;> rfl

theorem speed_isok (D : Driver) (s : St) (b : Int) : (speed D s b).2.isok = s.isok := by
  unfold speed
  dsimp only
  rw [real_isok]
  unfold tcset
  split <;> rfl

/-- A speed there is. -/
theorem speed_again (D : Driver) (s : St) (c : Nat × Nat) (hc : c ∈ codes) (hD : ∀ x, D.take x = x) (h : s.isok = true) :
    (speed D s c.1).2.baud = c.1 ∧ (speed D s c.1).2.port.ospeed = c.2 := by
  have e : (speeds.find? fun e => decide (e.1 ≤ (c.1 : Int))) = some ((c.1 : Int), c.2) := by
    revert c; decide +kernel
  rw [speed_eq D s c.1 h c.2 (by rw [codeFor, e]; rfl), hD, distinct _ (codes_speeds c hc)]
  exact ⟨rfl, rfl⟩

end MdP

/-- C133. Hanging up does not change the speed, if the modem can still be used after it: the line is dropped and the port comes back with
    the speed it had. The driver must take the speeds it is given. -/
theorem C133_hangup_partial (D : Driver) (s : St) (c : Nat × Nat) (hc : c ∈ codes) (hb : s.baud = c.1) (hp : s.port.ospeed = c.2)
    (hD : ∀ x, D.take x = x) (h : (step D s .hangup).isok = true) :
    (step D s .hangup).baud = c.1 ∧ (step D s .hangup).port.ospeed = c.2 := by
  have key : MdP.Keeps s (hangup D (close D) s) := by
    unfold hangup
    dsimp only
    split
    · exact fun h => ⟨h, rfl, rfl⟩
    · have h1 : MdP.Keeps s (io D (close D) (nudge D (close D) 10 (io D (close D) (io D (close D) s)))) :=
        (((MdP.io_keeps D s).trans (MdP.io_keeps D _)).trans (MdP.nudge_keeps D 10 _)).trans (MdP.io_keeps D _)
      generalize io D (close D) (nudge D (close D) 10 (io D (close D) (io D (close D) s))) = s1 at h1 ⊢
      have h2 := h1.trans (MdP.carrier_keeps s1)
      generalize getCarrier s1 = r at h2 ⊢
      have h3 : MdP.Keeps s (if r.1 = true then
          (speed D (waitCarrier 10 (tcset D { r.2 with t := { r.2.t with ospeed := 0 } } { r.2.t with ospeed := 0 })) s.baud).2 else r.2) := by
        split
        · intro hok
          rw [MdP.speed_isok] at hok
          have hr : r.2.isok = true := by
            have := (MdP.wait_keeps 10 _ hok).1
            unfold tcset at this
            split at this <;> exact this
          rw [hb]
          obtain ⟨a, b⟩ := MdP.speed_again D _ c hc hD hok
          exact ⟨(h2 hr).1, a, b.trans hp.symm⟩
        · exact h2
      generalize (if r.1 = true then
          (speed D (waitCarrier 10 (tcset D { r.2 with t := { r.2.t with ospeed := 0 } } { r.2.t with ospeed := 0 })) s.baud).2 else r.2) = s3 at h3 ⊢
      have h4 := h3.trans (MdP.carrier_keeps s3)
      split
      · exact ((h4.trans (MdP.io_keeps D _)).trans (MdP.io_keeps D _)).trans (MdP.wait_keeps 5 _)
      · exact h4
  obtain ⟨-, a, b⟩ := key h
  exact ⟨a.trans hb, b.trans hp⟩

example : ∃ s, s = run MdP.D (make MdP.D { MdP.env with ios := [] } 115200 true false) [.speed 20000] ∧ s.isok = true ∧ s.baud = 19200 ∧
    s.port.ospeed = 14 ∧ (step MdP.D s .hangup).isok = true ∧ (step MdP.D s .hangup).carrier = [] := ⟨_, rfl, by decide +kernel⟩

/-- C133. A speed below all there are is not refused: the port is set to no speed at all, which drops the line, and after that hanging up
    does not raise it again. -/
theorem C133_slow_fails : ∃ (e : Env) (b : Int), 0 < b ∧ (make MdP.D e 9600 true false).isok = true ∧
    (make MdP.D e 9600 true false).port.ospeed = 13 ∧
    (run MdP.D (make MdP.D e 9600 true false) [.speed b]).port.ospeed = 0 ∧
    (run MdP.D (make MdP.D e 9600 true false) [.speed b, .hangup]).port.ospeed = 0 :=
  ⟨{ MdP.env with ios := [] }, 110, by decide +kernel⟩

/-- C133 is false of how the port behaves when it is closed by others later: whether it waits for output is changed and not set back. -/
theorem C133_wait_fails : ∃ e : Env, e.wait = true ∧ (close MdP.D (make MdP.D e 9600 true false)).port = { e.port with clocal := true } ∧
    (close MdP.D (make MdP.D e 9600 true false)).wait = false := ⟨MdP.env, by decide +kernel⟩

/-- C133 is false if the driver refuses the speed: the answer is not the greatest speed below the one asked for. -/
theorem C133_refused_fails : ∃ (D : Driver) (s : St), s.isok = true ∧ (speed D s 115200).1 = 9600 ∧ ¬ Best 115200 9600 :=
  ⟨⟨fun _ => 13, fun _ f => f, id⟩, { make MdP.D { MdP.env with ios := [] } 9600 true false with baud := 9600 }, by decide +kernel, by decide +kernel,
    fun h => absurd (h.2.2 (115200, 4098) (by decide) (by decide)) (by decide)⟩

/-- C133. A `WvModemBase` on a file at a speed that is not in the table answers a speed nobody has set. -/
theorem C133_base_fails : ∃ p : Setting, baseBaud p = none := ⟨⟨0, 5, false, 0⟩, by decide +kernel⟩

end Props
