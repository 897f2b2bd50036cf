import Verif.Model.BufStream
/-!
C122: one reads from a `WvBufStream` what was written to it.
-/
namespace Props
open Wv Wv.BufStream
open Spec.BufStream

namespace BsP

/-- What functions that neither take nor give bytes do to the buffers. -/
structure Keep (s t : St) : Prop where
  bytes : ∃ lost, s.inbuf ++ s.outbuf = t.inbuf ++ t.outbuf ++ lost ∧ (lost ≠ [] → t.dead = true)
  dead : s.dead = true → t.dead = true
  plain : s.outbuf = [] → s.delayed = false → t.outbuf = [] ∧ t.inbuf = s.inbuf
  delayed : t.delayed = s.delayed

theorem Keep.rfl' {s : St} : Keep s s := ⟨⟨[], by simp, fun h => absurd rfl h⟩, id, fun h _ => ⟨h, rfl⟩, rfl⟩

theorem Keep.trans {s t u : St} (h : Keep s t) (g : Keep t u) : Keep s u := by
  obtain ⟨l1, e1, d1⟩ := h.bytes
  obtain ⟨l2, e2, d2⟩ := g.bytes
  refine ⟨⟨l2 ++ l1, by rw [e1, e2]; simp, fun hne => ?_⟩, fun x => g.dead (h.dead x), fun a b => ?_, by rw [g.delayed, h.delayed]⟩
  · by_cases hl : l2 = []
    · exact g.dead (d1 (by rintro rfl; exact hne (by simp [hl])))
    · exact d2 hl
  · obtain ⟨a1, a2⟩ := h.plain a b
    obtain ⟨b1, b2⟩ := g.plain a1 (by rw [h.delayed, b])
    exact ⟨b1, by rw [b2, a2]⟩

/-- Nothing that matters for the buffers is changed. -/
theorem Keep.same {s t : St} (h1 : t.inbuf = s.inbuf) (h2 : t.outbuf = s.outbuf) (h3 : t.delayed = s.delayed) (h4 : s.dead = true → t.dead = true) : Keep s t :=
  ⟨⟨[], by rw [h1, h2]; simp, fun h => absurd rfl h⟩, h4, fun h _ => ⟨by rw [h2, h], h1⟩, h3⟩

theorem closeIn_keep (s : St) : Keep s s.closeIn := Keep.same rfl rfl rfl (fun _ => rfl)

theorem autoIn_keep (s : St) : Keep s s.autoIn := by
  unfold St.autoIn; split
  · exact closeIn_keep s
  · exact Keep.rfl'

theorem move_keep (s : St) (f : Flow) : Keep s (s.move f).1 ∧ (s.move f).1.dead = s.dead := by
  unfold St.move
  split
  · exact ⟨Keep.rfl', rfl⟩
  · rename_i h
    refine ⟨⟨⟨[], ?_, fun h => absurd rfl h⟩, id, fun h1 _ => ?_, rfl⟩, rfl⟩
    · dsimp only; simp [List.append_assoc]
    · simp [h1] at h

theorem flushOutbuf_keep (s : St) (f : Flow) : Keep s (s.flushOutbuf f) := by
  unfold St.flushOutbuf
  split
  · exact autoIn_keep s
  · rename_i hc
    obtain ⟨hm, hd⟩ := move_keep s f
    dsimp only
    refine Keep.trans ?_ (autoIn_keep _)
    generalize hr : s.move f = r at hm hd
    have h2 : Keep s (if (r.1.delayed && !r.2) = true then { r.1 with want := false } else r.1) := by
      split
      · exact hm.trans (Keep.same rfl rfl rfl id)
      · exact hm
    generalize (if (r.1.delayed && !r.2) = true then { r.1 with want := false } else r.1) = t at h2
    split
    · rename_i hz
      have hdead : t.dead = true := by
        simp only [Bool.and_eq_true, St.isok, Bool.not_not] at hz
        exact hz.2
      obtain ⟨l1, e1, _⟩ := h2.bytes
      refine ⟨⟨t.outbuf ++ l1, by rw [e1]; simp, fun _ => hdead⟩, fun _ => hdead, fun a b => ?_, h2.delayed⟩
      exact ⟨rfl, (h2.plain a b).2⟩
    · exact h2

theorem flush_keep (s : St) (f : Flow) : Keep s (s.flush f) :=
  (Keep.same (s := s) (t := { s with want := true }) rfl rfl rfl id).trans (flushOutbuf_keep { s with want := true } f)

theorem close_keep (s : St) : Keep s s.close :=
  ((Keep.same (s := s) (t := { s with dead := true }) rfl rfl rfl (fun _ => rfl)).trans (flush_keep { s with dead := true } ⟨0, false⟩)).trans (Keep.same rfl rfl rfl id)

theorem close_dead (s : St) : s.close.dead = true := (flush_keep { s with dead := true } ⟨0, false⟩).dead rfl

theorem auto_keep (s : St) : Keep s s.auto := by
  unfold St.auto; split
  · exact close_keep s
  · exact Keep.rfl'

theorem uread_keep (s : St) : Keep s s.uread := by
  unfold St.uread; split
  · exact close_keep s
  · exact Keep.rfl'

theorem want_keep (s : St) (f : Flow) : Keep s (if s.want then s.flush f else s) := by
  split
  · exact flush_keep s f
  · exact Keep.rfl'

theorem select_keep (s : St) (r w : Bool) (f : Flow) : Keep s (s.select r w f).1 := (auto_keep s).trans (want_keep _ f)

/-- What is in order after a history. -/
def Inv (s : St) (log : List Ev) : Prop := ∃ lost, sent log = received log ++ s.inbuf ++ s.outbuf ++ lost ∧ (lost ≠ [] → s.dead = true)

/-- And for streams without delay. -/
def Plain (s : St) (log : List Ev) : Prop := s.outbuf = [] ∧ s.delayed = false ∧ sent log = received log ++ s.inbuf

theorem sent_append (a b : List Ev) : sent (a ++ b) = sent a ++ sent b := by simp [sent]
theorem received_append (a b : List Ev) : received (a ++ b) = received a ++ received b := by simp [received]

/-- A step, seen from outside: some bytes are taken if the stream is not dead, then things are moved, then some are given from the front, then things are moved. -/
structure Moves (s t : St) (e : List Ev) : Prop where
  ex : ∃ m g : St, Keep m g ∧ ∃ put get : List Byte, (put ≠ [] → s.dead = false) ∧ sent e = put ∧ received e = get ∧
    (m.dead = s.dead ∧ m.delayed = s.delayed ∧ m.inbuf ++ m.outbuf = s.inbuf ++ s.outbuf ++ put ∧ (s.outbuf = [] → s.delayed = false → m.outbuf = [] ∧ m.inbuf = s.inbuf ++ put)) ∧
    ∃ h : St, g.inbuf = get ++ h.inbuf ∧ h.outbuf = g.outbuf ∧ h.dead = g.dead ∧ h.delayed = g.delayed ∧ Keep h t

theorem Moves.inv {s t : St} {e : List Ev} (h : Moves s t e) {log : List Ev} (hi : Inv s log) : Inv t (log ++ e) := by
  obtain ⟨m, g, hk, put, get, hp, e1, e2, ⟨h1, h2, h3, h4⟩, hh, g1, g2, g3, g4, hk2⟩ := h.ex
  obtain ⟨lost, el, hd⟩ := hi
  obtain ⟨l1, f1, d1⟩ := hk.bytes
  obtain ⟨l2, f2, d2⟩ := hk2.bytes
  have hcase : put ≠ [] → lost = [] := by
    intro hne
    have := hp hne
    apply Decidable.byContradiction
    intro hl
    rw [hd hl] at this
    cases this
  refine ⟨l2 ++ (l1 ++ lost), ?_, ?_⟩
  · rw [sent_append, received_append, e1, e2, el]
    have hall : s.inbuf ++ s.outbuf ++ put = get ++ (t.inbuf ++ t.outbuf ++ l2) ++ l1 := by
      rw [← h3, f1, g1, ← f2, ← g2]; simp
    by_cases hne : put = []
    · rw [hne, List.append_nil] at hall
      rw [hne, List.append_nil]
      have : received log ++ s.inbuf ++ s.outbuf ++ lost = received log ++ (s.inbuf ++ s.outbuf) ++ lost := by simp
      rw [this, hall]; simp
    · rw [hcase hne]
      have : received log ++ s.inbuf ++ s.outbuf ++ [] ++ put = received log ++ (s.inbuf ++ s.outbuf ++ put) := by simp
      rw [this, hall]; simp
  · intro hne
    by_cases a : l2 = []
    · apply hk2.dead
      rw [g3]
      by_cases b : l1 = []
      · apply hk.dead
        show m.dead = true
        rw [h1]
        exact hd (by rintro rfl; exact hne (by simp [a, b]))
      · exact d1 b
    · exact d2 a

theorem Moves.plain {s t : St} {e : List Ev} (h : Moves s t e) {log : List Ev} (hi : Plain s log) : Plain t (log ++ e) := by
  obtain ⟨m, g, hk, put, get, hp, e1, e2, ⟨h1, h2, h3, h4⟩, hh, g1, g2, g3, g4, hk2⟩ := h.ex
  obtain ⟨i1, i2, i3⟩ := hi
  obtain ⟨m1, m2⟩ := h4 i1 i2
  have m3 : m.delayed = false := by rw [h2, i2]
  obtain ⟨k1, k2⟩ := hk.plain m1 m3
  have hg : g.delayed = false := by rw [hk.delayed]; exact m3
  obtain ⟨k3, k4⟩ := hk2.plain (by rw [g2, k1]) (by rw [g4, hg])
  refine ⟨k3, by rw [hk2.delayed, g4, hg], ?_⟩
  rw [sent_append, received_append, e1, e2, i3, k4]
  have : s.inbuf ++ put = get ++ hh.inbuf := by rw [← m2, ← g1, k2]
  rw [List.append_assoc, this, List.append_assoc]

/-- A step that only moves. -/
theorem Moves.keep {s t : St} {e : List Ev} (h : Keep s t) (h1 : sent e = []) (h2 : received e = []) : Moves s t e :=
  ⟨s, t, h, [], [], fun x => absurd rfl x, h1, h2, ⟨rfl, rfl, by simp, fun a _ => ⟨a, by simp⟩⟩, t, by simp, rfl, rfl, rfl, Keep.rfl'⟩

/-- A step that gives something, after things were moved. -/
theorem Moves.give {s g h t : St} {e : List Ev} {get : List Byte} (hk : Keep s g) (h1 : sent e = []) (h2 : received e = get) (h3 : g.inbuf = get ++ h.inbuf) (h4 : h.outbuf = g.outbuf)
    (h5 : h.dead = g.dead) (h6 : h.delayed = g.delayed) (hk2 : Keep h t) : Moves s t e :=
  ⟨s, g, hk, [], get, fun x => absurd rfl x, h1, h2, ⟨rfl, rfl, by simp, fun a _ => ⟨a, by simp⟩⟩, h, h3, h4, h5, h6, hk2⟩

theorem dropWhile_nil {p : Byte → Bool} : ∀ {l : List Byte}, l.dropWhile p = [] → ∀ x ∈ l, p x = true := by
  intro l
  induction l with
  | nil => intro _ x hx; cases hx
  | cons a l ih =>
    intro h x hx
    by_cases ha : p a = true
    · rw [List.dropWhile_cons_of_pos ha] at h
      rcases List.mem_cons.1 hx with rfl | hx
      · exact ha
      · exact ih h x hx
    · rw [List.dropWhile_cons_of_neg ha] at h
      cases h

theorem take_bytes (g : St) : g.inbuf = received [g.take.2] ++ g.take.1.inbuf ∧ g.take.1.outbuf = g.outbuf ∧ g.take.1.dead = g.dead ∧ g.take.1.delayed = g.delayed ∧ sent [g.take.2] = [] := by
  unfold St.take
  split
  · exact ⟨rfl, rfl, rfl, rfl, rfl⟩
  · split
    · rename_i hc
      refine ⟨?_, rfl, rfl, rfl, rfl⟩
      have hmem : (10 : Byte) ∈ g.inbuf := by simpa using hc
      have hne : g.inbuf.dropWhile (· != 10) ≠ [] := by
        intro h0
        have hall := dropWhile_nil h0
        have := hall 10 hmem
        simp at this
      have hh := List.head_dropWhile_not (fun x : Byte => x != 10) hne
      have hx : g.inbuf.dropWhile (· != 10) = 10 :: (g.inbuf.dropWhile (· != 10)).drop 1 := by
        generalize hq : g.inbuf.dropWhile (· != 10) = q at hne hh
        cases q with
        | nil => exact absurd rfl hne
        | cons x q =>
          simp at hh
          simp [hh]
      conv => lhs; rw [← List.takeWhile_append_dropWhile (p := (· != 10)) (l := g.inbuf), hx]
      simp [received]
    · exact ⟨by simp [received], rfl, rfl, rfl, rfl⟩

theorem take_moves {s g : St} (hk : Keep s g) : Moves s g.take.1 [g.take.2] := by
  obtain ⟨h1, h2, h3, h4, h5⟩ := take_bytes g
  exact Moves.give (h := g.take.1) hk h5 rfl h1 h2 h3 h4 Keep.rfl'

theorem step_moves (s : St) (o : Op) (ho : ∀ b, o ≠ .delay b) : Moves s (s.step o).1 (s.step o).2 := by
  cases o with
  | write b f =>
    show Moves s (s.write b f).1 [.took (s.write b f).2]
    unfold St.write
    split
    · exact Moves.keep Keep.rfl' rfl rfl
    · rename_i hn
      have hd : s.dead = false := by
        cases h : s.dead
        · rfl
        · simp [St.isok, h] at hn
      split
      · rename_i hc
        simp only [Bool.and_eq_true, Bool.not_eq_true', List.isEmpty_iff] at hc
        exact ⟨{ s with inbuf := s.inbuf ++ b }, _, Keep.rfl', b, [], fun _ => hd, by simp [sent], by simp [received],
          ⟨rfl, rfl, by simp [hc.2], fun _ _ => ⟨hc.2, rfl⟩⟩, _, by simp, rfl, rfl, rfl, want_keep _ f⟩
      · rename_i hc
        dsimp only
        generalize (if s.max ≠ 0 then min b.length (subSize s.max s.outbuf.length) else b.length) = k
        exact ⟨{ s with outbuf := s.outbuf ++ b.take k }, _, Keep.rfl', b.take k, [], fun _ => hd, by simp [sent], by simp [received],
          ⟨rfl, rfl, by simp, fun x y => by simp [x, y] at hc⟩, _, by simp, rfl, rfl, rfl, want_keep _ f⟩
  | read n =>
    show Moves s (s.read n).1 [.gave (s.read n).2]
    unfold St.read
    split
    · exact Moves.keep ((uread_keep s).trans (auto_keep _)) rfl rfl
    · split
      · exact Moves.keep ((uread_keep s).trans (auto_keep _)) rfl rfl
      · exact Moves.give (h := { s with inbuf := s.inbuf.drop n }) Keep.rfl' rfl rfl (by simp [received]) rfl rfl rfl (auto_keep _)
  | getline f =>
    show Moves s (s.getline f).1 [(s.getline f).2]
    unfold St.getline
    dsimp only
    split
    · exact take_moves (auto_keep s)
    · split
      · exact take_moves ((auto_keep s).trans (Keep.same rfl rfl rfl id))
      · have h1 : Keep s ({ s.auto with qmin := s.auto.inbuf.length + 1 }.select true false f).1 :=
          ((auto_keep s).trans (Keep.same (t := { s.auto with qmin := s.auto.inbuf.length + 1 }) rfl rfl rfl id)).trans (select_keep _ _ _ f)
        dsimp only at h1 ⊢
        generalize ({ s.auto with qmin := s.auto.inbuf.length + 1 }.select true false f) = r at h1
        split
        · exact take_moves h1
        · have h2 : Keep s (if r.2 = true then r.1.uread else r.1) := by
            split
            · exact h1.trans (uread_keep _)
            · exact h1
          generalize (if r.2 = true then r.1.uread else r.1) = t at h2
          split
          · exact take_moves h2
          · exact Moves.keep h2 rfl rfl
  | flush f => exact Moves.keep (flush_keep s f) rfl rfl
  | isreadable f =>
    refine Moves.keep ?_ rfl rfl
    show Keep s (s.isreadable f).1
    unfold St.isreadable; split
    · exact select_keep s _ _ f
    · exact Keep.rfl'
  | iswritable f =>
    refine Moves.keep ?_ rfl rfl
    show Keep s (s.iswritable f).1
    unfold St.iswritable; split
    · exact select_keep s _ _ f
    · exact Keep.rfl'
  | close => exact Moves.keep (close_keep s) rfl rfl
  | seterr e =>
    unfold St.step
    dsimp only
    split
    · exact Moves.keep ((Keep.same (s := s) (t := { s with err := e }) rfl rfl rfl id).trans (close_keep _)) rfl rfl
    · exact Moves.keep Keep.rfl' rfl rfl
  | noread => exact Moves.keep ((Keep.same (s := s) (t := { s with stopR := true }) rfl rfl rfl id).trans (auto_keep _)) rfl rfl
  | nowrite => exact Moves.keep ((Keep.same (s := s) (t := { s with stopW := true }) rfl rfl rfl id).trans (auto_keep _)) rfl rfl
  | delay b => exact absurd rfl (ho b)
  | limit n => exact Moves.keep (Keep.same rfl rfl rfl id) rfl rfl
  | queuemin n => exact Moves.keep (Keep.same rfl rfl rfl id) rfl rfl
  | seteof => exact Moves.keep (Keep.same rfl rfl rfl id) rfl rfl

theorem step_inv {s : St} {log : List Ev} (h : Inv s log) (o : Op) : Inv (s.step o).1 (log ++ (s.step o).2) := by
  by_cases ho : ∃ b, o = .delay b
  · obtain ⟨b, rfl⟩ := ho
    show Inv _ (log ++ [])
    rw [List.append_nil]
    exact h
  · exact (step_moves s o (fun b hb => ho ⟨b, hb⟩)).inv h

theorem step_plain {s : St} {log : List Ev} (h : Plain s log) (o : Op) (ho : o ≠ .delay true) : Plain (s.step o).1 (log ++ (s.step o).2) := by
  by_cases hb : o = .delay false
  · subst hb
    show Plain _ (log ++ [])
    rw [List.append_nil]
    exact ⟨h.1, rfl, h.2.2⟩
  · exact (step_moves s o (fun b => by cases b <;> assumption)).plain h

theorem run_inv : ∀ (ops : List Op) (s : St) (log : List Ev), Inv s log → Inv (run ops s).1 (log ++ (run ops s).2) := by
  intro ops
  induction ops with
  | nil => intro s log h; simpa [run] using h
  | cons o os ih =>
    intro s log h
    have := ih _ _ (step_inv h o)
    simpa [run, List.append_assoc] using this

theorem run_plain : ∀ (ops : List Op) (s : St) (log : List Ev), .delay true ∉ ops → Plain s log → Plain (run ops s).1 (log ++ (run ops s).2) := by
  intro ops
  induction ops with
  | nil => intro s log _ h; simpa [run] using h
  | cons o os ih =>
    intro s log hn h
    have := ih _ _ (fun x => hn (List.mem_cons_of_mem _ x)) (step_plain h o (fun x => hn (by simp [x])))
    simpa [run, List.append_assoc] using this

end BsP

/-- C122 (order): in every history, what was received is a prefix of what was written; and as long as the stream is open, what was not
    received is still in it. -/
theorem C122_order (ops : List Op) :
    received (run ops new).2 <+: sent (run ops new).2 ∧
    ((run ops new).1.isok = true → sent (run ops new).2 = received (run ops new).2 ++ ((run ops new).1.inbuf ++ (run ops new).1.outbuf)) := by
  obtain ⟨lost, h, hd⟩ := BsP.run_inv ops new [] ⟨[], rfl, fun h => absurd rfl h⟩
  rw [List.nil_append] at h
  refine ⟨⟨(run ops new).1.inbuf ++ (run ops new).1.outbuf ++ lost, by rw [h]; simp⟩, fun hok => ?_⟩
  have : lost = [] := by
    apply Decidable.byContradiction
    intro hl
    simp [St.isok, hd hl] at hok
  rw [h, this]; simp

/-- C122 (nothing is lost): in every history in which output is not delayed, whatever was written and not received can still be read, even when the
    stream was closed. Missing: delayed output (`C122_close_fails`, `C122_delayed_fails`). -/
theorem C122_kept_partial (ops : List Op) (hd : .delay true ∉ ops) : sent (run ops new).2 = received (run ops new).2 ++ (run ops new).1.inbuf := by
  have h := BsP.run_plain ops new [] hd ⟨rfl, rfl, rfl⟩
  rw [List.nil_append] at h
  exact h.2.2

namespace BsP

/-- A stream for C122_open: it is plain, `noread` was not called, and if it is closed there is nothing left. -/
structure Open (s : St) : Prop where
  out : s.outbuf = []
  now : s.delayed = false
  rd : s.stopR = false
  dead : s.dead = true → s.eof = true ∧ s.inbuf = []

theorem ended_false {s : St} (h : s.stopR = false) : s.ended = false := by simp [St.ended, h]

theorem autoIn_eq {s : St} (h : s.stopR = false) : s.autoIn = s := by simp [St.autoIn, ended_false h]
theorem auto_eq {s : St} (h : s.stopR = false) : s.auto = s := by simp [St.auto, ended_false h]

theorem flush_eq {s : St} (h1 : s.outbuf = []) (h2 : s.delayed = false) (h3 : s.stopR = false) (f : Flow) : s.flush f = { s with want := true } := by
  unfold St.flush St.flushOutbuf
  simp only [h1, h2]
  exact autoIn_eq h3

theorem close_eq {s : St} (h1 : s.outbuf = []) (h2 : s.delayed = false) (h3 : s.stopR = false) : s.close = { s with dead := true, want := true, closed := true } := by
  unfold St.close
  rw [flush_eq (s := { s with dead := true }) h1 h2 h3]

theorem want_eq {s : St} (h1 : s.outbuf = []) (h2 : s.delayed = false) (h3 : s.stopR = false) (f : Flow) : ∃ w, (if s.want then s.flush f else s) = { s with want := w } := by
  split
  · exact ⟨true, flush_eq h1 h2 h3 f⟩
  · exact ⟨s.want, rfl⟩

theorem select_eq {s : St} (h1 : s.outbuf = []) (h2 : s.delayed = false) (h3 : s.stopR = false) (r w : Bool) (f : Flow) : ∃ v, s.select r w f = ({ s with want := v },
    (r && !s.inbuf.isEmpty && s.inbuf.length ≥ s.qmin) || w || s.eof) := by
  obtain ⟨v, hv⟩ := want_eq h1 h2 h3 f
  refine ⟨v, ?_⟩
  unfold St.select
  dsimp only
  rw [auto_eq h3, hv]

/-- What `getline` does to an open, plain stream. -/
theorem getline_line {s : St} (h3 : s.stopR = false) (h4 : s.dead = false) (hc : s.inbuf.contains 10 = true) (f : Flow) :
    s.getline f = ({ s with qmin := 0, inbuf := (s.inbuf.dropWhile (· != 10)).drop 1 }, .line (s.inbuf.takeWhile (· != 10))) := by
  unfold St.getline
  dsimp only
  rw [auto_eq h3]
  have hne : s.inbuf.isEmpty = false := by cases h : s.inbuf <;> simp_all
  have hok : (!s.isok) = false := by simp [St.isok, h4]
  rw [hok, if_neg (by simp), hc, Bool.true_or, if_pos rfl]
  unfold St.take
  dsimp only
  rw [hne, if_neg (by simp), hc, if_pos rfl]

theorem getline_wait {s : St} (h1 : s.outbuf = []) (h2 : s.delayed = false) (h3 : s.stopR = false) (h4 : s.dead = false) (hc : s.inbuf.contains 10 = false) (he : s.eof = false) (f : Flow) :
    ∃ v, s.getline f = ({ s with qmin := s.inbuf.length + 1, want := v }, .nothing) := by
  obtain ⟨v, hv⟩ := select_eq (s := { s with qmin := s.inbuf.length + 1 }) h1 h2 h3 true false f
  refine ⟨v, ?_⟩
  unfold St.getline
  dsimp only
  rw [auto_eq h3]
  have hl : ¬ s.inbuf.length + 1 ≤ s.inbuf.length := by omega
  have hok : (!s.isok) = false := by simp [St.isok, h4]
  rw [hok, if_neg (by simp), hc, h3, Bool.false_or, if_neg (by simp)]
  rw [h3] at hv
  rw [hv]
  simp [St.isok, h4, he, hl]

theorem getline_end {s : St} (h1 : s.outbuf = []) (h2 : s.delayed = false) (h3 : s.stopR = false) (h4 : s.dead = false) (hc : s.inbuf.contains 10 = false) (he : s.eof = true) (f : Flow) :
    s.getline f = ({ s with qmin := s.inbuf.length + 1, want := true, dead := true, closed := true, inbuf := [] }, if s.inbuf.isEmpty then .nothing else .rest s.inbuf) := by
  obtain ⟨v, hv⟩ := select_eq (s := { s with qmin := s.inbuf.length + 1 }) h1 h2 h3 true false f
  unfold St.getline
  dsimp only
  rw [auto_eq h3]
  have hok : (!s.isok) = false := by simp [St.isok, h4]
  rw [hok, if_neg (by simp), hc, h3, Bool.false_or, if_neg (by simp)]
  rw [h3] at hv
  rw [hv]
  dsimp only
  rw [he]
  have hu : St.uread { s with stopR := false, qmin := s.inbuf.length + 1, want := v } = { s with stopR := false, qmin := s.inbuf.length + 1, want := true, dead := true, closed := true } := by
    unfold St.uread
    simp only [he, if_true]
    exact close_eq h1 h2 rfl
  simp only [he] at hu
  simp only [Bool.or_true, if_true, hu]
  by_cases hi : s.inbuf = []
  · simp [St.take, hi, St.isok, h4]
  · have hm : (10 : Byte) ∉ s.inbuf := by simpa using hc
    simp [St.take, hi, hm, St.isok, h4]

theorem getline_dead {s : St} (h3 : s.stopR = false) (h4 : s.dead = true) (f : Flow) : s.getline f = s.take := by
  unfold St.getline
  dsimp only
  rw [auto_eq h3]
  simp [St.isok, h4]

theorem uread_eq {s : St} (h1 : s.outbuf = []) (h2 : s.delayed = false) (h3 : s.stopR = false) :
    s.uread = if s.eof then { s with dead := true, want := true, closed := true } else s := by
  unfold St.uread; split
  · exact close_eq h1 h2 h3
  · rfl

/-- The operations that C122_open speaks of. -/
def mild : Op → Bool
  | .close | .seterr _ | .noread | .queuemin _ | .delay true => false
  | _ => true

theorem step_open {s : St} (h : Open s) (o : Op) (hm : mild o = true) (ho : (s.qmin = 0 ∧ ∀ f, o ≠ .getline f) ∨ ∀ n, o ≠ .read n) :
    Open (s.step o).1 ∧ ((∀ f, o ≠ .getline f) → (s.step o).1.qmin = s.qmin) := by
  obtain ⟨h1, h2, h3, h4⟩ := h
  cases o with
  | write b f =>
    show Open (s.write b f).1 ∧ (_ → (s.write b f).1.qmin = s.qmin)
    unfold St.write
    split
    · exact ⟨⟨h1, h2, h3, h4⟩, fun _ => rfl⟩
    · rename_i hn
      have hd : s.dead = false := by
        cases h : s.dead
        · rfl
        · simp [St.isok, h] at hn
      rw [if_pos (by simp [h1, h2])]
      obtain ⟨v, hv⟩ := want_eq (s := { s with inbuf := s.inbuf ++ b }) h1 h2 h3 f
      dsimp only at hv ⊢
      rw [hv]
      exact ⟨⟨h1, h2, h3, fun x => by simp [hd] at x⟩, fun _ => rfl⟩
  | read n =>
    rcases ho with ⟨hq, _⟩ | hx
    · show Open (s.read n).1 ∧ (_ → (s.read n).1.qmin = s.qmin)
      unfold St.read
      rw [if_neg (by omega)]
      split
      · rename_i hi
        have hi : s.inbuf = [] := by simpa using hi
        rw [uread_eq h1 h2 h3]
        split
        · rename_i he
          rw [auto_eq (by exact h3)]
          exact ⟨⟨h1, h2, h3, fun _ => ⟨he, hi⟩⟩, fun _ => rfl⟩
        · rw [auto_eq h3]; exact ⟨⟨h1, h2, h3, h4⟩, fun _ => rfl⟩
      · rw [auto_eq (by exact h3)]
        exact ⟨⟨h1, h2, h3, fun x => ⟨(h4 x).1, by simp [(h4 x).2]⟩⟩, fun _ => rfl⟩
    · exact absurd rfl (hx n)
  | getline f =>
    refine ⟨?_, fun x => absurd rfl (x f)⟩
    show Open (s.getline f).1
    cases hd : s.dead with
    | true =>
      rw [getline_dead h3 hd]
      unfold St.take
      rw [if_pos (by simp [(h4 hd).2])]
      exact ⟨h1, h2, h3, h4⟩
    | false =>
      cases hc : s.inbuf.contains 10 with
      | true =>
        rw [getline_line h3 hd hc]
        exact ⟨h1, h2, h3, fun x => by simp [hd] at x⟩
      | false =>
        cases he : s.eof with
        | true => rw [getline_end h1 h2 h3 hd hc he]; exact ⟨h1, h2, h3, fun _ => ⟨he, rfl⟩⟩
        | false =>
          obtain ⟨v, hv⟩ := getline_wait h1 h2 h3 hd hc he f
          rw [hv]; exact ⟨h1, h2, h3, fun x => by simp [hd] at x⟩
  | flush f =>
    show Open (s.flush f) ∧ (_ → (s.flush f).qmin = s.qmin)
    rw [flush_eq h1 h2 h3]; exact ⟨⟨h1, h2, h3, h4⟩, fun _ => rfl⟩
  | isreadable f =>
    show Open (s.isreadable f).1 ∧ (_ → (s.isreadable f).1.qmin = s.qmin)
    unfold St.isreadable; split
    · obtain ⟨v, hv⟩ := select_eq h1 h2 h3 true false f
      rw [hv]; exact ⟨⟨h1, h2, h3, h4⟩, fun _ => rfl⟩
    · exact ⟨⟨h1, h2, h3, h4⟩, fun _ => rfl⟩
  | iswritable f =>
    show Open (s.iswritable f).1 ∧ (_ → (s.iswritable f).1.qmin = s.qmin)
    unfold St.iswritable; split
    · obtain ⟨v, hv⟩ := select_eq h1 h2 h3 false true f
      rw [hv]; exact ⟨⟨h1, h2, h3, h4⟩, fun _ => rfl⟩
    · exact ⟨⟨h1, h2, h3, h4⟩, fun _ => rfl⟩
  | close => cases hm
  | seterr e => cases hm
  | noread => cases hm
  | nowrite =>
    show Open (St.auto { s with stopW := true }) ∧ (_ → (St.auto { s with stopW := true }).qmin = s.qmin)
    rw [auto_eq (by exact h3)]; exact ⟨⟨h1, h2, h3, h4⟩, fun _ => rfl⟩
  | delay b =>
    cases b with
    | true => cases hm
    | false => exact ⟨⟨h1, rfl, h3, h4⟩, fun _ => rfl⟩
  | limit n => exact ⟨⟨h1, h2, h3, h4⟩, fun _ => rfl⟩
  | queuemin n => cases hm
  | seteof => exact ⟨⟨h1, h2, h3, fun x => ⟨rfl, (h4 x).2⟩⟩, fun _ => rfl⟩

theorem run_open : ∀ (ops : List Op) (s : St), Open s → (∀ o ∈ ops, mild o = true) → ((s.qmin = 0 ∧ ∀ f, .getline f ∉ ops) ∨ ∀ n, .read n ∉ ops) → Open (run ops s).1 ∧
    ((∀ f, .getline f ∉ ops) → (run ops s).1.qmin = s.qmin) := by
  intro ops
  induction ops with
  | nil => intro s h _ _; exact ⟨h, fun _ => rfl⟩
  | cons o os ih =>
    intro s h hm hor
    obtain ⟨g1, g2⟩ := step_open h o (hm o (by simp)) (by
      rcases hor with ⟨hq, hx⟩ | hx
      · exact Or.inl ⟨hq, fun f e => hx f (by simp [e])⟩
      · exact Or.inr fun n e => hx n (by simp [e]))
    obtain ⟨i1, i2⟩ := ih (s.step o).1 g1 (fun o' ho' => hm o' (List.mem_cons_of_mem _ ho')) (by
      rcases hor with ⟨hq, hx⟩ | hx
      · exact Or.inl ⟨by rw [g2 (fun f e => hx f (by simp [e])), hq], fun f e => hx f (List.mem_cons_of_mem _ e)⟩
      · exact Or.inr fun n e => hx n (List.mem_cons_of_mem _ e))
    refine ⟨i1, fun hx => ?_⟩
    show (run os (s.step o).1).1.qmin = s.qmin
    rw [i2 (fun f e => hx f (List.mem_cons_of_mem _ e)), g2 (fun f e => hx f (by simp [e]))]

theorem new_open : Open new := ⟨rfl, rfl, rfl, fun h => by cases h⟩

theorem mild_plain {ops : List Op} (hm : ∀ o ∈ ops, mild o = true) : .delay true ∉ ops := fun h => by cases hm _ h

end BsP

/-- C122 (the end): in histories without `close`, `seterr`, `noread`, `queuemin` and delayed output, and with only one of `read` and `getline`, a stream is closed
    only after `seteof`, when all that was written has been received. Missing: delayed output (`C122_delayed_fails`), `queuemin` (`C122_queuemin_fails`), `read` after `getline` (`C122_mixed_fails`). -/
theorem C122_open_partial (ops : List Op) (hm : ∀ o ∈ ops, BsP.mild o = true) (hor : (∀ f, .getline f ∉ ops) ∨ ∀ n, .read n ∉ ops) (hd : (run ops new).1.isok = false) :
    (run ops new).1.eof = true ∧ received (run ops new).2 = sent (run ops new).2 := by
  have ho := (BsP.run_open ops new BsP.new_open hm (hor.imp (fun h => ⟨rfl, h⟩) id)).1
  have hk := C122_kept_partial ops (BsP.mild_plain hm)
  have hdead : (run ops new).1.dead = true := by simpa [St.isok] using hd
  obtain ⟨g1, g2⟩ := ho.dead hdead
  refine ⟨g1, ?_⟩
  rw [hk, g2]; simp

/-- C122 (reading): in such histories with `read`, the next `read` gives as many as asked for, or as there are, of the bytes that were written and not yet received;
    a stream that is open, and for which `nowrite` was not called, takes everything; it can be read from if there is something, or after `seteof`; and when there is nothing after
    `seteof`, reading closes it. -/
theorem C122_read_partial (ops : List Op) (hm : ∀ o ∈ ops, BsP.mild o = true) (hg : ∀ f, .getline f ∉ ops) :
    let s := (run ops new).1
    let left := (sent (run ops new).2).drop (received (run ops new).2).length
    (∀ n, (s.read n).2 = left.take n) ∧
    (∀ b f, s.isok = true → s.stopW = false → (s.write b f).2 = b) ∧
    (∀ f, (s.isreadable f).2 = (s.isok && (!left.isEmpty || s.eof))) ∧
    (∀ f, (s.iswritable f).2 = (s.isok && !s.stopW)) ∧
    (∀ n, (s.read n).1.isok = (s.isok && !(s.eof && left.isEmpty))) := by
  obtain ⟨ho, hq⟩ := BsP.run_open ops new BsP.new_open hm (Or.inl ⟨rfl, hg⟩)
  have hk := C122_kept_partial ops (BsP.mild_plain hm)
  have hq := hq hg
  dsimp only
  have hl : (sent (run ops new).2).drop (received (run ops new).2).length = (run ops new).1.inbuf := by rw [hk]; simp
  rw [hl]
  generalize (run ops new).1 = s at ho hq
  have hq : s.qmin = 0 := hq
  obtain ⟨h1, h2, h3, h4⟩ := ho
  refine ⟨fun n => ?_, fun b f hok hw => ?_, fun f => ?_, fun f => ?_, fun n => ?_⟩
  · unfold St.read
    rw [if_neg (by omega)]
    split
    · rename_i hi
      have hi : s.inbuf = [] := by simpa using hi
      simp [hi]
    · rfl
  · unfold St.write
    split
    · rename_i hx
      have : b = [] := by simpa [hok, hw] using hx
      simp [this]
    · rw [if_pos (by simp [h1, h2])]
  · unfold St.isreadable
    obtain ⟨v, hv⟩ := BsP.select_eq h1 h2 h3 true false f
    split
    · rename_i hok
      rw [hv, hok, hq]; simp
    · rename_i hok
      simp [hok]
  · unfold St.iswritable
    obtain ⟨v, hv⟩ := BsP.select_eq h1 h2 h3 false true f
    split
    · rename_i hok
      rw [hv]
      simp only [Bool.and_eq_true, Bool.not_eq_true'] at hok
      simp [hok.1, hok.2]
    · rename_i hok
      simp only [Bool.and_eq_true, Bool.not_eq_true', not_and, Bool.not_eq_true] at hok
      cases hw : s.stopW
      · simp [hok hw]
      · simp
  · unfold St.read
    rw [if_neg (by omega)]
    split
    · rename_i hi
      have hi : s.inbuf = [] := by simpa using hi
      rw [BsP.uread_eq h1 h2 h3]
      split
      · rename_i he
        rw [BsP.auto_eq (by exact h3)]
        simp [St.isok, he, hi]
      · rename_i he
        rw [BsP.auto_eq h3]
        simp [he]
    · rename_i hi
      rw [BsP.auto_eq (by exact h3)]
      have : s.inbuf.isEmpty = false := by simpa using hi
      simp [St.isok, this]

/-- C122 (lines): when `seteof` was called and output is not delayed, `getline` gives the text that is there as lines, then nothing, and the stream is closed. -/
theorem C122_lines {t : List Byte} {l : List Ev} (hl : Lines t l) : ∀ (s : St), s.inbuf = t → s.outbuf = [] → s.delayed = false → s.stopR = false → s.eof = true →
    ∀ fs : List Flow, fs.length = l.length + 1 → (run (fs.map .getline) s).2 = l ++ [.nothing] ∧ (run (fs.map .getline) s).1.isok = false ∧ (run (fs.map .getline) s).1.inbuf = [] := by
  induction hl with
  | nil =>
    intro s hi h1 h2 h3 he fs hf
    match fs, hf with
    | [f], _ =>
      simp only [List.map_cons, List.map_nil, run, St.step]
      cases hd : s.dead with
      | true => rw [BsP.getline_dead h3 hd]; simp [St.take, hi, St.isok, hd]
      | false => rw [BsP.getline_end h1 h2 h3 hd (by simp [hi]) he]; simp [hi, St.isok]
  | rest b hb h =>
    intro s hi h1 h2 h3 he fs hf
    match fs, hf with
    | [f, g], _ =>
      simp only [List.map_cons, List.map_nil, run, St.step]
      have hc : s.inbuf.contains 10 = false := by rw [hi]; simpa using h
      cases hd : s.dead with
      | true =>
        rw [BsP.getline_dead h3 hd]
        have e : s.take = ({ s with inbuf := [] }, .rest b) := by
          unfold St.take
          rw [if_neg (by simp [hi, hb]), hc, if_neg (by simp), hi]
        rw [e]
        dsimp only
        rw [BsP.getline_dead (by exact h3) (by exact hd)]
        simp [St.take, St.isok, hd]
      | false =>
        rw [BsP.getline_end h1 h2 h3 hd hc he]
        dsimp only
        rw [BsP.getline_dead (by exact h3) (by rfl)]
        simp [St.take, St.isok, hi, hb]
  | line b t l h ht ih =>
    intro s hi h1 h2 h3 he fs hf
    match fs, hf with
    | f :: fs, hf =>
      have hc : s.inbuf.contains 10 = true := by rw [hi]; simp
      have htw : s.inbuf.takeWhile (· != 10) = b := by
        rw [hi, List.takeWhile_append_of_pos (by intro x hx; have : x ≠ 10 := fun e => h (e ▸ hx); simpa using this)]
        simp
      have hdw : (s.inbuf.dropWhile (· != 10)).drop 1 = t := by
        rw [hi, List.dropWhile_append_of_pos (by intro x hx; have : x ≠ 10 := fun e => h (e ▸ hx); simpa using this)]
        simp
      have e : ∃ q, s.getline f = ({ s with qmin := q, inbuf := t }, .line b) := by
        cases hd : s.dead with
        | true =>
          refine ⟨s.qmin, ?_⟩
          rw [BsP.getline_dead h3 hd]
          unfold St.take
          rw [if_neg (by simp [hi]), hc, if_pos rfl, htw, hdw, hd]
        | false => exact ⟨0, by rw [BsP.getline_line h3 hd hc, htw, hdw, hd]⟩
      obtain ⟨q, hq⟩ := e
      obtain ⟨i1, i2, i3⟩ := ih { s with qmin := q, inbuf := t } rfl h1 h2 h3 he fs (by simpa using hf)
      simp only [List.map_cons, run, St.step, hq]
      exact ⟨by rw [i1]; rfl, i2, i3⟩

theorem BsP.first_line : ∀ t : List Byte, (10 : Byte) ∈ t → ∃ a b, t = a ++ 10 :: b ∧ (10 : Byte) ∉ a := by
  intro t
  induction t with
  | nil => intro h; cases h
  | cons x t ih =>
    intro hm
    by_cases hx : x = 10
    · exact ⟨[], t, by simp [hx], by simp⟩
    · have : (10 : Byte) ∈ t := by
        rcases List.mem_cons.1 hm with h | h
        · exact absurd h.symm hx
        · exact h
      obtain ⟨a, b, e, ha⟩ := ih this
      refine ⟨x :: a, b, by rw [e]; rfl, fun h => ?_⟩
      rcases List.mem_cons.1 h with h | h
      · exact hx h.symm
      · exact ha h

/-- Each text has lines. -/
theorem C122_lines_total (t : List Byte) : ∃ l, Lines t l := by
  generalize hn : t.length = n
  induction n using Nat.strongRecOn generalizing t with
  | ind n ih =>
    by_cases hm : (10 : Byte) ∈ t
    · obtain ⟨a, b, e, ha⟩ := BsP.first_line t hm
      obtain ⟨l, hl⟩ := ih b.length (by rw [← hn, e]; simp; omega) b rfl
      exact ⟨.line a :: l, e ▸ Lines.line a b l ha hl⟩
    · by_cases h0 : t = []
      · exact ⟨[], h0 ▸ Lines.nil⟩
      · exact ⟨[.rest t], Lines.rest t h0 hm⟩

namespace BsP

/-- A stream that was not told to end closes only by itself, when it is empty. -/
structure Self (s : St) : Prop where
  eof : s.eof = false
  dead : s.dead = true → s.inbuf = [] ∧ s.outbuf = [] ∧ s.stopR = true ∧ s.stopW = true

theorem ended_self {s : St} (h : s.ended = true) : s.inbuf = [] ∧ s.outbuf = [] ∧ s.stopR = true ∧ s.stopW = true := by
  simp only [St.ended, Bool.and_eq_true, List.isEmpty_iff] at h
  exact ⟨h.1.2, h.1.1.2, h.1.1.1.1, h.1.1.1.2⟩

/-- Such a stream goes over to such a one, and nothing is lost. -/
def To (s t : St) : Prop := Self s → Self t ∧ s.inbuf ++ s.outbuf = t.inbuf ++ t.outbuf

theorem To.trans {s t u : St} (h : To s t) (g : To t u) : To s u := fun x =>
  have a := h x
  have b := g a.1
  ⟨b.1, a.2.trans b.2⟩

theorem To.same {s t : St} (h1 : t.inbuf = s.inbuf) (h2 : t.outbuf = s.outbuf) (h3 : t.eof = s.eof) (h4 : t.dead = s.dead) (h5 : s.stopR = true → t.stopR = true) (h6 : s.stopW = true → t.stopW = true) : To s t :=
  fun x => ⟨⟨by rw [h3]; exact x.eof, fun hd => by
    obtain ⟨a, b, c, d⟩ := x.dead (by rw [← h4]; exact hd)
    exact ⟨by rw [h1, a], by rw [h2, b], h5 c, h6 d⟩⟩, by rw [h1, h2]⟩

theorem autoIn_to (s : St) : To s s.autoIn := fun h => by
  unfold St.autoIn; split
  · rename_i he
    exact ⟨⟨h.eof, fun _ => ended_self (s := s) he⟩, rfl⟩
  · exact ⟨h, rfl⟩

theorem move_to (s : St) (f : Flow) : To s (s.move f).1 := fun h => by
  unfold St.move
  split
  · exact ⟨h, rfl⟩
  · rename_i hn
    refine ⟨⟨h.eof, fun hd => ?_⟩, by simp⟩
    have : s.dead = true := hd
    simp [St.isok, this] at hn

theorem flush_to (s : St) (f : Flow) : To s (s.flush f) := by
  refine To.trans (t := { s with want := true }) (To.same rfl rfl rfl rfl id id) ?_
  show To { s with want := true } (St.flushOutbuf { s with want := true } f)
  generalize { s with want := true } = s
  unfold St.flushOutbuf
  dsimp only
  split
  · exact autoIn_to s
  · refine To.trans ?_ (autoIn_to _)
    have hm := move_to s f
    generalize s.move f = r at hm
    have h2 : To s (if (r.1.delayed && !r.2) = true then { r.1 with want := false } else r.1) := by
      split
      · exact hm.trans (To.same rfl rfl rfl rfl id id)
      · exact hm
    generalize (if (r.1.delayed && !r.2) = true then { r.1 with want := false } else r.1) = t at h2
    split
    · rename_i hz
      refine h2.trans fun h => ?_
      have hdead : t.dead = true := by
        simp only [Bool.and_eq_true, St.isok, Bool.not_not] at hz
        exact hz.2
      obtain ⟨a, b, c⟩ := h.dead hdead
      exact ⟨⟨h.eof, fun _ => ⟨a, rfl, c⟩⟩, by rw [b]⟩
    · exact h2

theorem auto_to (s : St) : To s s.auto := fun h => by
  unfold St.auto; split
  · rename_i he
    obtain ⟨a, b⟩ := flush_to { s with dead := true } ⟨0, false⟩ ⟨h.eof, fun _ => ended_self (s := s) he⟩
    exact ⟨⟨a.eof, a.dead⟩, b⟩
  · exact ⟨h, rfl⟩

theorem uread_to (s : St) : To s s.uread := fun h => by
  unfold St.uread
  rw [h.eof]
  exact ⟨h, rfl⟩

theorem want_to (s : St) (f : Flow) : To s (if s.want then s.flush f else s) := by
  split
  · exact flush_to s f
  · exact fun h => ⟨h, rfl⟩

theorem select_to (s : St) (r w : Bool) (f : Flow) : To s (s.select r w f).1 := (auto_to s).trans (want_to _ f)

/-- A step of such a stream. -/
def Does (s t : St) (e : List Ev) : Prop := Self s → Self t ∧ s.inbuf ++ s.outbuf ++ sent e = received e ++ (t.inbuf ++ t.outbuf)

theorem To.does {s t : St} {e : List Ev} (h : To s t) (h1 : sent e = []) (h2 : received e = []) : Does s t e := fun x => ⟨(h x).1, by rw [h1, h2, List.append_nil]; exact (h x).2⟩

theorem take_does {s g : St} (h : To s g) : Does s g.take.1 [g.take.2] := fun x => by
  obtain ⟨a, b⟩ := h x
  obtain ⟨h1, h2, h3, h4, h5⟩ := take_bytes g
  refine ⟨?_, by rw [h5, List.append_nil, b, h2, ← List.append_assoc, ← h1]⟩
  unfold St.take
  split
  · exact a
  · split
    · exact ⟨a.eof, fun hd => ⟨by dsimp only; rw [(a.dead hd).1]; rfl, (a.dead hd).2⟩⟩
    · exact ⟨a.eof, fun hd => ⟨rfl, (a.dead hd).2⟩⟩

theorem step_does (s : St) (o : Op) (h1 : o ≠ .close) (h2 : ∀ e, o ≠ .seterr e) (h3 : o ≠ .seteof) : Does s (s.step o).1 (s.step o).2 := by
  cases o with
  | write b f =>
    show Does s (s.write b f).1 [.took (s.write b f).2]
    unfold St.write
    split
    · exact fun h => ⟨h, by simp [sent, received]⟩
    · rename_i hn
      have hd : s.dead ≠ true := by
        intro hx
        simp [St.isok, hx] at hn
      split
      · rename_i hc
        have ho : s.outbuf = [] := by
          simp only [Bool.and_eq_true, List.isEmpty_iff] at hc
          exact hc.2
        intro h
        obtain ⟨a, c⟩ := want_to { s with inbuf := s.inbuf ++ b } f ⟨h.eof, fun x => absurd x hd⟩
        refine ⟨a, ?_⟩
        dsimp only at c ⊢
        rw [← c, ho]
        simp [sent, received]
      · intro h
        dsimp only
        generalize (if s.max ≠ 0 then min b.length (subSize s.max s.outbuf.length) else b.length) = k
        obtain ⟨a, c⟩ := want_to { s with outbuf := s.outbuf ++ b.take k } f ⟨h.eof, fun x => absurd x hd⟩
        refine ⟨a, ?_⟩
        dsimp only at c ⊢
        rw [← c]
        simp [sent, received]
  | read n =>
    show Does s (s.read n).1 [.gave (s.read n).2]
    unfold St.read
    split
    · exact ((uread_to s).trans (auto_to _)).does rfl rfl
    · split
      · exact ((uread_to s).trans (auto_to _)).does rfl rfl
      · intro h
        obtain ⟨a, c⟩ := auto_to { s with inbuf := s.inbuf.drop n } ⟨h.eof, fun hd => ⟨by dsimp only; rw [(h.dead hd).1]; simp, (h.dead hd).2⟩⟩
        refine ⟨a, ?_⟩
        dsimp only at c ⊢
        rw [← c]
        simp [sent, received, ← List.append_assoc]
  | getline f =>
    show Does s (s.getline f).1 [(s.getline f).2]
    unfold St.getline
    dsimp only
    split
    · exact take_does (auto_to s)
    · split
      · exact take_does ((auto_to s).trans (To.same rfl rfl rfl rfl id id))
      · have h1 : To s ({ s.auto with qmin := s.auto.inbuf.length + 1 }.select true false f).1 :=
          ((auto_to s).trans (To.same (s := s.auto) (t := { s.auto with qmin := s.auto.inbuf.length + 1 }) rfl rfl rfl rfl id id)).trans (select_to _ _ _ f)
        dsimp only at h1 ⊢
        generalize ({ s.auto with qmin := s.auto.inbuf.length + 1 }.select true false f) = r at h1
        split
        · exact take_does h1
        · have h2 : To s (if r.2 = true then r.1.uread else r.1) := by
            split
            · exact h1.trans (uread_to _)
            · exact h1
          generalize (if r.2 = true then r.1.uread else r.1) = t at h2
          split
          · exact take_does h2
          · exact h2.does rfl rfl
  | flush f => exact (flush_to s f).does rfl rfl
  | isreadable f =>
    refine To.does ?_ rfl rfl
    show To s (s.isreadable f).1
    unfold St.isreadable; split
    · exact select_to s _ _ f
    · exact fun h => ⟨h, rfl⟩
  | iswritable f =>
    refine To.does ?_ rfl rfl
    show To s (s.iswritable f).1
    unfold St.iswritable; split
    · exact select_to s _ _ f
    · exact fun h => ⟨h, rfl⟩
  | close => exact absurd rfl h1
  | seterr e => exact absurd rfl (h2 e)
  | noread => exact ((To.same (s := s) (t := { s with stopR := true }) rfl rfl rfl rfl (fun _ => rfl) id).trans (auto_to _)).does rfl rfl
  | nowrite => exact ((To.same (s := s) (t := { s with stopW := true }) rfl rfl rfl rfl id (fun _ => rfl)).trans (auto_to _)).does rfl rfl
  | delay b => exact To.does (To.same rfl rfl rfl rfl id id) rfl rfl
  | limit n => exact To.does (To.same rfl rfl rfl rfl id id) rfl rfl
  | queuemin n => exact To.does (To.same rfl rfl rfl rfl id id) rfl rfl
  | seteof => exact absurd rfl h3

theorem run_does : ∀ (ops : List Op) (s : St), .close ∉ ops → (∀ e, .seterr e ∉ ops) → .seteof ∉ ops → Does s (run ops s).1 (run ops s).2 := by
  intro ops
  induction ops with
  | nil => intro s _ _ _ h; exact ⟨h, by simp [run, sent, received]⟩
  | cons o os ih =>
    intro s h1 h2 h3 h
    obtain ⟨a, b⟩ := step_does s o (fun e => h1 (by simp [e])) (fun e he => h2 e (by simp [he])) (fun e => h3 (by simp [e])) h
    obtain ⟨c, d⟩ := ih (s.step o).1 (fun x => h1 (List.mem_cons_of_mem _ x)) (fun e x => h2 e (List.mem_cons_of_mem _ x)) (fun x => h3 (List.mem_cons_of_mem _ x)) a
    refine ⟨c, ?_⟩
    show s.inbuf ++ s.outbuf ++ sent ((s.step o).2 ++ (run os (s.step o).1).2) = received ((s.step o).2 ++ (run os (s.step o).1).2) ++ _
    rw [sent_append, received_append, ← List.append_assoc, b, List.append_assoc (received _), d, ← List.append_assoc]
    rfl

/-- Nothing else ends reading or writing. -/
def stops (s : St) : Bool × Bool := (s.stopR, s.stopW)

theorem autoIn_stops (s : St) : stops s.autoIn = stops s := by unfold St.autoIn; split <;> rfl
theorem move_stops (s : St) (f : Flow) : stops (s.move f).1 = stops s := by unfold St.move; split <;> rfl
theorem flush_stops (s : St) (f : Flow) : stops (s.flush f) = stops s := by
  unfold St.flush St.flushOutbuf
  dsimp only
  split
  · exact autoIn_stops _
  · rw [autoIn_stops]
    have hm := move_stops { s with want := true } f
    generalize (St.move { s with want := true } f) = r at hm
    have h2 : stops (if (r.1.delayed && !r.2) = true then { r.1 with want := false } else r.1) = stops s := by
      split <;> exact hm
    generalize (if (r.1.delayed && !r.2) = true then { r.1 with want := false } else r.1) = t at h2
    split <;> exact h2
theorem close_stops (s : St) : stops s.close = stops s := flush_stops { s with dead := true } _
theorem auto_stops (s : St) : stops s.auto = stops s := by unfold St.auto; split; exact close_stops s; rfl
theorem uread_stops (s : St) : stops s.uread = stops s := by unfold St.uread; split; exact close_stops s; rfl
theorem want_stops (s : St) (f : Flow) : stops (if s.want then s.flush f else s) = stops s := by split; exact flush_stops s f; rfl
theorem select_stops (s : St) (r w : Bool) (f : Flow) : stops (s.select r w f).1 = stops s := (want_stops _ f).trans (auto_stops s)
theorem take_stops (s : St) : stops s.take.1 = stops s := by
  unfold St.take
  split
  · rfl
  · split <;> rfl
theorem step_stops (s : St) (o : Op) : stops (s.step o).1 = (s.stopR || o == .noread, s.stopW || o == .nowrite) := by
  have hs : ∀ o : Op, o ≠ .noread → o ≠ .nowrite → stops s = (s.stopR || o == .noread, s.stopW || o == .nowrite) := by
    intro o h1 h2
    have e1 : (o == Op.noread) = false := by simpa using h1
    have e2 : (o == Op.nowrite) = false := by simpa using h2
    rw [e1, e2, Bool.or_false, Bool.or_false]; rfl
  cases o with
  | write b f =>
    rw [← hs _ (by simp) (by simp)]
    show stops (s.write b f).1 = stops s
    unfold St.write
    split
    · rfl
    · split
      · exact want_stops { s with inbuf := s.inbuf ++ b } f
      · dsimp only
        generalize (if s.max ≠ 0 then min b.length (subSize s.max s.outbuf.length) else b.length) = k
        exact want_stops { s with outbuf := s.outbuf ++ b.take k } f
  | read n =>
    rw [← hs _ (by simp) (by simp)]
    show stops (s.read n).1 = stops s
    unfold St.read
    split
    · exact (auto_stops _).trans (uread_stops s)
    · split
      · exact (auto_stops _).trans (uread_stops s)
      · exact auto_stops { s with inbuf := s.inbuf.drop n }
  | getline f =>
    rw [← hs _ (by simp) (by simp)]
    show stops (s.getline f).1 = stops s
    unfold St.getline
    dsimp only
    split
    · exact (take_stops _).trans (auto_stops s)
    · split
      · exact (take_stops { s.auto with qmin := 0 }).trans (auto_stops s)
      · have h1 : stops ({ s.auto with qmin := s.auto.inbuf.length + 1 }.select true false f).1 = stops s :=
          (select_stops { s.auto with qmin := s.auto.inbuf.length + 1 } true false f).trans (auto_stops s)
        generalize ({ s.auto with qmin := s.auto.inbuf.length + 1 }.select true false f) = r at h1
        split
        · exact (take_stops _).trans h1
        · have h2 : stops (if r.2 = true then r.1.uread else r.1) = stops s := by
            split
            · exact (uread_stops _).trans h1
            · exact h1
          generalize (if r.2 = true then r.1.uread else r.1) = t at h2
          split
          · exact (take_stops _).trans h2
          · exact h2
  | flush f => rw [← hs _ (by simp) (by simp)]; exact flush_stops s f
  | isreadable f =>
    rw [← hs _ (by simp) (by simp)]
    show stops (s.isreadable f).1 = stops s
    unfold St.isreadable; split
    · exact select_stops s _ _ f
    · rfl
  | iswritable f =>
    rw [← hs _ (by simp) (by simp)]
    show stops (s.iswritable f).1 = stops s
    unfold St.iswritable; split
    · exact select_stops s _ _ f
    · rfl
  | close => rw [← hs _ (by simp) (by simp)]; exact close_stops s
  | seterr e =>
    rw [← hs _ (by simp) (by simp)]
    unfold St.step
    dsimp only
    split
    · exact close_stops { s with err := e }
    · rfl
  | noread => exact (auto_stops { s with stopR := true }).trans (by simp [stops])
  | nowrite => exact (auto_stops { s with stopW := true }).trans (by simp [stops])
  | delay b => rw [← hs _ (by simp) (by simp)]; rfl
  | limit n => rw [← hs _ (by simp) (by simp)]; rfl
  | queuemin n => rw [← hs _ (by simp) (by simp)]; rfl
  | seteof => rw [← hs _ (by simp) (by simp)]; rfl

theorem run_stops : ∀ (ops : List Op) (s : St), ((run ops s).1.stopR = true → s.stopR = true ∨ .noread ∈ ops) ∧ ((run ops s).1.stopW = true → s.stopW = true ∨ .nowrite ∈ ops) := by
  intro ops
  induction ops with
  | nil => intro s; exact ⟨Or.inl, Or.inl⟩
  | cons o os ih =>
    intro s
    obtain ⟨a, b⟩ := ih (s.step o).1
    have hst := step_stops s o
    have e1 : (s.step o).1.stopR = (s.stopR || o == .noread) := congrArg Prod.fst hst
    have e2 : (s.step o).1.stopW = (s.stopW || o == .nowrite) := congrArg Prod.snd hst
    rw [e1] at a
    rw [e2] at b
    refine ⟨fun h => ?_, fun h => ?_⟩
    · rcases a h with h | h
      · simp only [Bool.or_eq_true, beq_iff_eq] at h
        rcases h with h | h
        · exact Or.inl h
        · exact Or.inr (by simp [h])
      · exact Or.inr (List.mem_cons_of_mem _ h)
    · rcases b h with h | h
      · simp only [Bool.or_eq_true, beq_iff_eq] at h
        rcases h with h | h
        · exact Or.inl h
        · exact Or.inr (by simp [h])
      · exact Or.inr (List.mem_cons_of_mem _ h)

end BsP

/-- C122 (closing by itself): a stream that is not closed, has no error, and was not told that its end has come closes only when reading and writing were both ended, and
    everything that was written has been received; also if output is delayed, in all histories. -/
theorem C122_itself (ops : List Op) (h1 : .close ∉ ops) (h2 : ∀ e, .seterr e ∉ ops) (h3 : .seteof ∉ ops) (hd : (run ops new).1.isok = false) :
    received (run ops new).2 = sent (run ops new).2 ∧ .noread ∈ ops ∧ .nowrite ∈ ops := by
  obtain ⟨a, b⟩ := BsP.run_does ops new h1 h2 h3 ⟨rfl, fun h => by cases h⟩
  obtain ⟨c1, c2, c3, c4⟩ := a.dead (by simpa [St.isok] using hd)
  obtain ⟨d1, d2⟩ := BsP.run_stops ops new
  rw [c1, c2] at b
  refine ⟨by simpa [new] using b.symm, (d1 c3).resolve_left (by simp [new]), (d2 c4).resolve_left (by simp [new])⟩

namespace BsP

def f0 : Flow := ⟨0, true⟩

end BsP

/-- Writing, reading in pieces, and the end. -/
example : (run [.write [1, 2, 3] BsP.f0, .read 2, .write [4] BsP.f0, .seteof, .read 9, .read 9] new).2 = [.took [1, 2, 3], .gave [1, 2], .took [4], .gave [3, 4], .gave []] ∧
    (run [.write [1, 2, 3] BsP.f0, .read 2, .write [4] BsP.f0, .seteof, .read 9] new).1.isok = true ∧
    (run [.write [1, 2, 3] BsP.f0, .read 2, .write [4] BsP.f0, .seteof, .read 9, .read 9] new).1.isok = false := by decide +kernel
example : Lines [97, 10, 10, 98] [.line [97], .line [], .rest [98]] :=
  Lines.line [97] [10, 98] _ (by decide) (Lines.line [] [98] _ (by decide) (Lines.rest [98] (by decide) (by decide)))
example : (run [.delay true, .write [1, 2] BsP.f0, .read 5, .flush BsP.f0, .read 5, .flush BsP.f0, .read 5] new).2 = [.took [1, 2], .gave [], .gave [1], .gave [2]] := by decide +kernel

example : (run [.delay true, .write [1] BsP.f0, .noread, .nowrite, .read 5, .flush BsP.f0, .read 5] new).1.isok = false ∧
    (run [.delay true, .write [1] BsP.f0, .noread, .nowrite, .read 5, .flush BsP.f0] new).1.isok = true := by decide +kernel

/-- C122: what is delayed when a stream is closed is lost, while other streams write it first. -/
theorem C122_close_fails : (run [.delay true, .write [1] BsP.f0, .close, .read 5] new).2 = [.took [1], .gave []] ∧
    (run [.delay true, .write [1] BsP.f0, .close, .read 5] new).1.inbuf = [] ∧ (run [.delay true, .write [1] BsP.f0, .close, .read 5] new).1.outbuf = [] := by decide +kernel

/-- C122: likewise when the reader finds the end while something is delayed. -/
theorem C122_delayed_fails : (run [.delay true, .write [1] BsP.f0, .seteof, .read 5] new).2 = [.took [1], .gave []] ∧
    (run [.delay true, .write [1] BsP.f0, .seteof, .read 5] new).1.isok = false ∧ (run [.delay true, .write [1] BsP.f0, .seteof, .read 5] new).1.outbuf = [] := by decide +kernel

/-- C122: when fewer bytes are left than `queuemin` says, the end closes the stream before they were received. -/
theorem C122_queuemin_fails : (run [.write [1] BsP.f0, .queuemin 2, .seteof, .read 5] new).2 = [.took [1], .gave []] ∧
    (run [.write [1] BsP.f0, .queuemin 2, .seteof, .read 5] new).1.isok = false := by decide +kernel

/-- C122: when `getline` has found no line, `read` does not give what is there; at the end it closes the stream instead. -/
theorem C122_mixed_fails : (run [.write [1] BsP.f0, .getline BsP.f0, .read 5] new).2 = [.took [1], .nothing, .gave []] ∧
    (run [.write [1] BsP.f0, .getline BsP.f0, .seteof, .read 5] new).1.isok = false ∧ (run [.write [1] BsP.f0, .getline BsP.f0, .seteof, .read 5] new).1.inbuf = [1] := by decide +kernel

end Props
