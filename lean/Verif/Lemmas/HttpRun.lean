import Verif.Lemmas.HttpExec
/- Histories of a stream. -/
namespace Wv.Http
open Spec.Http

/-- Everything is as it should be. -/
def Good (m : Nat × Bool) (ans : Nat → Bool → Resp) (y : Sys) : Prop := Fine m ans y.st y.asked y.got 0

variable {m : Nat × Bool}

theorem fine_zero (ans : Nat → Bool → Resp) (s : St) (asked : List Req) (got d : Nat) (h : Fine m ans s asked got d) :
    Fine m ans s asked got 0 := by
  rcases h with ⟨d', p, -, h⟩ | h
  · exact Or.inl ⟨d', p, Nat.zero_le _, h⟩
  · exact Or.inr h

theorem take_drop_len {α : Type} (l : List α) (n : Nat) : l.take n ++ l.drop (l.take n).length = l := by
  rw [List.length_take]
  by_cases h : n ≤ l.length
  · rw [Nat.min_eq_left h, List.take_append_drop]
  · rw [Nat.min_eq_right (by omega), List.take_of_length_le (by omega)]; simp

theorem arrive_sync (ans : Nat → Bool → Resp) (s : St) (got d n : Nat) (p : Phase) (h : Sync ans s got d p) :
    Sync ans { s with inbuf := s.inbuf ++ ((wire ans s.sent).drop got).take n }
      (got + (((wire ans s.sent).drop got).take n).length) d p := by
  obtain ⟨g1, g2, g3, g4, g5, g6, g7, g8, g9⟩ := h
  refine ⟨g1, g2, g3, g4, g5, g6, g7, ?_, ?_⟩
  · show s.inbuf ++ _ ++ (wire ans s.sent).drop _ = _
    rw [← List.drop_drop, List.append_assoc, take_drop_len]
    exact g8
  · show _ ≤ (wire ans s.sent).length
    rw [List.length_take, List.length_drop]
    omega

theorem step_good (ans : Nat → Bool → Resp) (hok : ∀ i h, (ans i h).Ok h) (y : Sys) (e : Event) (he : e ≠ .hangup)
    (h : Good m ans y) : ∃ y', y.step ans e = some y' ∧ Good m ans y' := by
  rcases h with ⟨d, p, -, hs, ho, hl⟩ | h
  · unfold Sys.step
    rw [if_neg (by rw [hs.1]; decide)]
    cases e with
    | hangup => exact absurd rfl he
    | add head =>
      refine ⟨_, rfl, Or.inl ⟨d, p, Nat.zero_le _, ?_⟩⟩
      refine requestNext_fine ans { y.st with waiting := y.st.waiting ++ [.get y.asked.length head] } _ y.got d p hs ?_ ?_
      · refine ⟨?_, ?_, ho.2.2⟩
        · show _ ++ (y.st.waiting ++ _) = _
          rw [← ho.1, List.append_assoc]
        · rw [List.map_append, ho.2.1]
          simp [List.range_succ, Req.id?]
      · intro hp
        rcases hl with hl | hl | hl
        · left; simp [hl]
        · right; exact hl
        · rw [hl.1] at hp; cases hp
    | arrive n =>
      refine ⟨_, rfl, Or.inl ⟨d, p, Nat.zero_le _, arrive_sync ans y.st y.got d n p hs, ?_, ?_⟩⟩
      · exact ord_congr y.st _ y.asked ho rfl rfl rfl rfl rfl rfl
      · exact live_congr y.st _ hl rfl rfl rfl rfl rfl
    | exec k =>
      by_cases hu : y.st.urls = []
      · simp only [exec_none ans y.st y.got d k p hu hs, Option.map_some]
        exact ⟨_, rfl, Or.inl ⟨d, p, Nat.zero_le _, hs, ho, hl⟩⟩
      · obtain ⟨s', e, hf, -⟩ := exec_some ans hok y.st y.asked y.got d k p hu hs ho hl
        simp only [e, Option.map_some]
        exact ⟨_, rfl, fine_zero _ _ _ _ _ hf⟩
  · refine ⟨y, ?_, Or.inr h⟩
    unfold Sys.step
    rw [if_pos h.1]

theorem run_good (ans : Nat → Bool → Resp) (hok : ∀ i h, (ans i h).Ok h) (es : List Event) (he : Event.hangup ∉ es) (y : Sys)
    (h : Good m ans y) : ∃ y', y.run ans es = some y' ∧ Good m ans y' := by
  induction es generalizing y with
  | nil => exact ⟨y, rfl, h⟩
  | cons e es ih =>
    obtain ⟨y1, e1, h1⟩ := step_good ans hok y e (fun hh => he (by rw [hh]; simp)) h
    obtain ⟨y2, e2, h2⟩ := ih (fun hh => he (List.mem_cons_of_mem _ hh)) y1 h1
    exact ⟨y2, by simp only [Sys.run, e1, Option.bind_some]; exact e2, h2⟩

theorem run_append (ans : Nat → Bool → Resp) (es fs : List Event) (y : Sys) :
    y.run ans (es ++ fs) = (y.run ans es).bind fun y => y.run ans fs := by
  induction es generalizing y with
  | nil => rfl
  | cons e es ih =>
    simp only [List.cons_append, Sys.run]
    cases y.step ans e with
    | none => rfl
    | some y1 => exact ih y1

theorem new_good (ans : Nat → Bool → Resp) (max : Nat) (pipe : Bool) : Good (max, pipe) ans (Sys.new max pipe) := by
  refine Or.inl ⟨0, .start, Nat.zero_le _, ⟨rfl, rfl, rfl, rfl, Nat.zero_le _, ⟨?_, ?_, fun _ _ => rfl⟩, ⟨rfl, rfl⟩, ?_, ?_⟩, ?_, Or.inl rfl⟩
  · intro i id h hi; exact absurd hi (Nat.not_lt_zero _)
  · intro i id h _ hs; cases hs
  · simp [Sys.new, wire, Rem]
  · simp [Sys.new]
  · refine ⟨rfl, rfl, ?_, ?_, rfl, rfl, rfl⟩
    · intro hh; cases hh
    · intro n hn; cases hn

/-- The server keeps sending and the program keeps calling `execute`, until everything is done. -/
theorem drain (ans : Nat → Bool → Resp) (hok : ∀ i h, (ans i h).Ok h) (w : Nat) : ∀ (b : Nat) (y : Sys), y.st.work ≤ w →
    y.st.inbuf.length + ((wire ans y.st.sent).drop y.got).length ≤ b → Good m ans y →
    ∃ es, (∀ e ∈ es, (∃ n, e = .arrive n) ∨ ∃ k, e = .exec k) ∧
      ∃ y', y.run ans es = some y' ∧ Good m ans y' ∧ (y'.st.closed = true ∨ y'.st.urls = []) := by
  induction w using Nat.strongRecOn with
  | _ w ihw =>
    intro b
    induction b using Nat.strongRecOn with
    | _ b ihb =>
      intro y hw hb h
      by_cases hc : y.st.closed = true
      · exact ⟨[], by simp, y, rfl, h, Or.inl hc⟩
      · by_cases hu : y.st.urls = []
        · exact ⟨[], by simp, y, rfl, h, Or.inr hu⟩
        · rcases id h with ⟨d, p, -, hs, ho, hl⟩ | hh
          · have hs1 := arrive_sync ans y.st y.got d ((wire ans y.st.sent).drop y.got).length p hs
            let y1 : Sys := { y with st := { y.st with inbuf := y.st.inbuf ++ ((wire ans y.st.sent).drop y.got).take ((wire ans y.st.sent).drop y.got).length },
                                     got := y.got + (((wire ans y.st.sent).drop y.got).take ((wire ans y.st.sent).drop y.got).length).length }
            have e1 : y.step ans (.arrive ((wire ans y.st.sent).drop y.got).length) = some y1 := by
              unfold Sys.step; rw [if_neg hc]
            have hP : (wire ans y1.st.sent).drop y1.got = [] := by
              show (wire ans y.st.sent).drop (y.got + _) = []
              rw [List.take_length, List.length_drop]
              apply List.drop_eq_nil_of_le
              omega
            have hlen : y1.st.inbuf.length = y.st.inbuf.length + ((wire ans y.st.sent).drop y.got).length := by
              show (y.st.inbuf ++ _).length = _
              rw [List.take_length, List.length_append]
            obtain ⟨s2, e2, hf, hp⟩ := exec_some ans hok y1.st y.asked y1.got d 1 p hu hs1
              (ord_congr y.st _ y.asked ho rfl rfl rfl rfl rfl rfl) (live_congr y.st _ hl rfl rfl rfl rfl rfl)
            have hstep : y1.step ans (.exec 1) = some { y1 with st := s2 } := by
              unfold Sys.step
              rw [if_neg hc]
              simp only [e2, Option.map_some]
            have hg2 : Good m ans { y1 with st := s2 } := fine_zero _ _ _ _ _ hf
            have fin : ∀ (P : (∃ es, (∀ e ∈ es, (∃ n, e = .arrive n) ∨ ∃ k, e = .exec k) ∧
                ∃ y', ({ y1 with st := s2 } : Sys).run ans es = some y' ∧ Good m ans y' ∧ (y'.st.closed = true ∨ y'.st.urls = []))),
                ∃ es, (∀ e ∈ es, (∃ n, e = .arrive n) ∨ ∃ k, e = .exec k) ∧
                ∃ y', y.run ans es = some y' ∧ Good m ans y' ∧ (y'.st.closed = true ∨ y'.st.urls = []) := by
              rintro ⟨es, he, y', hr, hg, hd⟩
              refine ⟨.arrive ((wire ans y.st.sent).drop y.got).length :: .exec 1 :: es, ?_, y', ?_, hg, hd⟩
              · intro e hm
                rcases List.mem_cons.mp hm with rfl | hm
                · exact Or.inl ⟨_, rfl⟩
                · rcases List.mem_cons.mp hm with rfl | hm
                  · exact Or.inr ⟨_, rfl⟩
                  · exact he e hm
              · simp only [Sys.run, e1, Option.bind_some, hstep]
                exact hr
            apply fin
            rcases hp hP (by decide) with hp | hp | ⟨h1, h2, h3⟩
            · exact ⟨[], by simp, _, rfl, hg2, Or.inl hp⟩
            · have : s2.work < w := Nat.lt_of_lt_of_le hp hw
              exact ihw _ this _ _ (Nat.le_refl _) (Nat.le_refl _) hg2
            · refine ihb _ (Nat.lt_of_lt_of_le h1 (by rw [hlen]; exact hb)) _ ?_ ?_ hg2
              · show s2.work ≤ w
                rw [h3]; exact hw
              · show s2.inbuf.length + ((wire ans s2.sent).drop y1.got).length ≤ _
                rw [h2, hP]; simp
          · exact absurd hh.1 hc

/-- The answers to the requests sent before the `d`-th have come, that to the `d`-th may have come in part, and no others. -/
theorem good_outs (ans : Nat → Bool → Resp) (y : Sys) (h : Good m ans y) :
    (∃ d, (y.st.urls = [] → y.st.closed = false → d = y.st.sent.length) ∧
      ∀ j id hd, y.st.sent[j]? = some (.get id hd) →
      (j < d → y.st.outs id = (ans j hd).whole hd) ∧ (j = d → Part (y.st.outs id) ((ans j hd).whole hd)) ∧
      (d < j → y.st.outs id = {})) ∧
    (∀ id, (∀ hd, Req.get id hd ∉ y.st.sent) → y.st.outs id = {}) := by
  rcases h with ⟨d, p, -, ⟨g1, g2, g3, g4, g5, ⟨s1, s2, s3⟩, g7, g8, g9⟩, ho, hl⟩ | ⟨c1, c2, c3, c4, c5, d, hd, s1, s2, s3⟩
  · refine ⟨⟨d, ?_, ?_⟩, s3⟩
    · intro hu _
      rw [hu] at g4
      have := congrArg List.length g4
      simp at this
      omega
    · intro j id hd hj
      refine ⟨fun hlt => s1 j id hd hlt hj, ?_, fun hlt => s2 j id hd hlt hj⟩
      rintro rfl
      have hu : y.st.urls.head? = some (.get id hd) := by rw [g4, List.head?_drop]; exact hj
      revert g7
      cases hus : y.st.urls with
      | nil => rw [hus] at hu; cases hu
      | cons u us =>
        rw [hus] at hu
        have hu := Option.some.inj hu
        subst hu
        rintro ⟨hp, -, ho⟩
        rw [ho id hd rfl]
        exact part_at _ _ _ hp
  · refine ⟨⟨d, fun _ hh => (by rw [c1] at hh; cases hh), ?_⟩, s3⟩
    intro j id hb hj
    refine ⟨fun hlt => s1 j id hb hlt hj, ?_, fun hlt => s2 j id hb (by omega) hj⟩
    rintro rfl
    rw [s2 j id hb (Nat.le_refl _) hj]
    exact part_empty _

/-- The requests that were added. -/
def adds (es : List Event) : List Bool :=
  es.filterMap fun e => match e with
    | .add h => some h
    | _ => none

theorem run_closed (ans : Nat → Bool → Resp) (es : List Event) (y : Sys) (h : y.st.closed = true) : y.run ans es = some y := by
  induction es with
  | nil => rfl
  | cons e es ih =>
    have : y.step ans e = some y := by unfold Sys.step; rw [if_pos h]
    simp only [Sys.run, this, Option.bind_some, ih]

theorem run_asked (ans : Nat → Bool → Resp) (es : List Event) : ∀ (y y' : Sys), y.run ans es = some y' →
    ∃ hs, hs <+: adds es ∧ (y'.st.closed = false → hs = adds es) ∧
      y'.asked = y.asked ++ (hs.zipIdx y.asked.length).map fun (h, i) => Req.get i h := by
  induction es with
  | nil => intro y y' h; cases h; exact ⟨[], List.nil_prefix, fun _ => rfl, by simp⟩
  | cons e es ih =>
    intro y y' h
    by_cases hc : y.st.closed = true
    · rw [run_closed ans _ y hc] at h
      cases h
      exact ⟨[], List.nil_prefix, fun hh => (by rw [hc] at hh; cases hh), by simp⟩
    · simp only [Sys.run] at h
      obtain ⟨y1, h1, h2⟩ := Option.bind_eq_some_iff.mp h
      obtain ⟨hs, p1, p2, p3⟩ := ih y1 y' h2
      unfold Sys.step at h1
      rw [if_neg hc] at h1
      cases e with
      | add hd =>
        cases h1
        refine ⟨hd :: hs, ?_, ?_, ?_⟩
        · obtain ⟨t, ht⟩ := p1
          exact ⟨t, by show hd :: (hs ++ t) = hd :: adds es; rw [ht]⟩
        · intro hh; rw [p2 hh]; rfl
        · rw [p3]; simp [List.zipIdx_cons]
      | arrive n => cases h1; exact ⟨hs, p1, p2, p3⟩
      | hangup => cases h1; exact ⟨hs, p1, p2, p3⟩
      | exec k =>
        simp only [] at h1
        obtain ⟨s', -, rfl⟩ := Option.map_eq_some_iff.mp h1
        exact ⟨hs, p1, p2, p3⟩

end Wv.Http
