import Verif.Model.SslStream
/-!
Lemmas for C73.
-/
namespace Wv.SslStream

variable (dev : Nat → Ans)

/-- Nothing is sent any more. -/
structure Dead (T : List Byte) (s : St) : Prop where
  live : s.live = false
  conn : s.conn = false
  bad : s.bad = false
  sent : s.sent <+: T
  max : s.max = 0

/-- Connected; `T` is everything that was accepted. -/
structure Con (T : List Byte) (s : St) : Prop where
  live : s.live = true
  conn : s.conn = true
  err : s.err = false
  closed : s.closed = false
  max : s.max = 0
  bad : s.bad = false
  idx : s.wbIdx = 0
  retry : ∀ x, s.retry = some x → x = (0, s.wb) ∧ s.wb ≠ []
  main : ∃ C, T = C ++ s.outbuf ∧ s.sent = C ++ s.outbuf.take s.eat ∧ s.eat ≤ s.outbuf.length ∧ (s.wb ≠ [] → s.eat = 0 ∧ s.wb <+: s.outbuf)

theorem Dead.mono {T U : List Byte} {s : St} (h : Dead T s) (hu : T <+: U) : Dead U s := ⟨h.live, h.conn, h.bad, h.sent.trans hu, h.max⟩

theorem Con.pre {T : List Byte} {s : St} (h : Con T s) : s.sent <+: T := by
  obtain ⟨C, h1, h2, _, _⟩ := h.main
  rw [h1, h2]
  exact List.prefix_append_right_inj C |>.mpr (List.take_prefix _ _)

theorem Con.ok {T : List Byte} {s : St} (h : Con T s) : isok s = true := by
  unfold isok; rw [h.live, h.err, h.closed]; rfl

theorem Dead.notok {T : List Byte} {s : St} (h : Dead T s) : isok s = false := by
  unfold isok; rw [h.live]; rfl

theorem close_dead {T : List Byte} {s : St} (hb : s.bad = false) (hp : s.sent <+: T) (hm : s.max = 0) : Dead T (close s) := ⟨rfl, rfl, hb, hp, hm⟩

theorem seterr_dead {T : List Byte} {s : St} (he : s.err = false) (hb : s.bad = false) (hp : s.sent <+: T) (hm : s.max = 0) : Dead T (seterr s) := by
  unfold seterr
  rw [if_neg (by rw [he]; decide)]
  exact close_dead hb hp hm

theorem loop_spec (X : List Byte) : ∀ (n : Nat) (b : List Byte) (total : Nat) (s : St), b.length + 1 ≤ n → s.wbIdx = 0 → s.bad = false →
    (∀ x, s.retry = some x → x = (0, s.wb) ∧ s.wb ≠ []) → s.eat = 0 → s.wb <+: b ++ X → s.err = false → s.max = 0 →
    ∃ k, k ≤ b.length ∧ (uwriteLoop dev n b total s).2 = total + k ∧
      ((∃ wb eat sent retry tick, (uwriteLoop dev n b total s).1 = { s with wb := wb, wbIdx := 0, eat := eat, sent := sent, retry := retry, tick := tick }
          ∧ (∀ x, retry = some x → x = (0, wb) ∧ wb ≠ []) ∧ sent = s.sent ++ (b.take k ++ (b.drop k ++ X).take eat) ∧ eat ≤ (b.drop k ++ X).length
          ∧ (wb ≠ [] → eat = 0 ∧ wb <+: b.drop k ++ X))
        ∨ Dead (s.sent ++ (b ++ X)) (uwriteLoop dev n b total s).1) := by
  intro n
  induction n with
  | zero => intro b total s h; omega
  | succ n ih =>
    intro b total s hn hidx hbad hretry heat hwb herr hmax
    unfold uwriteLoop
    by_cases hend : (s.wb.isEmpty && b.isEmpty) = true
    · rw [if_pos hend]
      simp only [Bool.and_eq_true, List.isEmpty_iff] at hend
      refine ⟨0, Nat.zero_le _, rfl, Or.inl ⟨s.wb, 0, s.sent, s.retry, s.tick, ?_, hretry, by simp, Nat.zero_le _, fun h => absurd hend.1 h⟩⟩
      cases s; simp only at hidx heat; subst hidx; subst heat; rfl
    · rw [if_neg hend]
      -- the bounce buffer is filled
      obtain ⟨w, hw⟩ : ∃ w, w = (if s.wb.isEmpty then b.take (bounceSize - s.wbIdx) else s.wb) := ⟨_, rfl⟩
      have hs1 : (if s.wb.isEmpty then { s with wb := b.take (bounceSize - s.wbIdx) } else s) = { s with wb := w } := by
        rw [hw]; by_cases h : s.wb.isEmpty = true
        · rw [if_pos h, if_pos h]
        · rw [if_neg h, if_neg h]
      have hwne : w ≠ [] := by
        rw [hw]; by_cases h : s.wb.isEmpty = true
        · rw [if_pos h, hidx]
          intro hn'
          have hb : b = [] := by
            cases b with
            | nil => rfl
            | cons x t => rw [show bounceSize - 0 = 16383 + 1 from rfl, List.take_succ_cons] at hn'; cases hn'
          apply hend; rw [h, hb]; rfl
        · rw [if_neg h]; intro hn'; rw [hn'] at h; exact h rfl
      have hwp : w <+: b ++ X := by
        rw [hw]; by_cases h : s.wb.isEmpty = true
        · rw [if_pos h]; exact (List.take_prefix _ _).trans (List.prefix_append _ _)
        · rw [if_neg h]; exact hwb
      have hr1 : ∀ x, s.retry = some x → x = (0, w) := by
        intro x hx
        have := hretry x hx
        rw [hw]; by_cases h : s.wb.isEmpty = true
        · exfalso
          rw [if_pos h] at hw
          have he : s.wb = [] := List.isEmpty_iff.mp h
          exact this.2 he
        · rw [if_neg h]; exact this.1
      rw [hs1]
      have hbad' : (s.bad || differs s.retry (s.wbIdx, w)) = false := by
        rw [hbad, hidx]
        unfold differs
        cases hr : s.retry with
        | none => rfl
        | some x => rw [hr1 x hr]; simp
      obtain ⟨t, ht⟩ := hwp
      unfold sslWrite
      dsimp only
      rw [hbad']
      simp only [Nat.add_sub_cancel]
      cases (dev s.tick).wr with
      | all =>
        dsimp only
        by_cases hu : w.length ≥ b.length
        · rw [if_pos hu]
          refine ⟨b.length, Nat.le_refl _, rfl, Or.inl ⟨[], w.length - b.length, s.sent ++ w, none, s.tick + 1, ?_, (fun x h => by cases h), ?_, ?_, fun h => absurd rfl h⟩⟩
          · rw [← hbad]
          · rw [List.take_length, List.drop_length, List.nil_append]
            have : w = (b ++ X).take w.length := by rw [← ht, List.take_left']; rfl
            rw [List.take_append, List.take_of_length_le hu] at this
            rw [← this]
          · rw [List.drop_length, List.nil_append]
            have := congrArg List.length ht
            simp only [List.length_append] at this
            omega
        · rw [if_neg hu]
          have hlt : w.length < b.length := by omega
          have hwb' : w = b.take w.length := by
            have : w = (b ++ X).take w.length := by rw [← ht, List.take_left']; rfl
            rw [List.take_append_of_le_length (by omega)] at this
            exact this
          have hpos : 0 < w.length := by
            cases w with
            | nil => exact absurd rfl hwne
            | cons _ _ => exact Nat.succ_pos _
          obtain ⟨k, hk, hk2, hres⟩ := ih (b.drop w.length) (total + w.length)
            { s with wb := [], wbIdx := 0, tick := s.tick + 1, bad := false, sent := s.sent ++ w, retry := none }
            (by rw [List.length_drop]; omega) rfl rfl (fun x h => by cases h) heat (List.nil_prefix) herr hmax
          rw [List.length_drop] at hk
          refine ⟨w.length + k, by omega, by rw [hk2]; omega, ?_⟩
          rcases hres with ⟨wb, eat, sent, retry, tick, h1, h2, h3, h4, h5⟩ | hd
          · refine Or.inl ⟨wb, eat, sent, retry, tick, ?_, h2, ?_, ?_, ?_⟩
            · rw [h1, ← hbad]
            · rw [h3]
              dsimp only
              rw [List.drop_drop, List.take_add, ← hwb']
              simp only [List.append_assoc]
            · rw [List.drop_drop] at h4; exact h4
            · rw [List.drop_drop] at h5; exact h5
          · right
            have : (s.sent ++ w) ++ (b.drop w.length ++ X) = s.sent ++ (b ++ X) := by
              rw [List.append_assoc]; congr 1
              rw [← List.append_assoc]; congr 1
              conv => lhs; lhs; rw [hwb']
              rw [List.take_append_drop]
            rw [← this]; exact hd
      | wait =>
        refine ⟨0, Nat.zero_le _, rfl, Or.inl ⟨w, 0, s.sent, some (0, w), s.tick + 1, ?_, ?_, by simp, Nat.zero_le _, fun _ => ⟨rfl, ⟨t, ht⟩⟩⟩⟩
        · dsimp only; rw [hidx, ← hbad, ← heat]
        · intro x hx; injection hx with hx; exact ⟨hx.symm, hwne⟩
      | eof => exact ⟨0, Nat.zero_le _, rfl, Or.inr (close_dead rfl (List.prefix_append _ _) hmax)⟩
      | fail => exact ⟨0, Nat.zero_le _, rfl, Or.inr (seterr_dead herr rfl (List.prefix_append _ _) hmax)⟩

theorem uwrite_spec {T : List Byte} {s : St} (h : Con T s) (b X : List Byte) (hbX : s.outbuf = b ++ X ∨ (s.outbuf = [] ∧ X = [])) (hb : b ≠ []) :
    ∃ k, k ≤ b.length ∧ (uwrite dev b s).2 = k ∧
      ((∃ wb eat sent retry tick, (uwrite dev b s).1 = { s with wb := wb, wbIdx := 0, eat := eat, sent := sent, retry := retry, tick := tick }
          ∧ (∀ x, retry = some x → x = (0, wb) ∧ wb ≠ [])
          ∧ (∃ C, T = C ++ s.outbuf ∧ sent = C ++ (b.take k ++ (b.drop k ++ X).take eat)) ∧ eat ≤ (b.drop k ++ X).length
          ∧ (wb ≠ [] → eat = 0 ∧ wb <+: b.drop k ++ X))
        ∨ ∃ C, T = C ++ s.outbuf ∧ Dead (C ++ (b ++ X)) (uwrite dev b s).1) := by
  obtain ⟨C, hC, hsent, heat, hwb⟩ := h.main
  unfold uwrite
  rw [if_neg (by rw [h.conn]; decide), if_neg (by intro hn; exact hb (List.isEmpty_iff.mp hn))]
  have hout : s.outbuf.take s.eat = (b ++ X).take s.eat := by
    rcases hbX with hx | ⟨hx, hx'⟩
    · rw [hx]
    · have : s.eat = 0 := by rw [hx] at heat; exact Nat.le_zero.mp heat
      rw [this]; simp
  have hlen : s.eat ≤ (b ++ X).length := by
    rcases hbX with hx | ⟨hx, hx'⟩
    · rw [← hx]; exact heat
    · have : s.eat = 0 := by rw [hx] at heat; exact Nat.le_zero.mp heat
      omega
  have hpre : s.wb ≠ [] → s.wb <+: b ++ X := by
    intro hn
    rcases hbX with hx | ⟨hx, hx'⟩
    · rw [← hx]; exact (hwb hn).2
    · have := (hwb hn).2
      rw [hx] at this
      exact absurd (List.prefix_nil.mp this) hn
  by_cases hge : s.eat ≥ b.length
  · rw [if_pos hge]
    have hpos : 0 < s.eat := by
      cases b with
      | nil => exact absurd rfl hb
      | cons _ _ => simp only [List.length_cons] at hge; omega
    have hw0 : s.wb = [] := Decidable.byContradiction fun hn => by have := (hwb hn).1; omega
    have hrun : uwriteLoop dev (b.length + 2) [] b.length { s with eat := s.eat - b.length } = ({ s with eat := s.eat - b.length }, b.length) := by
      unfold uwriteLoop
      dsimp only
      rw [if_pos (by rw [hw0]; rfl)]
    rw [hrun]
    refine ⟨b.length, Nat.le_refl _, rfl, Or.inl ⟨[], s.eat - b.length, s.sent, s.retry, s.tick, ?_, ?_, ⟨C, hC, ?_⟩, ?_, fun hn => absurd rfl hn⟩⟩
    · have hi := h.idx
      cases s; simp only at hi hw0; subst hi; subst hw0; rfl
    · intro x hx; have := h.retry x hx; exact absurd hw0 this.2
    · rw [hsent, hout, List.take_length, List.drop_length, List.nil_append, List.take_append, List.take_of_length_le hge]
    · rw [List.drop_length, List.nil_append]
      simp only [List.length_append] at hlen; omega
  · rw [if_neg hge]
    have hpre' : s.wb <+: b.drop s.eat ++ X := by
      by_cases hn : s.wb = []
      · rw [hn]; exact List.nil_prefix
      · rw [(hwb hn).1]; exact hpre hn
    obtain ⟨k, hk, hk2, hres⟩ := loop_spec dev X (b.length + 2) (b.drop s.eat) s.eat { s with eat := 0 } (by rw [List.length_drop]; omega) h.idx h.bad
      h.retry rfl hpre' h.err h.max
    rw [List.length_drop] at hk
    have hs : s.sent = C ++ b.take s.eat := by
      rw [hsent, hout, List.take_append_of_le_length (by omega)]
    refine ⟨s.eat + k, by omega, hk2, ?_⟩
    rcases hres with ⟨wb, eat, sent, retry, tick, h1, h2, h3, h4, h5⟩ | hd
    · refine Or.inl ⟨wb, eat, sent, retry, tick, h1, h2, ⟨C, hC, ?_⟩, ?_, ?_⟩
      · rw [h3]
        dsimp only
        rw [hs, List.drop_drop, List.take_add]
        simp only [List.append_assoc]
      · rw [List.drop_drop] at h4; exact h4
      · rw [List.drop_drop] at h5; exact h5
    · right
      refine ⟨C, hC, ?_⟩
      have : s.sent ++ (b.drop s.eat ++ X) = C ++ (b ++ X) := by
        rw [hs, List.append_assoc]; congr 1
        rw [← List.append_assoc, List.take_append_drop]
      rw [← this]; exact hd

theorem autoclose_spec {T : List Byte} {s : St} (h : Con T s) : Con T (autoclose s) ∨ Dead T (autoclose s) := by
  unfold autoclose
  split
  · exact Or.inr (close_dead h.bad h.pre h.max)
  · exact Or.inl h

theorem autoclose_dead {T : List Byte} {s : St} (h : Dead T s) : Dead T (autoclose s) := by
  unfold autoclose
  split
  · exact ⟨rfl, rfl, h.bad, h.sent, h.max⟩
  · exact h

/-- Members that do not matter when connected. -/
def frame (s t : St) : St :=
  { s with
    want := t.want, tick := t.tick, auto := t.auto, delayed := t.delayed, queueMin := t.queueMin
    stopRead := t.stopRead, stopWrite := t.stopWrite, sslStopRead := t.sslStopRead, sslStopWrite := t.sslStopWrite
    inbuf := t.inbuf, rb := t.rb, pending := t.pending, got := t.got, given := t.given, taken := t.taken, unconn := t.unconn }

theorem Con.same {T : List Byte} {s t : St} (h : Con T s) (e : frame s t = t) : Con T t := by
  rw [← e]
  exact ⟨h.live, h.conn, h.err, h.closed, h.max, h.bad, h.idx, h.retry, h.main⟩

theorem flushOutbuf_dead {T : List Byte} {s : St} (h : Dead T s) : Dead T (flushOutbuf dev s) := by
  unfold flushOutbuf
  split
  · exact autoclose_dead ⟨h.live, h.conn, h.bad, h.sent, h.max⟩
  · rw [if_neg (by rw [h.notok]; decide)]
    exact autoclose_dead ⟨h.live, h.conn, h.bad, h.sent, h.max⟩

theorem flush_dead {T : List Byte} {s : St} (h : Dead T s) : Dead T (flush dev s) := by
  unfold flush
  dsimp only
  split
  · exact flushOutbuf_dead dev ⟨h.live, h.conn, h.bad, h.sent, h.max⟩
  · exact ⟨h.live, h.conn, h.bad, h.sent, h.max⟩

/-- What `flush_outbuf` does before `maybe_autoclose`, if there is something to write. -/
def flushed (s : St) : St :=
  let r := uwrite dev (s.outbuf.take (max 1 (min (dev s.tick).chunk s.outbuf.length))) { s with tick := s.tick + 1 }
  if isok r.1 then { r.1 with outbuf := r.1.outbuf.drop r.2 } else { r.1 with outbuf := [] }

theorem flushOutbuf_eq {s : St} (h : isok s = true) (hne : s.outbuf ≠ []) : flushOutbuf dev s = autoclose (flushed dev s) := by
  unfold flushOutbuf
  rw [if_neg (by rw [List.isEmpty_iff]; exact hne), if_pos h]
  rfl

theorem flushed_spec {T : List Byte} {s : St} (h : Con T s) (hne : s.outbuf ≠ []) : Con T (flushed dev s) ∨ Dead T (flushed dev s) := by
  unfold flushed
  generalize hn : Nat.max 1 (min (dev s.tick).chunk s.outbuf.length) = n
  have hn' : max 1 (min (dev s.tick).chunk s.outbuf.length) = n := hn
  have hn1 : 1 ≤ n := by rw [← hn']; exact Nat.le_max_left _ _
  have hb : s.outbuf.take n ≠ [] := by
    cases ho : s.outbuf with
    | nil => exact absurd ho hne
    | cons x t =>
      cases n with
      | zero => omega
      | succ n => simp
  have h' : Con T { s with tick := s.tick + 1 } := h.same rfl
  obtain ⟨k, hk, hk2, hres⟩ := uwrite_spec dev h' (s.outbuf.take n) (s.outbuf.drop n) (Or.inl (by simp)) hb
  rw [hn']
  dsimp only
  rcases hres with ⟨wb, eat, sent, retry, tick, h1, h2, ⟨C, hC, h3⟩, h4, h5⟩ | ⟨C, hC, hd⟩
  · rw [h1, hk2]
    have hlen : k ≤ s.outbuf.length := by rw [List.length_take] at hk; omega
    have hdrop : (s.outbuf.take n).drop k ++ s.outbuf.drop n = s.outbuf.drop k := by
      rw [List.length_take] at hk
      rw [← List.drop_append_of_le_length (by rw [List.length_take]; exact hk), List.take_append_drop]
    have htake : (s.outbuf.take n).take k = s.outbuf.take k := by
      rw [List.length_take] at hk
      rw [List.take_take, Nat.min_eq_left (by omega)]
    have hok : isok { s with tick := tick, wb := wb, wbIdx := 0, eat := eat, sent := sent, retry := retry } = true := h.ok
    rw [hdrop] at h3 h4 h5
    rw [htake] at h3
    rw [if_pos hok]
    refine Or.inl ⟨h.live, h.conn, h.err, h.closed, h.max, h.bad, rfl, h2, C ++ s.outbuf.take k, ?_, ?_, h4, h5⟩
    · rw [hC, List.append_assoc]; congr 1; exact (List.take_append_drop k s.outbuf).symm
    · show sent = _
      rw [h3, List.append_assoc]
  · right
    have : Dead T (uwrite dev (s.outbuf.take n) { s with tick := s.tick + 1 }).1 := by
      rw [hC]
      rw [List.take_append_drop] at hd
      exact hd
    rw [if_neg (by rw [this.notok]; decide)]
    exact ⟨this.live, this.conn, this.bad, this.sent, this.max⟩

theorem flushOutbuf_spec {T : List Byte} {s : St} (h : Con T s) : Con T (flushOutbuf dev s) ∨ Dead T (flushOutbuf dev s) := by
  by_cases he : s.outbuf = []
  · unfold flushOutbuf
    rw [if_pos (by rw [he]; rfl)]
    exact autoclose_spec (h.same rfl)
  · rw [flushOutbuf_eq dev h.ok he]
    rcases flushed_spec dev h he with g | g
    · exact autoclose_spec g
    · exact Or.inr (autoclose_dead g)

theorem flush_spec {T : List Byte} {s : St} (h : Con T s) : Con T (flush dev s) ∨ Dead T (flush dev s) := by
  unfold flush
  dsimp only
  split
  · exact flushOutbuf_spec dev (h.same rfl)
  · exact Or.inl (h.same rfl)

/-- The end of `write`. -/
theorem wflush_spec {T : List Byte} {s : St} (h : Con T s ∨ Dead T s) :
    Con T (wflush dev s) ∨ Dead T (wflush dev s) := by
  unfold wflush
  split
  · split
    · rcases h with h | h
      · exact flush_spec dev h
      · exact Or.inr (flush_dead dev h)
    · rcases h with h | h
      · exact flushOutbuf_spec dev h
      · exact Or.inr (flushOutbuf_dead dev h)
  · exact h

theorem write_dead {T : List Byte} {s : St} (h : Dead T s) (b : List Byte) : write dev b s = (s, 0) := by
  unfold write
  rw [if_pos (by rw [h.notok]; rfl)]

theorem write_spec {T : List Byte} {s : St} (h : Con T s) (b : List Byte) :
    Con (T ++ b.take (write dev b s).2) (write dev b s).1 ∨ Dead (T ++ b.take (write dev b s).2) (write dev b s).1 := by
  unfold write
  by_cases hr : (!isok s || b.isEmpty || s.stopWrite) = true
  · rw [if_pos hr]; left; simpa using h
  · rw [if_neg hr]
    have hb : b ≠ [] := by
      intro hn; rw [hn] at hr; simp at hr
    dsimp only
    by_cases hd : (!s.delayed && s.outbuf.isEmpty) = true
    · have hout : s.outbuf = [] := by
        simp only [Bool.and_eq_true, List.isEmpty_iff] at hd; exact hd.2
      rw [if_pos hd]
      obtain ⟨k, hk, hk2, hres⟩ := uwrite_spec dev h b [] (Or.inr ⟨hout, rfl⟩) hb
      rcases hres with ⟨wb, eat, sent, retry, tick, h1, h2, ⟨C, hC, h3⟩, h4, h5⟩ | ⟨C, hC, hd⟩
      · rw [h1, hk2]
        dsimp only
        rw [if_neg (by rw [h.max]; decide), List.take_length]
        have hall : b.take (k + (b.drop k).length) = b := by
          rw [List.length_drop, List.take_of_length_le (by omega)]
        rw [hall]
        apply wflush_spec
        left
        rw [List.append_nil] at h3 h4 h5
        refine ⟨h.live, h.conn, h.err, h.closed, h.max, h.bad, rfl, h2, C ++ b.take k, ?_, ?_, ?_, ?_⟩
        · show T ++ b = C ++ b.take k ++ (s.outbuf ++ b.drop k)
          rw [hC, hout, List.append_nil, List.nil_append, List.append_assoc, List.take_append_drop]
        · show sent = C ++ b.take k ++ (s.outbuf ++ b.drop k).take eat
          rw [h3, hout, List.nil_append, List.append_assoc]
        · show eat ≤ (s.outbuf ++ b.drop k).length
          rw [hout]; exact h4
        · show wb ≠ [] → eat = 0 ∧ wb <+: s.outbuf ++ b.drop k
          rw [hout]; exact h5
      · rw [hk2]
        rw [if_neg (by rw [hd.max]; decide), List.take_length]
        have hall : b.take (k + (b.drop k).length) = b := by
          rw [List.length_drop, List.take_of_length_le (by omega)]
        rw [hall]
        apply wflush_spec
        right
        refine ⟨hd.live, hd.conn, hd.bad, ?_, hd.max⟩
        have := hd.sent
        rw [List.append_nil] at this
        rw [hC, hout, List.append_nil]
        exact this
    · rw [if_neg hd]
      dsimp only
      rw [if_neg (by rw [h.max]; decide), List.drop_zero, List.take_length, Nat.zero_add, List.take_length]
      apply wflush_spec
      left
      obtain ⟨C, hC, hsent, heat, hwb⟩ := h.main
      refine ⟨h.live, h.conn, h.err, h.closed, h.max, h.bad, h.idx, h.retry, C, ?_, ?_, ?_, ?_⟩
      · show T ++ b = C ++ (s.outbuf ++ b)
        rw [hC, List.append_assoc]
      · show s.sent = C ++ (s.outbuf ++ b).take s.eat
        rw [hsent, List.take_append_of_le_length heat]
      · show s.eat ≤ (s.outbuf ++ b).length
        rw [List.length_append]; omega
      · show s.wb ≠ [] → s.eat = 0 ∧ s.wb <+: s.outbuf ++ b
        intro hn; exact ⟨(hwb hn).1, (hwb hn).2.trans (List.prefix_append _ _)⟩

/-- Before the handshake is done. -/
structure Un (s : St) : Prop where
  live : s.live = true
  conn : s.conn = false
  err : s.err = false
  closed : s.closed = false
  max : s.max = 0
  bad : s.bad = false
  idx : s.wbIdx = 0
  retry : s.retry = none
  sent : s.sent = []
  wb : s.wb = []
  eat : s.eat = 0
  outbuf : s.outbuf = []
  inbuf : s.inbuf = []
  delayed : s.delayed = false
  stopWrite : s.stopWrite = false

theorem un_new (v : Bool) : Un (new v) := ⟨rfl, rfl, rfl, rfl, rfl, rfl, rfl, rfl, rfl, rfl, rfl, rfl, rfl, rfl, rfl⟩

theorem Un.ok {s : St} (h : Un s) : isok s = true := by
  unfold isok; rw [h.live, h.err, h.closed]; rfl

/-- Members that do not matter before that. -/
def uframe (s t : St) : St :=
  { s with
    want := t.want, tick := t.tick, auto := t.auto, queueMin := t.queueMin
    stopRead := t.stopRead, sslStopRead := t.sslStopRead, sslStopWrite := t.sslStopWrite
    rb := t.rb, pending := t.pending, got := t.got, given := t.given, taken := t.taken, unconn := t.unconn }

theorem Un.same {s t : St} (h : Un s) (e : uframe s t = t) : Un t := by
  rw [← e]
  exact ⟨h.live, h.conn, h.err, h.closed, h.max, h.bad, h.idx, h.retry, h.sent, h.wb, h.eat, h.outbuf, h.inbuf, h.delayed, h.stopWrite⟩

theorem Un.autoclose {s : St} (h : Un s) : autoclose s = s := by
  unfold SslStream.autoclose
  rw [if_neg (by rw [h.stopWrite]; simp)]

theorem un_flushOutbuf {s : St} (h : Un s) : ∃ w k, flushOutbuf dev s = { s with want := w, tick := k } := by
  unfold flushOutbuf
  rw [if_pos (by rw [h.outbuf]; rfl)]
  have h' : Un { s with want := s.want && !s.delayed } := h.same rfl
  rw [h'.autoclose]
  exact ⟨_, s.tick, rfl⟩

theorem un_flush {s : St} (h : Un s) : ∃ w k, flush dev s = { s with want := w, tick := k } := by
  unfold flush
  dsimp only
  have h' : Un { s with want := true, tick := s.tick + 1 } := h.same rfl
  split
  · obtain ⟨w, k, h2⟩ := un_flushOutbuf dev h'
    exact ⟨w, k, h2⟩
  · exact ⟨_, _, rfl⟩

theorem un_wflush {s : St} (h : Un s) : ∃ w k, wflush dev s = { s with want := w, tick := k } := by
  unfold wflush
  split
  · split
    · exact un_flush dev h
    · exact un_flushOutbuf dev h
  · exact ⟨s.want, s.tick, rfl⟩

theorem un_write {s : St} (h : Un s) (b : List Byte) : ∃ w k, write dev b s = ({ s with unconn := s.unconn ++ b, want := w, tick := k }, b.length) := by
  unfold write
  by_cases hb : b = []
  · rw [if_pos (by rw [hb]; simp)]
    refine ⟨s.want, s.tick, ?_⟩
    rw [hb, List.append_nil]; rfl
  · rw [if_neg (by rw [h.ok, h.stopWrite]; simpa using hb)]
    dsimp only
    have hu : uwrite dev b s = ({ s with unconn := s.unconn ++ b }, b.length) := by
      unfold uwrite; rw [if_pos (by rw [h.conn]; rfl)]
    rw [if_pos (by rw [h.delayed, h.outbuf]; rfl), hu]
    dsimp only
    rw [if_neg (by rw [h.max]; decide), List.drop_length]
    have hx : Un { s with unconn := s.unconn ++ b } := h.same rfl
    obtain ⟨w, k, h2⟩ := un_wflush dev hx
    refine ⟨w, k, ?_⟩
    have e : ({ s with unconn := s.unconn ++ b, outbuf := s.outbuf ++ ([] : List Byte).take 0 } : St) = { s with unconn := s.unconn ++ b } := by
      simp
    exact Prod.ext ((congrArg (wflush dev) e).trans h2) rfl

theorem con_of_un {s : St} (h : Un s) : Con [] { s with conn := true } :=
  ⟨h.live, rfl, h.err, h.closed, h.max, h.bad, h.idx, (fun x hx => by rw [show ({ s with conn := true } : St).retry = s.retry from rfl, h.retry] at hx; cases hx),
    [], (by show [] = [] ++ s.outbuf; rw [h.outbuf]; rfl), (by show s.sent = [] ++ s.outbuf.take s.eat; rw [h.sent, h.outbuf]; simp),
    (by show s.eat ≤ s.outbuf.length; rw [h.eat]; omega), fun hn => absurd h.wb hn⟩

/-- `taken` is not used. -/
theorem write_all {T : List Byte} {s : St} (h : Con T s) (hs : s.stopWrite = false) (b : List Byte) : (write dev b s).2 = b.length := by
  unfold write
  by_cases hb : b = []
  · rw [if_pos (by rw [hb]; simp), hb]; rfl
  · rw [if_neg (by rw [h.ok, hs]; simpa using hb)]
    dsimp only
    have hr : (if (!s.delayed && s.outbuf.isEmpty) = true then uwrite dev b s else (s, 0)).1.max = 0
        ∧ (if (!s.delayed && s.outbuf.isEmpty) = true then uwrite dev b s else (s, 0)).2 ≤ b.length := by
      split
      next hd =>
        have hout : s.outbuf = [] := by
          simp only [Bool.and_eq_true, List.isEmpty_iff] at hd; exact hd.2
        obtain ⟨k, hk, hk2, hres⟩ := uwrite_spec dev h b [] (Or.inr ⟨hout, rfl⟩) hb
        refine ⟨?_, by rw [hk2]; exact hk⟩
        rcases hres with ⟨wb, eat, sent, retry, tick, h1, _⟩ | ⟨C, hC, hd⟩
        · rw [h1]; exact h.max
        · exact hd.max
      · exact ⟨h.max, Nat.zero_le _⟩
    generalize (if (!s.delayed && s.outbuf.isEmpty) = true then uwrite dev b s else (s, 0)) = r at hr ⊢
    rw [if_neg (by rw [hr.1]; decide), List.length_drop]
    omega

/-- What is taken and read is not touched by writing. -/
def side (s : St) : List Byte × List Byte × List Byte × List Byte × List Byte := (s.taken, s.got, s.given, s.rb, s.inbuf)

theorem side_close (s : St) : side (close s) = side s := rfl
theorem side_seterr (s : St) : side (seterr s) = side s := by unfold seterr; split <;> rfl
theorem side_autoclose (s : St) : side (autoclose s) = side s := by unfold autoclose; split <;> rfl

theorem side_loop : ∀ (n : Nat) (b : List Byte) (total : Nat) (s : St), side (uwriteLoop dev n b total s).1 = side s := by
  intro n
  induction n with
  | zero => intro b total s; rfl
  | succ n ih =>
    intro b total s
    unfold uwriteLoop
    split
    · rfl
    · have hs1 : side (if s.wb.isEmpty then { s with wb := b.take (bounceSize - s.wbIdx) } else s) = side s := by split <;> rfl
      dsimp only
      generalize (if s.wb.isEmpty then { s with wb := b.take (bounceSize - s.wbIdx) } else s) = s1 at hs1 ⊢
      have hw : side (sslWrite dev s1).1 = side s1 := by
        unfold sslWrite; dsimp only; split <;> rfl
      generalize sslWrite dev s1 = r at hw ⊢
      obtain ⟨s2, a⟩ := r
      have h2 : side s2 = side s := hw.trans hs1
      cases a with
      | all =>
        dsimp only
        split
        · exact h2
        · rw [ih]; exact h2
      | wait => exact h2
      | eof => exact h2
      | fail => exact (side_seterr s2).trans h2

theorem side_uwrite (b : List Byte) (s : St) : side (uwrite dev b s).1 = side s := by
  unfold uwrite
  split
  · rfl
  · split
    · rfl
    · split
      · rw [side_loop]; rfl
      · rw [side_loop]; rfl

theorem side_flushOutbuf (s : St) : side (flushOutbuf dev s) = side s := by
  unfold flushOutbuf
  split
  · rw [side_autoclose]; rfl
  · split
    · dsimp only
      rw [side_autoclose]
      have := side_uwrite dev (s.outbuf.take (max 1 (min (dev s.tick).chunk s.outbuf.length))) { s with tick := s.tick + 1 }
      split
      · exact this
      · exact this
    · rw [side_autoclose]; rfl

theorem side_flush (s : St) : side (flush dev s) = side s := by
  unfold flush
  dsimp only
  split
  · rw [side_flushOutbuf]; rfl
  · rfl

theorem side_wflush (s : St) : side (wflush dev s) = side s := by
  unfold wflush
  split
  · split
    · exact side_flush dev s
    · exact side_flushOutbuf dev s
  · rfl

theorem side_write (b : List Byte) (s : St) : side (write dev b s).1 = side s := by
  unfold write
  split
  · rfl
  · dsimp only
    have hr : side (if (!s.delayed && s.outbuf.isEmpty) = true then uwrite dev b s else (s, 0)).1 = side s := by
      split
      · exact side_uwrite dev b s
      · rfl
    generalize (if (!s.delayed && s.outbuf.isEmpty) = true then uwrite dev b s else (s, 0)) = r at hr ⊢
    rw [side_wflush]; exact hr

theorem side_setConnected (s : St) : side (setConnected dev s) = side s := by
  unfold setConnected
  exact side_write dev s.unconn { s with conn := true }

theorem side_handshake (s : St) : side (handshake dev s) = side s := by
  unfold handshake
  dsimp only
  split
  · rfl
  · rw [side_seterr]; rfl
  · split
    · split
      · rw [side_setConnected]; rfl
      · rw [side_seterr]; rfl
    · rw [side_setConnected]; rfl

theorem side_poll (r : Bool) (s : St) : side (poll dev r s).1 = side s := by
  unfold poll
  dsimp only
  have h1 : side (if s.want then flush dev s else s) = side s := by
    split
    · exact side_flush dev s
    · rfl
  generalize (if s.want then flush dev s else s) = s1 at h1 ⊢
  have h2 : side (if (dev s1.tick).lowWant then flush dev { s1 with tick := s1.tick + 1 } else { s1 with tick := s1.tick + 1 }) = side s1 := by
    split
    · rw [side_flush]; rfl
    · rfl
  generalize (if (dev s1.tick).lowWant then flush dev { s1 with tick := s1.tick + 1 } else { s1 with tick := s1.tick + 1 }) = s2 at h2 ⊢
  split
  · rw [side_handshake, h2, h1]
  · exact h2.trans h1

/-- What is always true of a stream without limits, of which the output is not delayed before it is connected. -/
inductive Inv (s : St) : Prop where
  | un (h : Un s) (t : s.taken = s.unconn)
  | con (h : Con s.taken s)
  | dead (h : Dead s.taken s)

theorem inv_new (v : Bool) : Inv (new v) := .un (un_new v) rfl

theorem un_dead {s : St} (h : Un s) (T : List Byte) : Dead T (close s) := close_dead h.bad (by rw [h.sent]; exact List.nil_prefix) h.max

theorem taken_flush (s : St) : (flush dev s).taken = s.taken := congrArg Prod.fst (side_flush dev s)

theorem inv_flush {s : St} (h : Inv s) : Inv (flush dev s) := by
  have ht := taken_flush dev s
  cases h with
  | un h t =>
    obtain ⟨w, k, e⟩ := un_flush dev h
    rw [e]; exact .un (h.same rfl) t
  | con h =>
    rcases flush_spec dev h with g | g
    · exact .con (by rw [ht]; exact g)
    · exact .dead (by rw [ht]; exact g)
  | dead h => exact .dead (by rw [ht]; exact flush_dead dev h)

theorem inv_write {s : St} (h : Inv s) (b : List Byte) :
    Inv { (write dev b s).1 with taken := (write dev b s).1.taken ++ b.take (write dev b s).2 } := by
  have ht : (write dev b s).1.taken = s.taken := congrArg Prod.fst (side_write dev b s)
  cases h with
  | un h t =>
    obtain ⟨w, k, e⟩ := un_write dev h b
    rw [e]
    dsimp only
    rw [List.take_length]
    exact .un (h.same rfl) (by show s.taken ++ b = s.unconn ++ b; rw [t])
  | con h =>
    rw [ht]
    rcases write_spec dev h b with g | g
    · exact .con (g.same rfl)
    · exact .dead ⟨g.live, g.conn, g.bad, g.sent, g.max⟩
  | dead h =>
    rw [write_dead dev h]
    exact .dead (by show Dead (s.taken ++ b.take 0) _; rw [List.take_zero, List.append_nil]; exact ⟨h.live, h.conn, h.bad, h.sent, h.max⟩)

theorem un_setConnected {s : St} (h : Un s) : Con s.unconn (setConnected dev s) ∨ Dead s.unconn (setConnected dev s) := by
  have hc := con_of_un h
  have hall : (write dev s.unconn { s with conn := true }).2 = s.unconn.length := write_all dev hc h.stopWrite s.unconn
  have hw := write_spec dev hc s.unconn
  rw [hall, List.take_length, List.nil_append] at hw
  unfold setConnected
  rcases hw with g | g
  · exact Or.inl (g.same rfl)
  · exact Or.inr ⟨g.live, g.conn, g.bad, g.sent, g.max⟩

theorem inv_handshake {s : St} (h : Un s) (t : s.taken = s.unconn) : Inv (handshake dev s) := by
  have hside : (handshake dev s).taken = s.taken := congrArg Prod.fst (side_handshake dev s)
  have hu : Un { s with tick := s.tick + 1 } := h.same rfl
  have hE : Inv (seterr { s with tick := s.tick + 1 }) :=
    .dead (seterr_dead hu.err hu.bad (by rw [hu.sent]; exact List.nil_prefix) hu.max)
  have hC : Inv (setConnected dev { s with tick := s.tick + 1 }) := by
    have ht : (setConnected dev { s with tick := s.tick + 1 }).taken = s.unconn :=
      (congrArg Prod.fst (side_setConnected dev { s with tick := s.tick + 1 })).trans t
    rcases un_setConnected dev hu with g | g
    · exact .con (by rw [ht]; exact g)
    · exact .dead (by rw [ht]; exact g)
  unfold handshake
  dsimp only
  split
  · exact .un hu t
  · exact hE
  · split
    · split
      · exact hC
      · exact hE
    · exact hC

theorem inv_tick {s : St} (h : Inv s) (k : Nat) : Inv { s with tick := k } := by
  cases h with
  | un h t => exact .un (h.same rfl) t
  | con h => exact .con (h.same rfl)
  | dead h => exact .dead ⟨h.live, h.conn, h.bad, h.sent, h.max⟩

theorem inv_poll {s : St} (h : Inv s) (r : Bool) : Inv (poll dev r s).1 := by
  unfold poll
  dsimp only
  have h1 : Inv (if s.want then flush dev s else s) := by
    split
    · exact inv_flush dev h
    · exact h
  generalize (if s.want then flush dev s else s) = s1 at h1 ⊢
  have h2 : Inv (if (dev s1.tick).lowWant then flush dev { s1 with tick := s1.tick + 1 } else { s1 with tick := s1.tick + 1 }) := by
    split
    · exact inv_flush dev (inv_tick h1 _)
    · exact inv_tick h1 _
  generalize (if (dev s1.tick).lowWant then flush dev { s1 with tick := s1.tick + 1 } else { s1 with tick := s1.tick + 1 }) = s2 at h2 ⊢
  split
  next hc =>
    simp only [Bool.and_eq_true, Bool.not_eq_true'] at hc
    cases h2 with
    | un h t => exact inv_handshake dev h t
    | con h => rw [h.conn] at hc; exact absurd hc.1.1 (by decide)
    | dead h => rw [h.live] at hc; exact absurd hc.1.2 (by decide)
  · exact h2

theorem inv_autoclose {s : St} (h : Inv s) : Inv (autoclose s) := by
  have ht : (autoclose s).taken = s.taken := congrArg Prod.fst (side_autoclose s)
  cases h with
  | un h t => rw [h.autoclose]; exact .un h t
  | con h =>
    rcases autoclose_spec h with g | g
    · exact .con (by rw [ht]; exact g)
    · exact .dead (by rw [ht]; exact g)
  | dead h => exact .dead (by rw [ht]; exact autoclose_dead h)

/-- What a read changes. -/
theorem uread_shape (n : Nat) {s : St} (h : Inv s) : Inv (uread dev n s).1 ∧ ∀ l, Inv { (uread dev n s).1 with inbuf := l } ∨ s.conn = false := by
  unfold uread
  cases h with
  | un h t =>
    rw [if_pos (by rw [h.conn]; rfl)]
    exact ⟨.un h t, fun l => Or.inr h.conn⟩
  | dead h =>
    rw [if_pos (by rw [h.conn]; rfl)]
    exact ⟨.dead h, fun l => Or.inr h.conn⟩
  | con h =>
    split
    · exact ⟨.con h, fun l => Or.inl (.con (h.same rfl))⟩
    · dsimp only
      split
      · exact ⟨.con (h.same rfl), fun l => Or.inl (.con (h.same rfl))⟩
      · split
        · exact ⟨.con (h.same rfl), fun l => Or.inl (.con (h.same rfl))⟩
        · exact ⟨.con (h.same rfl), fun l => Or.inl (.con (h.same rfl))⟩
        · have hx : nowrite (noread { s with pending := true, tick := s.tick + 1 })
              = { s with pending := true, tick := s.tick + 1, sslStopRead := true, sslStopWrite := true, stopRead := true, stopWrite := true } := by
            unfold nowrite noread
            dsimp only
            cases s.sslStopWrite <;> rfl
          rw [hx]
          exact ⟨.con (h.same rfl), fun l => Or.inl (.con (h.same rfl))⟩
        · have hx : seterr { s with pending := true, tick := s.tick + 1 } = close { s with pending := true, tick := s.tick + 1, err := true } := by
            unfold seterr
            rw [if_neg (by show ¬ s.err = true; rw [h.err]; decide)]
          rw [hx]
          exact ⟨.dead ⟨rfl, rfl, h.bad, h.pre, h.max⟩, fun l => Or.inl (.dead ⟨rfl, rfl, h.bad, h.pre, h.max⟩)⟩

theorem uread_off (n : Nat) {s : St} (h : s.conn = false) : uread dev n s = (s, []) := by
  unfold uread
  rw [if_pos (by rw [h]; rfl)]

theorem inv_inbuf {s : St} (h : Inv s) (l : List Byte) (hu : s.inbuf = [] → l = []) : Inv { s with inbuf := l } := by
  cases h with
  | un h t =>
    have e : ({ s with inbuf := l } : St) = s := by
      rw [hu h.inbuf, ← h.inbuf]
    rw [e]; exact .un h t
  | con h => exact .con (h.same rfl)
  | dead h => exact .dead ⟨h.live, h.conn, h.bad, h.sent, h.max⟩

theorem inv_read (n : Nat) {s : St} (h : Inv s) : Inv (read dev n s).1 := by
  unfold read
  dsimp only
  have h1 : Inv (if s.inbuf.length < s.queueMin then
      { (uread dev (s.queueMin - s.inbuf.length) s).1 with
        inbuf := (uread dev (s.queueMin - s.inbuf.length) s).1.inbuf ++ (uread dev (s.queueMin - s.inbuf.length) s).2 } else s) := by
    split
    · rcases (uread_shape dev (s.queueMin - s.inbuf.length) h).2
        ((uread dev (s.queueMin - s.inbuf.length) s).1.inbuf ++ (uread dev (s.queueMin - s.inbuf.length) s).2) with g | g
      · exact g
      · rw [uread_off dev _ g]
        exact inv_inbuf h _ (by intro e; simp [e])
    · exact h
  generalize (if s.inbuf.length < s.queueMin then
      { (uread dev (s.queueMin - s.inbuf.length) s).1 with
        inbuf := (uread dev (s.queueMin - s.inbuf.length) s).1.inbuf ++ (uread dev (s.queueMin - s.inbuf.length) s).2 } else s) = s1 at h1 ⊢
  split
  · exact inv_autoclose h1
  · split
    · exact inv_autoclose (uread_shape dev n h1).1
    · exact inv_autoclose (inv_inbuf h1 _ (by intro e; simp [e]))

theorem inv_given {s : St} (h : Inv s) (l : List Byte) : Inv { s with given := l } := by
  cases h with
  | un h t => exact .un (h.same rfl) t
  | con h => exact .con (h.same rfl)
  | dead h => exact .dead ⟨h.live, h.conn, h.bad, h.sent, h.max⟩

theorem inv_stop {s : St} (h : Inv s) (a b c d : Bool) (hcd : d = true → s.stopWrite = false → c = true) :
    Inv (autoclose { s with sslStopRead := a, sslStopWrite := b, stopRead := c, stopWrite := d }) := by
  cases h with
  | un h t =>
    cases d with
    | false =>
      have hu : Un { s with sslStopRead := a, sslStopWrite := b, stopRead := c, stopWrite := false } := by
        have g : Un { s with sslStopRead := a, sslStopWrite := b, stopRead := c } := h.same rfl
        have e : ({ s with sslStopRead := a, sslStopWrite := b, stopRead := c, stopWrite := false } : St)
            = { s with sslStopRead := a, sslStopWrite := b, stopRead := c } := by rw [← h.stopWrite]
        rw [e]; exact g
      rw [hu.autoclose]; exact .un hu t
    | true =>
      have hc := hcd rfl h.stopWrite
      subst hc
      unfold autoclose
      rw [if_pos (by show (true && true && s.outbuf.isEmpty && s.inbuf.isEmpty && !s.closed) = true; rw [h.outbuf, h.inbuf, h.closed]; rfl)]
      exact .dead ⟨rfl, rfl, h.bad, (by show s.sent <+: _; rw [h.sent]; exact List.nil_prefix), h.max⟩
  | con h => exact inv_autoclose (.con (h.same rfl))
  | dead h => exact inv_autoclose (.dead ⟨h.live, h.conn, h.bad, h.sent, h.max⟩)

theorem inv_step {s : St} (h : Inv s) (o : Op) (h1 : ∀ n, o ≠ .limit n) (h2 : o = .delay true → s.conn = true ∨ s.live = false) : Inv (step dev s o) := by
  cases o with
  | write b => exact inv_write dev h b
  | flush => exact inv_flush dev h
  | poll r => exact inv_poll dev h r
  | read n => exact inv_given (inv_read dev n h) _
  | noread =>
    show Inv (autoclose (noread s))
    unfold noread
    dsimp only
    split
    · exact inv_stop h _ _ _ _ (fun _ _ => rfl)
    · exact inv_stop h _ _ s.stopRead s.stopWrite (fun a b => by rw [a] at b; cases b)
  | nowrite =>
    show Inv (autoclose (nowrite s))
    unfold nowrite
    dsimp only
    split
    · exact inv_stop h _ _ _ _ (fun _ _ => rfl)
    · exact inv_stop h _ _ s.stopRead s.stopWrite (fun a b => by rw [a] at b; cases b)
  | close =>
    cases h with
    | un h t => exact .dead (un_dead h _)
    | con h => exact .dead (close_dead h.bad h.pre h.max)
    | dead h => exact .dead (close_dead h.bad h.sent h.max)
  | delay b =>
    cases h with
    | un h t =>
      cases b with
      | false =>
        have e : step dev s (.delay false) = { s with want := true } := by
          show ({ s with delayed := false, want := true } : St) = _
          rw [← h.delayed]
        rw [e]; exact .un (h.same rfl) t
      | true =>
        rcases h2 rfl with g | g
        · rw [h.conn] at g; cases g
        · rw [h.live] at g; cases g
    | con h => exact .con (h.same rfl)
    | dead h => exact .dead ⟨h.live, h.conn, h.bad, h.sent, h.max⟩
  | auto b =>
    cases h with
    | un h t => exact .un (h.same rfl) t
    | con h => exact .con (h.same rfl)
    | dead h => exact .dead ⟨h.live, h.conn, h.bad, h.sent, h.max⟩
  | limit n => exact absurd rfl (h1 n)
  | queuemin n =>
    cases h with
    | un h t => exact .un (h.same rfl) t
    | con h => exact .con (h.same rfl)
    | dead h => exact .dead ⟨h.live, h.conn, h.bad, h.sent, h.max⟩

theorem inv_run (l : List Op) : ∀ {s : St}, Inv s → (∀ n, .limit n ∉ l) → (∀ pre, pre ++ [.delay true] <+: l → (run dev s pre).conn = true ∨ (run dev s pre).live = false) →
    Inv (run dev s l) := by
  induction l with
  | nil => intro s h _ _; exact h
  | cons o l ih =>
    intro s h h1 h2
    refine ih (inv_step dev h o (fun n e => h1 n (by rw [e]; simp)) (fun e => ?_)) (fun n hn => h1 n (List.mem_cons_of_mem _ hn)) (fun pre hp => ?_)
    · exact h2 [] (by rw [e]; exact ⟨l, rfl⟩)
    · exact h2 (o :: pre) (by rw [List.cons_append]; exact (List.cons_prefix_cons).mpr ⟨rfl, hp⟩)

/-! ### What is read -/

/-- Nothing that came is lost or swapped. -/
def Rdy (s : St) : Prop := s.got = s.given ++ s.inbuf ++ s.rb

theorem rdy_of_side {s t : St} (h : Rdy s) (e : side t = side s) : Rdy t := by
  unfold side at e
  simp only [Prod.mk.injEq] at e
  unfold Rdy at h ⊢
  rw [e.2.1, e.2.2.1, e.2.2.2.1, e.2.2.2.2]; exact h

theorem uread_rdy (n : Nat) {s : St} (X : List Byte) (h : s.got = X ++ s.rb) :
    (uread dev n s).1.got = X ++ (uread dev n s).2 ++ (uread dev n s).1.rb ∧ (uread dev n s).1.inbuf = s.inbuf ∧ (uread dev n s).1.given = s.given
      ∧ (uread dev n s).1.queueMin = s.queueMin := by
  unfold uread
  split
  · exact ⟨by rw [h, List.append_nil], rfl, rfl, rfl⟩
  · dsimp only
    split
    · refine ⟨?_, rfl, rfl, rfl⟩
      dsimp only
      rw [h, List.append_assoc, List.take_append_drop]
    next hr =>
      have hr' : s.rb = [] := by
        cases hx : s.rb with
        | nil => rfl
        | cons a l => rw [hx] at hr; simp at hr
      rw [hr', List.append_nil] at h
      split
      · refine ⟨?_, rfl, rfl, rfl⟩
        dsimp only
        rw [h, List.append_assoc, List.take_append_drop]
      · exact ⟨by dsimp only; rw [hr', h]; simp, rfl, rfl, rfl⟩
      · have hx : ∀ t : St, ((nowrite (noread t)).got, (nowrite (noread t)).rb, (nowrite (noread t)).inbuf, (nowrite (noread t)).given, (nowrite (noread t)).queueMin)
            = (t.got, t.rb, t.inbuf, t.given, t.queueMin) := by
          intro t; unfold nowrite noread; dsimp only; split <;> split <;> rfl
        have := hx { s with pending := true, tick := s.tick + 1 }
        simp only [Prod.mk.injEq] at this
        obtain ⟨a, b, c, d, e⟩ := this
        dsimp only
        rw [a, b, c, d, e, hr', h]
        simp
      · have hx : ∀ t : St, ((seterr t).got, (seterr t).rb, (seterr t).inbuf, (seterr t).given, (seterr t).queueMin)
            = (t.got, t.rb, t.inbuf, t.given, t.queueMin) := by
          intro t; unfold seterr; split <;> rfl
        have := hx { s with pending := true, tick := s.tick + 1 }
        simp only [Prod.mk.injEq] at this
        obtain ⟨a, b, c, d, e⟩ := this
        dsimp only
        rw [a, b, c, d, e, hr', h]
        simp

theorem rdy_read (n : Nat) {s : St} (h : Rdy s) : Rdy { (read dev n s).1 with given := (read dev n s).1.given ++ (read dev n s).2 } := by
  unfold read
  dsimp only
  have h1 : Rdy (if s.inbuf.length < s.queueMin then
      { (uread dev (s.queueMin - s.inbuf.length) s).1 with
        inbuf := (uread dev (s.queueMin - s.inbuf.length) s).1.inbuf ++ (uread dev (s.queueMin - s.inbuf.length) s).2 } else s) := by
    split
    · obtain ⟨a, b, c, _⟩ := uread_rdy dev (s.queueMin - s.inbuf.length) (s.given ++ s.inbuf) h
      show (uread dev (s.queueMin - s.inbuf.length) s).1.got = (uread dev (s.queueMin - s.inbuf.length) s).1.given ++ _ ++ _
      rw [a, b, c]
      simp
    · exact h
  generalize (if s.inbuf.length < s.queueMin then
      { (uread dev (s.queueMin - s.inbuf.length) s).1 with
        inbuf := (uread dev (s.queueMin - s.inbuf.length) s).1.inbuf ++ (uread dev (s.queueMin - s.inbuf.length) s).2 } else s) = s1 at h1 ⊢
  have hauto : ∀ (t : St) (x : List Byte), t.got = t.given ++ x ++ t.inbuf ++ t.rb → Rdy { autoclose t with given := (autoclose t).given ++ x } := by
    intro t x hx
    have := side_autoclose t
    unfold side at this
    simp only [Prod.mk.injEq] at this
    show (autoclose t).got = (autoclose t).given ++ x ++ (autoclose t).inbuf ++ (autoclose t).rb
    rw [this.2.1, this.2.2.1, this.2.2.2.1, this.2.2.2.2]; exact hx
  split
  · exact hauto s1 [] (by rw [List.append_nil]; exact h1)
  · split
    next hi =>
      rw [List.isEmpty_iff] at hi
      unfold Rdy at h1
      rw [hi, List.append_nil] at h1
      obtain ⟨a, b, c, _⟩ := uread_rdy dev n s1.given h1
      refine hauto _ _ ?_
      rw [a, b, c, hi, List.append_nil]
    · refine hauto _ _ ?_
      dsimp only
      rw [List.append_assoc s1.given, List.take_append_drop]; exact h1

theorem rdy_run (l : List Op) : ∀ {s : St}, Rdy s → Rdy (run dev s l) := by
  induction l with
  | nil => intro s h; exact h
  | cons o l ih =>
    intro s h
    refine ih ?_
    cases o with
    | write b => 
      have := side_write dev b s
      unfold side at this
      simp only [Prod.mk.injEq] at this
      show (write dev b s).1.got = (write dev b s).1.given ++ (write dev b s).1.inbuf ++ (write dev b s).1.rb
      rw [this.2.1, this.2.2.1, this.2.2.2.1, this.2.2.2.2]; exact h
    | flush => exact rdy_of_side h (side_flush dev s)
    | poll r => exact rdy_of_side h (side_poll dev r s)
    | read n => exact rdy_read dev n h
    | noread =>
      refine rdy_of_side h ((side_autoclose _).trans ?_)
      unfold noread; dsimp only; split <;> rfl
    | nowrite =>
      refine rdy_of_side h ((side_autoclose _).trans ?_)
      unfold nowrite; dsimp only; split <;> rfl
    | close => exact h
    | delay b => exact h
    | auto b => exact h
    | limit n => exact h
    | queuemin n => exact h

/-! ### The certificate -/

/-- Nothing happens to the connection, other than that it is closed. -/
structure Mon (s t : St) : Prop where
  vcb : t.vcb = s.vcb
  tick : s.tick ≤ t.tick
  conn : (t.conn = s.conn ∧ t.live = s.live) ∨ (t.conn = false ∧ t.live = false)
  off : s.conn = false → t.sent = s.sent ∧ t.got = s.got

theorem Mon.refl (s : St) : Mon s s := ⟨rfl, Nat.le_refl _, Or.inl ⟨rfl, rfl⟩, fun _ => ⟨rfl, rfl⟩⟩

theorem Mon.trans {s t u : St} (a : Mon s t) (b : Mon t u) : Mon s u := by
  refine ⟨b.vcb.trans a.vcb, Nat.le_trans a.tick b.tick, ?_, ?_⟩
  · rcases a.conn with ⟨a1, a2⟩ | ⟨a1, a2⟩
    · rw [← a1, ← a2]; exact b.conn
    · right
      rcases b.conn with ⟨b1, b2⟩ | hb
      · exact ⟨b1.trans a1, b2.trans a2⟩
      · exact hb
  · intro h
    have ht : t.conn = false := by
      rcases a.conn with ⟨a1, _⟩ | ⟨a1, _⟩
      · rw [a1]; exact h
      · exact a1
    exact ⟨(b.off ht).1.trans (a.off h).1, (b.off ht).2.trans (a.off h).2⟩

theorem mon_close (s : St) : Mon s (close s) := ⟨rfl, Nat.le_refl _, Or.inr ⟨rfl, rfl⟩, fun _ => ⟨rfl, rfl⟩⟩

theorem mon_seterr (s : St) : Mon s (seterr s) := by
  unfold seterr
  split
  · exact Mon.refl s
  · exact ⟨rfl, Nat.le_refl _, Or.inr ⟨rfl, rfl⟩, fun _ => ⟨rfl, rfl⟩⟩

theorem mon_autoclose (s : St) : Mon s (autoclose s) := by
  unfold autoclose
  split
  · exact mon_close s
  · exact Mon.refl s

theorem mon_loop : ∀ (n : Nat) (b : List Byte) (total : Nat) (s : St), s.conn = true → Mon s (uwriteLoop dev n b total s).1 := by
  intro n
  induction n with
  | zero => intro b total s _; exact Mon.refl s
  | succ n ih =>
    intro b total s hs
    unfold uwriteLoop
    split
    · exact Mon.refl s
    · have hs1 : Mon s (if s.wb.isEmpty then { s with wb := b.take (bounceSize - s.wbIdx) } else s)
          ∧ (if s.wb.isEmpty then { s with wb := b.take (bounceSize - s.wbIdx) } else s).conn = true := by
        split
        · exact ⟨⟨rfl, Nat.le_refl _, Or.inl ⟨rfl, rfl⟩, fun _ => ⟨rfl, rfl⟩⟩, hs⟩
        · exact ⟨Mon.refl s, hs⟩
      dsimp only
      generalize (if s.wb.isEmpty then { s with wb := b.take (bounceSize - s.wbIdx) } else s) = s1 at hs1 ⊢
      have hw : Mon s1 (sslWrite dev s1).1 ∧ (sslWrite dev s1).1.conn = true := by
        have hc := hs1.2
        have hoff : ∀ t : St, s1.conn = false → t.sent = s1.sent ∧ t.got = s1.got := fun t h => by rw [hc] at h; cases h
        unfold sslWrite; dsimp only; split <;> exact ⟨⟨rfl, Nat.le_succ _, Or.inl ⟨rfl, rfl⟩, hoff _⟩, hc⟩
      generalize sslWrite dev s1 = r at hw ⊢
      obtain ⟨s2, a⟩ := r
      have h2 : Mon s s2 := hs1.1.trans hw.1
      have hc2 : s2.conn = true := hw.2
      have heq : ∀ t : St, t.vcb = s2.vcb → t.tick = s2.tick → t.conn = s2.conn → t.live = s2.live → Mon s2 t :=
        fun t a b c d => ⟨a, Nat.le_of_eq b.symm, Or.inl ⟨c, d⟩, fun h => by rw [hc2] at h; cases h⟩
      cases a with
      | all =>
        dsimp only
        split
        · exact h2.trans (heq _ rfl rfl rfl rfl)
        · exact (h2.trans (heq { s2 with wb := [], wbIdx := 0 } rfl rfl rfl rfl)).trans (ih _ _ _ hc2)
      | wait => exact h2
      | eof => exact h2.trans (mon_close s2)
      | fail => exact h2.trans (mon_seterr s2)

theorem mon_uwrite (b : List Byte) (s : St) : Mon s (uwrite dev b s).1 := by
  unfold uwrite
  split
  · exact ⟨rfl, Nat.le_refl _, Or.inl ⟨rfl, rfl⟩, fun _ => ⟨rfl, rfl⟩⟩
  next hc =>
    have hc' : s.conn = true := by simpa using hc
    split
    · exact Mon.refl s
    · split
      · exact Mon.trans (t := { s with eat := s.eat - b.length }) ⟨rfl, Nat.le_refl _, Or.inl ⟨rfl, rfl⟩, fun _ => ⟨rfl, rfl⟩⟩ (mon_loop dev _ _ _ _ hc')
      · exact Mon.trans (t := { s with eat := 0 }) ⟨rfl, Nat.le_refl _, Or.inl ⟨rfl, rfl⟩, fun _ => ⟨rfl, rfl⟩⟩ (mon_loop dev _ _ _ _ hc')

theorem mon_out (s : St) (o : List Byte) (w : Bool) (k : Nat) (hk : s.tick ≤ k) : Mon s { s with outbuf := o, want := w, tick := k } :=
  ⟨rfl, hk, Or.inl ⟨rfl, rfl⟩, fun _ => ⟨rfl, rfl⟩⟩

theorem mon_flushOutbuf (s : St) : Mon s (flushOutbuf dev s) := by
  unfold flushOutbuf
  split
  · exact (mon_out s s.outbuf _ s.tick (Nat.le_refl _)).trans (mon_autoclose _)
  · split
    · dsimp only
      have h1 : Mon s { s with tick := s.tick + 1 } := mon_out s s.outbuf s.want _ (Nat.le_succ _)
      have h2 := h1.trans (mon_uwrite dev (s.outbuf.take (max 1 (min (dev s.tick).chunk s.outbuf.length))) { s with tick := s.tick + 1 })
      refine Mon.trans ?_ (mon_autoclose _)
      generalize uwrite dev (s.outbuf.take (max 1 (min (dev s.tick).chunk s.outbuf.length))) { s with tick := s.tick + 1 } = r at h2 ⊢
      split
      · exact h2.trans (mon_out r.1 _ r.1.want r.1.tick (Nat.le_refl _))
      · exact h2.trans (mon_out r.1 _ r.1.want r.1.tick (Nat.le_refl _))
    · exact (mon_out s [] s.want s.tick (Nat.le_refl _)).trans (mon_autoclose _)

theorem mon_flush (s : St) : Mon s (flush dev s) := by
  unfold flush
  dsimp only
  have h1 : Mon s { s with want := true, tick := s.tick + 1 } := mon_out s s.outbuf true _ (Nat.le_succ _)
  split
  · exact h1.trans (mon_flushOutbuf dev _)
  · exact h1

theorem mon_wflush (s : St) : Mon s (wflush dev s) := by
  unfold wflush
  split
  · split
    · exact mon_flush dev s
    · exact mon_flushOutbuf dev s
  · exact Mon.refl s

theorem mon_write (b : List Byte) (s : St) : Mon s (write dev b s).1 := by
  unfold write
  split
  · exact Mon.refl s
  · dsimp only
    have hr : Mon s (if (!s.delayed && s.outbuf.isEmpty) = true then uwrite dev b s else (s, 0)).1 := by
      split
      · exact mon_uwrite dev b s
      · exact Mon.refl s
    generalize (if (!s.delayed && s.outbuf.isEmpty) = true then uwrite dev b s else (s, 0)) = r at hr ⊢
    exact (hr.trans (mon_out r.1 _ r.1.want r.1.tick (Nat.le_refl _))).trans (mon_wflush dev _)

theorem mon_poll1 (s : St) : Mon s (if s.want then flush dev s else s) := by
  split
  · exact mon_flush dev s
  · exact Mon.refl s

theorem mon_poll2 (s : St) : Mon s (if (dev s.tick).lowWant then flush dev { s with tick := s.tick + 1 } else { s with tick := s.tick + 1 }) := by
  have h1 : Mon s { s with tick := s.tick + 1 } := mon_out s s.outbuf s.want _ (Nat.le_succ _)
  split
  · exact h1.trans (mon_flush dev _)
  · exact h1

theorem mon_uread (n : Nat) (s : St) : Mon s (uread dev n s).1 := by
  unfold uread
  split
  · exact Mon.refl s
  next hc =>
    have hc' : s.conn = true := by
      simp only [Bool.or_eq_true, Bool.not_eq_true', not_or, Bool.not_eq_false] at hc
      exact hc.1
    have hoff : ∀ t : St, s.conn = false → t.sent = s.sent ∧ t.got = s.got := fun t h => by rw [hc'] at h; cases h
    dsimp only
    split
    · exact ⟨rfl, Nat.le_refl _, Or.inl ⟨rfl, rfl⟩, hoff _⟩
    · split
      · exact ⟨rfl, Nat.le_succ _, Or.inl ⟨rfl, rfl⟩, hoff _⟩
      · exact ⟨rfl, Nat.le_succ _, Or.inl ⟨rfl, rfl⟩, hoff _⟩
      · have hx : ∀ t : St, ((nowrite (noread t)).vcb, (nowrite (noread t)).tick, (nowrite (noread t)).conn, (nowrite (noread t)).live)
            = (t.vcb, t.tick, t.conn, t.live) := by
          intro t; unfold nowrite noread; dsimp only; split <;> split <;> rfl
        have := hx { s with pending := true, tick := s.tick + 1 }
        simp only [Prod.mk.injEq] at this
        obtain ⟨a, b, c, d⟩ := this
        exact ⟨a, by dsimp only; rw [b]; exact Nat.le_succ _, Or.inl ⟨c, d⟩, hoff _⟩
      · have h1 : Mon s { s with pending := true, tick := s.tick + 1 } := ⟨rfl, Nat.le_succ _, Or.inl ⟨rfl, rfl⟩, hoff _⟩
        have h2 := h1.trans (mon_seterr _)
        exact ⟨h2.vcb, h2.tick, h2.conn, hoff _⟩

theorem mon_eq {s t : St} (a : t.vcb = s.vcb) (b : t.tick = s.tick) (c : t.conn = s.conn) (d : t.live = s.live) (e : t.sent = s.sent) (f : t.got = s.got) : Mon s t :=
  ⟨a, Nat.le_of_eq b.symm, Or.inl ⟨c, d⟩, fun _ => ⟨e, f⟩⟩

theorem mon_read (n : Nat) (s : St) : Mon s (read dev n s).1 := by
  unfold read
  dsimp only
  have h1 : Mon s (if s.inbuf.length < s.queueMin then
      { (uread dev (s.queueMin - s.inbuf.length) s).1 with
        inbuf := (uread dev (s.queueMin - s.inbuf.length) s).1.inbuf ++ (uread dev (s.queueMin - s.inbuf.length) s).2 } else s) := by
    split
    · exact (mon_uread dev _ s).trans (mon_eq rfl rfl rfl rfl rfl rfl)
    · exact Mon.refl s
  generalize (if s.inbuf.length < s.queueMin then
      { (uread dev (s.queueMin - s.inbuf.length) s).1 with
        inbuf := (uread dev (s.queueMin - s.inbuf.length) s).1.inbuf ++ (uread dev (s.queueMin - s.inbuf.length) s).2 } else s) = s1 at h1 ⊢
  split
  · exact h1.trans (mon_autoclose _)
  · split
    · exact (h1.trans (mon_uread dev n s1)).trans (mon_autoclose _)
    · exact (h1.trans (mon_eq (t := { s1 with inbuf := s1.inbuf.drop n }) rfl rfl rfl rfl rfl rfl)).trans (mon_autoclose _)

/-- The certificate was accepted before the answer `k`. -/
def Seen (k : Nat) : Prop := ∃ i, i < k ∧ (dev i).hs ≠ .again ∧ (dev i).hs ≠ .fail ∧ (dev i).cert = true ∧ (dev i).accept = true

/-- The certificate is needed. -/
def Ver (s : St) : Prop := s.vcb = true → (s.conn = false ∧ s.sent = [] ∧ s.got = []) ∨ Seen dev s.tick

theorem Ver.mon {s t : St} (h : Ver dev s) (m : Mon s t) : Ver dev t := by
  intro hv
  rcases h (by rw [← m.vcb]; exact hv) with ⟨a, b, c⟩ | ⟨i, hi, g⟩
  · left
    refine ⟨?_, (m.off a).1.trans b, (m.off a).2.trans c⟩
    rcases m.conn with ⟨x, _⟩ | ⟨x, _⟩
    · rw [x]; exact a
    · exact x
  · exact Or.inr ⟨i, Nat.lt_of_lt_of_le hi m.tick, g⟩

theorem ver_handshake {s : St} (h : Ver dev s) : Ver dev (handshake dev s) := by
  have h1 : Mon s { s with tick := s.tick + 1 } := mon_out s s.outbuf s.want _ (Nat.le_succ _)
  have hset : ∀ t : St, t.vcb = (setConnected dev t).vcb ∧ t.tick ≤ (setConnected dev t).tick := by
    intro t
    have := mon_write dev t.unconn { t with conn := true }
    exact ⟨this.vcb.symm, this.tick⟩
  unfold handshake
  dsimp only
  split
  · exact h.mon dev h1
  · exact h.mon dev (h1.trans (mon_seterr _))
  next hh1 hh2 =>
    split
    next hv =>
      split
      next hc =>
        intro _
        rw [Bool.and_eq_true] at hc
        exact Or.inr ⟨s.tick, Nat.lt_of_lt_of_le (Nat.lt_succ_self _) (hset { s with tick := s.tick + 1 }).2, hh1, hh2, hc.1, hc.2⟩
      · exact h.mon dev (h1.trans (mon_seterr _))
    next hv =>
      intro hv'
      have := (hset { s with tick := s.tick + 1 }).1
      rw [hv'] at this
      exact absurd this hv

theorem ver_poll {s : St} (h : Ver dev s) (r : Bool) : Ver dev (poll dev r s).1 := by
  unfold poll
  dsimp only
  have h1 := h.mon dev (mon_poll1 dev s)
  generalize (if s.want then flush dev s else s) = s1 at h1 ⊢
  have h2 := h1.mon dev (mon_poll2 dev s1)
  generalize (if (dev s1.tick).lowWant then flush dev { s1 with tick := s1.tick + 1 } else { s1 with tick := s1.tick + 1 }) = s2 at h2 ⊢
  split
  · exact ver_handshake dev h2
  · exact h2

theorem ver_run (l : List Op) : ∀ {s : St}, Ver dev s → Ver dev (run dev s l) := by
  induction l with
  | nil => intro s h; exact h
  | cons o l ih =>
    intro s h
    refine ih ?_
    cases o with
    | write b => exact h.mon dev ((mon_write dev b s).trans (mon_eq rfl rfl rfl rfl rfl rfl))
    | flush => exact h.mon dev (mon_flush dev s)
    | poll r => exact ver_poll dev h r
    | read n => exact h.mon dev ((mon_read dev n s).trans (mon_eq rfl rfl rfl rfl rfl rfl))
    | noread =>
      refine h.mon dev (Mon.trans ?_ (mon_autoclose _))
      unfold noread; dsimp only; split <;> exact mon_eq rfl rfl rfl rfl rfl rfl
    | nowrite =>
      refine h.mon dev (Mon.trans ?_ (mon_autoclose _))
      unfold nowrite; dsimp only; split <;> exact mon_eq rfl rfl rfl rfl rfl rfl
    | close => exact h.mon dev (mon_close s)
    | delay b => exact h
    | auto b => exact h
    | limit n => exact h
    | queuemin n => exact h

theorem run_vcb (l : List Op) : ∀ {s : St}, (run dev s l).vcb = s.vcb := by
  induction l with
  | nil => intro s; rfl
  | cons o l ih =>
    intro s
    refine (ih (s := step dev s o)).trans ?_
    cases o with
    | write b => exact (mon_write dev b s).vcb
    | flush => exact (mon_flush dev s).vcb
    | poll r =>
      show (poll dev r s).1.vcb = s.vcb
      unfold poll
      dsimp only
      have h1 := mon_poll1 dev s
      generalize (if s.want then flush dev s else s) = s1 at h1 ⊢
      have h2 := (h1.trans (mon_poll2 dev s1)).vcb
      generalize (if (dev s1.tick).lowWant then flush dev { s1 with tick := s1.tick + 1 } else { s1 with tick := s1.tick + 1 }) = s2 at h2 ⊢
      split
      · refine Eq.trans ?_ h2
        unfold handshake
        dsimp only
        have hset : ∀ t : St, (setConnected dev t).vcb = t.vcb := fun t => (mon_write dev t.unconn { t with conn := true }).vcb
        split
        · rfl
        · rw [(mon_seterr _).vcb]
        · split
          · split
            · rw [hset]
            · rw [(mon_seterr _).vcb]
          · rw [hset]
      · exact h2
    | read n => exact (mon_read dev n s).vcb
    | noread =>
      refine (mon_autoclose _).vcb.trans ?_
      unfold noread; dsimp only; split <;> rfl
    | nowrite =>
      refine (mon_autoclose _).vcb.trans ?_
      unfold nowrite; dsimp only; split <;> rfl
    | close => rfl
    | delay b => rfl
    | auto b => rfl
    | limit n => rfl
    | queuemin n => rfl

end Wv.SslStream
