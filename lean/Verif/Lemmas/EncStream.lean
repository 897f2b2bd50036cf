import Verif.Model.EncStream
/-!
Lemmas for Props/EncStream: what each function does to the reading half and to the writing half of the stream.
-/
namespace Wv.EncStream
open Spec.Coder (Coder Runs Ended TakesAll)

variable {σ τ : Type} (R : Coder σ) (W : Coder τ) (dev : Nat → Ans)

/-! ## The reading half -/

/-- What the reading half is made of. -/
structure RV (σ : Type) where
  got : List Byte
  readin : List Byte
  returned : List Byte
  inbuf : List Byte
  readout : List Byte
  rc : σ
  isClosing : Bool
  lowClosed : Bool
  queueMin : Nat
  closed : Bool

def rv (s : St σ τ) : RV σ := ⟨s.got, s.readin, s.returned, s.inbuf, s.readout, s.rc, s.isClosing, s.lowClosed, s.queueMin, s.closed⟩

theorem rv_setErr (s : St σ τ) : rv (setErr s) = rv s := by unfold setErr; split <;> rfl

theorem rv_checkW0 (s : St σ τ) : rv (checkW0 W s) = rv s := by
  unfold checkW0; split
  · rfl
  · exact rv_setErr s

theorem rv_checkR0 (s : St σ τ) : rv (checkR0 R s) = rv s := by
  unfold checkR0; split
  · rfl
  · exact rv_setErr s

theorem rv_encW (flush fin : Bool) (s : St σ τ) : rv (encW W flush fin s).1 = rv s := by
  unfold encW; cases flush <;> cases fin <;> rfl

theorem rv_lowWrite (b : List Byte) (s : St σ τ) : rv (lowWrite dev b s) = rv s := rfl

theorem rv_push0 (flush fin : Bool) (s : St σ τ) : rv (push0 W dev flush fin s) = rv s := by
  unfold push0; dsimp only; rw [rv_lowWrite, rv_checkW0, rv_encW]

theorem rv_cloneFlush (s : St σ τ) : rv (cloneFlush dev s).1 = rv s := by
  unfold cloneFlush; dsimp only; split <;> rfl

theorem rv_closeFlush (s : St σ τ) : rv (closeFlush W dev s) = rv s := by
  unfold closeFlush
  split
  · rfl
  · dsimp only
    have h : rv (cloneFlush dev (push0 W dev true false { s with wantFlush := true })).1 = rv s := by
      rw [rv_cloneFlush, rv_push0]; rfl
    split
    · exact h
    · exact h

/-- The bytes that the stream below gave went into the chain, and what came out is there, in order. -/
def Flow (a : σ) (v : RV σ) : Prop :=
  ∃ fed, v.got = fed ++ v.readin ∧ Runs R a fed (v.returned ++ v.inbuf ++ v.readout) v.rc

/-- After the end of the stream. -/
def AtEnd (a : σ) (v : RV σ) : Prop :=
  v.lowClosed = true ∧ (TakesAll R → v.readin = [] ∧ Ended R a v.got (v.returned ++ v.inbuf ++ v.readout) v.rc)

structure RI (a : σ) (v : RV σ) : Prop where
  flow : Flow R a v
  atEnd : v.isClosing = true → AtEnd R a v
  q : v.queueMin = 0
  cl : v.closed = true → v.isClosing = true

theorem flow_encR (a : σ) (s : St σ τ) (h : Flow R a (rv s)) : Flow R a (rv (encR R s)) := by
  obtain ⟨fed, h1, h2⟩ := h
  refine ⟨fed ++ s.readin.take (R.encode s.rc true s.readin).2.1, ?_, ?_⟩
  · show s.got = _ ++ s.readin.drop _
    rw [List.append_assoc, List.take_append_drop]; exact h1
  · have := Runs.encode true s.readin h2
    show Runs R a _ (s.returned ++ s.inbuf ++ (s.readout ++ _)) _
    rw [← List.append_assoc]; exact this

theorem flow_finR (a : σ) (s : St σ τ) (h : Flow R a (rv s)) : Flow R a (rv (finR R s)) := by
  obtain ⟨fed, h1, h2⟩ := h
  refine ⟨fed, h1, ?_⟩
  have := Runs.finish h2
  show Runs R a _ (s.returned ++ s.inbuf ++ (s.readout ++ _)) _
  rw [← List.append_assoc]; exact this

theorem drop_all (hall : TakesAll R) (s : σ) (t : List Byte) : t.drop (R.encode s true t).2.1 = [] :=
  List.drop_eq_nil_of_le (hall s t)

theorem end_encR (a : σ) (s : St σ τ) (h : AtEnd R a (rv s)) : AtEnd R a (rv (encR R s)) := by
  refine ⟨h.1, fun hall => ?_⟩
  obtain ⟨e, hE⟩ := h.2 hall
  have e' : s.readin = [] := e
  refine ⟨drop_all R hall _ _, ?_⟩
  have := Ended.nothing true hE
  show Ended R a _ (s.returned ++ s.inbuf ++ (s.readout ++ (R.encode s.rc true s.readin).2.2)) (R.encode s.rc true s.readin).1
  rw [← List.append_assoc, e']; exact this

theorem end_finR (a : σ) (s : St σ τ) (h : AtEnd R a (rv s)) : AtEnd R a (rv (finR R s)) := by
  refine ⟨h.1, fun hall => ?_⟩
  obtain ⟨e, hE⟩ := h.2 hall
  refine ⟨e, ?_⟩
  have := Ended.again hE
  show Ended R a _ (s.returned ++ s.inbuf ++ (s.readout ++ _)) _
  rw [← List.append_assoc]; exact this

theorem ri_encR (a : σ) (s : St σ τ) (h : RI R a (rv s)) : RI R a (rv (encR R s)) :=
  ⟨flow_encR R a s h.flow, fun hc => end_encR R a s (h.atEnd hc), h.q, h.cl⟩

theorem ri_finR (a : σ) (s : St σ τ) (h : RI R a (rv s)) : RI R a (rv (finR R s)) :=
  ⟨flow_finR R a s h.flow, fun hc => end_finR R a s (h.atEnd hc), h.q, h.cl⟩

/-- `finish_read`. -/
theorem flow_finishRead (a : σ) (s : St σ τ) (h : Flow R a (rv s)) :
    Flow R a (rv (finishRead R s)) ∧ (TakesAll R → (finishRead R s).readin = [] ∧
      Ended R a (finishRead R s).got ((finishRead R s).returned ++ (finishRead R s).inbuf ++ (finishRead R s).readout) (finishRead R s).rc) := by
  have h1 := flow_encR R a s h
  have h2 := flow_finR R a _ h1
  have e := rv_checkR0 R (finR R (encR R s))
  unfold finishRead
  generalize hX : checkR0 R (finR R (encR R s)) = X at e ⊢
  have h3 : Flow R a (rv X) := by rw [e]; exact h2
  have hro : X.returned ++ (X.inbuf ++ X.readout) ++ [] = X.returned ++ X.inbuf ++ X.readout := by simp
  refine ⟨?_, fun hall => ?_⟩
  · obtain ⟨fed, a1, a2⟩ := h3
    refine ⟨fed, a1, ?_⟩
    show Runs R a fed (X.returned ++ (X.inbuf ++ X.readout) ++ []) X.rc
    rw [hro]; exact a2
  · have hr : X.readin = [] := by
      have : X.readin = (encR R s).readin := congrArg RV.readin e
      rw [this]; exact drop_all R hall _ _
    refine ⟨hr, ?_⟩
    show Ended R a X.got (X.returned ++ (X.inbuf ++ X.readout) ++ []) X.rc
    rw [hro]
    obtain ⟨fed, a1, a2⟩ := h1
    have hre : (encR R s).readin = [] := drop_all R hall _ _
    have a1' : (encR R s).got = fed := by
      have := a1
      show (rv (encR R s)).got = fed
      rw [a1, show (rv (encR R s)).readin = [] from hre, List.append_nil]
    have hE := Ended.finish a2
    have g1 : X.got = (encR R s).got := congrArg RV.got e
    have g2 : X.returned ++ X.inbuf ++ X.readout = (encR R s).returned ++ (encR R s).inbuf ++ (encR R s).readout ++ (R.finish (encR R s).rc).2 := by
      have e1 : X.returned = (encR R s).returned := congrArg RV.returned e
      have e2 : X.inbuf = (encR R s).inbuf := congrArg RV.inbuf e
      have e3 : X.readout = (encR R s).readout ++ (R.finish (encR R s).rc).2 := congrArg RV.readout e
      rw [e1, e2, e3, ← List.append_assoc]
    have g3 : X.rc = (R.finish (encR R s).rc).1 := congrArg RV.rc e
    rw [g1, g2, g3, a1']
    exact hE

theorem isClosing_finishRead (s : St σ τ) : (finishRead R s).queueMin = s.queueMin ∧ (finishRead R s).isClosing = s.isClosing := by
  have e := rv_checkR0 R (finR R (encR R s))
  unfold finishRead
  exact ⟨congrArg RV.queueMin e, congrArg RV.isClosing e⟩

theorem ri_close (a : σ) (s : St σ τ) (h : RI R a (rv s)) : RI R a (rv (close R W dev s)) := by
  unfold close
  by_cases hc : s.isClosing = true
  · rw [if_pos hc]; exact h
  · rw [if_neg hc]
    dsimp only
    have hf := flow_finishRead R a { s with isClosing := true } h.flow
    have hq := isClosing_finishRead (R := R) { s with isClosing := true }
    generalize hX : finishRead R { s with isClosing := true } = X at hf hq
    have e : rv (closeFlush W dev (push0 W dev true true X)) = rv X := by rw [rv_closeFlush, rv_push0]
    generalize hY : closeFlush W dev (push0 W dev true true X) = Y at e
    have e1 : Y.got = X.got := congrArg RV.got e
    have e2 : Y.readin = X.readin := congrArg RV.readin e
    have e3 : Y.returned = X.returned := congrArg RV.returned e
    have e4 : Y.inbuf = X.inbuf := congrArg RV.inbuf e
    have e5 : Y.readout = X.readout := congrArg RV.readout e
    have e6 : Y.rc = X.rc := congrArg RV.rc e
    have e7 : Y.queueMin = X.queueMin := congrArg RV.queueMin e
    have e8 : Y.isClosing = X.isClosing := congrArg RV.isClosing e
    refine ⟨?_, fun _ => ⟨rfl, fun hall => ?_⟩, ?_, fun _ => e8.trans hq.2⟩
    · obtain ⟨fed, a1, a2⟩ := hf.1
      refine ⟨fed, ?_, ?_⟩
      · show Y.got = fed ++ Y.readin
        rw [e1, e2]; exact a1
      · show Runs R a fed (Y.returned ++ Y.inbuf ++ Y.readout) Y.rc
        rw [e3, e4, e5, e6]; exact a2
    · obtain ⟨a1, a2⟩ := hf.2 hall
      refine ⟨?_, ?_⟩
      · show Y.readin = []
        rw [e2]; exact a1
      · show Ended R a Y.got (Y.returned ++ Y.inbuf ++ Y.readout) Y.rc
        rw [e1, e3, e4, e5, e6]; exact a2
    · show Y.queueMin = 0
      rw [e7, hq.1]; exact h.q

theorem ri_autoclose (a : σ) (s : St σ τ) (h : RI R a (rv s)) : RI R a (rv (autoclose R W dev s)) := by
  unfold autoclose; split
  · exact ri_close R W dev a s h
  · exact h

theorem ri_seterr (a : σ) (s : St σ τ) (h : RI R a (rv s)) : RI R a (rv (seterr R W dev s)) := by
  unfold seterr; split
  · exact h
  · exact ri_close R W dev a { s with err := true } h

theorem ri_checkR (a : σ) (s : St σ τ) (h : RI R a (rv s)) : RI R a (rv (checkR R W dev s)) := by
  unfold checkR; split
  · exact h
  · exact ri_autoclose R W dev a { seterr R W dev s with stopRead := true } (ri_seterr R W dev a s h)

theorem ri_checkW (a : σ) (s : St σ τ) (h : RI R a (rv s)) : RI R a (rv (checkW R W dev s)) := by
  unfold checkW; split
  · exact h
  · exact ri_seterr R W dev a s h

theorem ri_push (a : σ) (flush fin : Bool) (s : St σ τ) (h : RI R a (rv s)) : RI R a (rv (push R W dev flush fin s)) := by
  unfold push; dsimp only
  rw [rv_lowWrite]
  exact ri_checkW R W dev a _ (by rw [rv_encW]; exact h)

theorem ri_lowRead (a : σ) (size : Nat) (s : St σ τ) (h : RI R a (rv s)) : RI R a (rv (lowRead dev size s).1) := by
  unfold lowRead; dsimp only
  refine ⟨?_, fun hc => ?_, h.q, h.cl⟩
  · obtain ⟨fed, h1, h2⟩ := h.flow
    refine ⟨fed, ?_, h2⟩
    show s.got ++ _ = fed ++ (s.readin ++ _)
    rw [← List.append_assoc, ← show s.got = fed ++ s.readin from h1]
  · have hE := h.atEnd hc
    have hl : s.lowClosed = true := hE.1
    refine ⟨hE.1, fun hall => ?_⟩
    obtain ⟨e1, e2⟩ := hE.2 hall
    have hd : (if (s.lowClosed || size == 0) = true then ([] : List Byte) else (dev s.tick).data.take size) = [] := by simp [hl]
    rw [hd]
    show s.readin ++ [] = [] ∧ Ended R a (s.got ++ []) _ _
    rw [List.append_nil, List.append_nil]
    exact ⟨e1, e2⟩

theorem ri_pull (a : σ) (size : Nat) (s : St σ τ) (h : RI R a (rv s)) : RI R a (rv (pull R W dev size s)) := by
  unfold pull; dsimp only
  have h1 := ri_encR R a _ (ri_lowRead R dev a size s h)
  apply ri_checkR
  split
  · exact ri_close R W dev a _ (ri_finR R a _ h1)
  · split
    · exact ri_close R W dev a _ h1
    · exact h1

/-- Only one of the two buffers is used. -/
def One (s : St σ τ) : Prop := s.inbuf = [] ∨ s.readout = []

theorem one_close (s : St σ τ) (h : One s) : One (close R W dev s) := by
  unfold close
  by_cases hc : s.isClosing = true
  · rw [if_pos hc]; exact h
  · rw [if_neg hc]
    right
    dsimp only
    have e : rv (closeFlush W dev (push0 W dev true true (finishRead R { s with isClosing := true }))) = rv (finishRead R { s with isClosing := true }) := by
      rw [rv_closeFlush, rv_push0]
    exact (congrArg RV.readout e).trans rfl

theorem one_autoclose (s : St σ τ) (h : One s) : One (autoclose R W dev s) := by
  unfold autoclose; split
  · exact one_close R W dev s h
  · exact h

theorem one_seterr (s : St σ τ) (h : One s) : One (seterr R W dev s) := by
  unfold seterr; split
  · exact h
  · exact one_close R W dev { s with err := true } h

theorem one_checkR (s : St σ τ) (h : One s) : One (checkR R W dev s) := by
  unfold checkR; split
  · exact h
  · exact one_autoclose R W dev { seterr R W dev s with stopRead := true } (one_seterr R W dev s h)

theorem one_pull (size : Nat) (s : St σ τ) (h : s.inbuf = []) : One (pull R W dev size s) := by
  unfold pull; dsimp only
  have h1 : One (encR R (lowRead dev size s).1) := Or.inl h
  have h2 : One (finR R (encR R (lowRead dev size s).1)) := Or.inl h
  apply one_checkR
  split
  · exact one_close R W dev _ h2
  · split
    · exact one_close R W dev _ h1
    · exact h1

/-- `uread`, and giving what it read to the user. -/
theorem ri_uread (a : σ) (size : Nat) (s : St σ τ) (hs : s.inbuf = []) (h : RI R a (rv s)) :
    RI R a (rv { (uread R W dev size s).1 with returned := (uread R W dev size s).1.returned ++ (uread R W dev size s).2 }) := by
  have h1 : RI R a (rv (if size ≠ 0 ∧ s.readout = [] then pull R W dev (if s.minRead > size then s.minRead else size) s else s)) ∧
      One (if size ≠ 0 ∧ s.readout = [] then pull R W dev (if s.minRead > size then s.minRead else size) s else s) := by
    split
    · exact ⟨ri_pull R W dev a _ s h, one_pull R W dev _ s hs⟩
    · exact ⟨h, Or.inl hs⟩
  unfold uread
  dsimp only
  generalize (if size ≠ 0 ∧ s.readout = [] then pull R W dev (if s.minRead > size then s.minRead else size) s else s) = X at h1 ⊢
  obtain ⟨h1, ho⟩ := h1
  have e : ∀ k, X.returned ++ X.readout.take k ++ X.inbuf ++ X.readout.drop k = X.returned ++ X.inbuf ++ X.readout := by
    intro k
    rcases ho with ho | ho
    · rw [ho]; simp
    · rw [ho]; simp
  refine ⟨?_, fun hc => ?_, h1.q, h1.cl⟩
  · obtain ⟨fed, a1, a2⟩ := h1.flow
    refine ⟨fed, a1, ?_⟩
    show Runs R a fed (X.returned ++ X.readout.take size ++ X.inbuf ++ X.readout.drop size) X.rc
    rw [e]; exact a2
  · obtain ⟨b1, b2⟩ := h1.atEnd hc
    refine ⟨b1, fun hall => ?_⟩
    obtain ⟨c1, c2⟩ := b2 hall
    refine ⟨c1, ?_⟩
    show Ended R a X.got (X.returned ++ X.readout.take size ++ X.inbuf ++ X.readout.drop size) X.rc
    rw [e]; exact c2

theorem ri_read (a : σ) (n : Nat) (s : St σ τ) (h : RI R a (rv s)) : RI R a (rv (read R W dev n s)) := by
  have hq : s.queueMin = 0 := h.q
  have hf : fill R W dev s = s := by unfold fill; rw [if_neg (by omega)]
  unfold read
  rw [hf]
  dsimp only
  rw [if_neg (by omega)]
  split
  · next hi =>
    apply ri_autoclose
    exact ri_uread R W dev a n s (by simpa using hi) h
  · apply ri_autoclose
    have e : s.returned ++ s.inbuf.take n ++ s.inbuf.drop n ++ s.readout = s.returned ++ s.inbuf ++ s.readout := by simp
    refine ⟨?_, fun hc => ?_, hq, h.cl⟩
    · obtain ⟨fed, a1, a2⟩ := h.flow
      refine ⟨fed, a1, ?_⟩
      show Runs R a fed (s.returned ++ s.inbuf.take n ++ s.inbuf.drop n ++ s.readout) s.rc
      rw [e]; exact a2
    · obtain ⟨b1, b2⟩ := h.atEnd hc
      refine ⟨b1, fun hall => ?_⟩
      obtain ⟨c1, c2⟩ := b2 hall
      refine ⟨c1, ?_⟩
      show Ended R a s.got (s.returned ++ s.inbuf.take n ++ s.inbuf.drop n ++ s.readout) s.rc
      rw [e]; exact c2

theorem ri_uwrite (a : σ) (b : List Byte) (s : St σ τ) (h : RI R a (rv s)) : RI R a (rv (uwrite R W dev b s)) :=
  ri_push R W dev a false false { s with writein := s.writein ++ b } h

theorem ri_flushOutbuf (a : σ) (s : St σ τ) (h : RI R a (rv s)) : RI R a (rv (flushOutbuf R W dev s)) := by
  unfold flushOutbuf
  split
  · apply ri_autoclose; split
    · exact h
    · exact h
  · dsimp only
    apply ri_autoclose
    have h1 : RI R a (rv (if isok s then uwrite R W dev (s.outbuf.take (max 1 (dev s.tick).chunk)) { s with outbuf := s.outbuf.drop (max 1 (dev s.tick).chunk) } else s)) := by
      split
      · exact ri_uwrite R W dev a _ _ h
      · exact h
    generalize (if isok s then uwrite R W dev (s.outbuf.take (max 1 (dev s.tick).chunk)) { s with outbuf := s.outbuf.drop (max 1 (dev s.tick).chunk) } else s) = X at h1 ⊢
    split
    · exact h1
    · exact h1

theorem ri_flush (a : σ) (s : St σ τ) (h : RI R a (rv s)) : RI R a (rv (flush R W dev s)) := by
  unfold flush
  split
  · exact h
  · dsimp only
    have h1 : RI R a (rv (cloneFlush dev (push R W dev true false { s with flushing := true, wantFlush := true })).1) := by
      rw [rv_cloneFlush]; exact ri_push R W dev a true false { s with flushing := true, wantFlush := true } h
    split
    · exact ri_flushOutbuf R W dev a _ h1
    · exact h1

theorem ri_write (a : σ) (b : List Byte) (s : St σ τ) (h : RI R a (rv s)) : RI R a (rv (write R W dev b s)) := by
  unfold write
  split
  · exact h
  · dsimp only
    have h1 : RI R a (rv (if (!s.delayed && s.outbuf.isEmpty) = true then uwrite R W dev b { s with accepted := s.accepted ++ b } else
        { s with accepted := s.accepted ++ b, outbuf := s.outbuf ++ b })) := by
      split
      · exact ri_uwrite R W dev a _ { s with accepted := s.accepted ++ b } h
      · exact h
    generalize (if (!s.delayed && s.outbuf.isEmpty) = true then uwrite R W dev b { s with accepted := s.accepted ++ b } else
        { s with accepted := s.accepted ++ b, outbuf := s.outbuf ++ b }) = X at h1 ⊢
    split
    · split
      · exact ri_flush R W dev a _ h1
      · exact ri_flushOutbuf R W dev a _ h1
    · exact h1

theorem ri_poll (a : σ) (s : St σ τ) (h : RI R a (rv s)) : RI R a (rv (poll R W dev s)) := by
  unfold poll; dsimp only
  have h1 : RI R a (rv (if s.readout = [] then s else pull R W dev 0 s)) := by
    split
    · exact h
    · exact ri_pull R W dev a 0 s h
  have h2 := ri_push R W dev a false false _ h1
  generalize push R W dev false false (if s.readout = [] then s else pull R W dev 0 s) = X at h2 ⊢
  split
  · exact ri_flush R W dev a _ h2
  · exact h2

theorem ri_step (a : σ) (s : St σ τ) (o : Op) (ho : ∀ n, o ≠ .queuemin n) (h : RI R a (rv s)) : RI R a (rv (step R W dev s o)) := by
  cases o with
  | read n => exact ri_read R W dev a n s h
  | write b => exact ri_write R W dev a b s h
  | flush => exact ri_flush R W dev a s h
  | close => exact ri_close R W dev a s h
  | noread => exact ri_autoclose R W dev a { s with stopRead := true } h
  | nowrite => exact ri_autoclose R W dev a { s with lowStop := s.lowStop || s.outbuf.isEmpty, stopWrite := true } h
  | poll => exact ri_poll R W dev a s h
  | delay on => exact h
  | autoFlush on => exact h
  | queuemin n => exact absurd rfl (ho n)
  | minRead n => exact h

theorem ri_run (a : σ) (l : List Op) (s : St σ τ) (ho : ∀ n, Op.queuemin n ∉ l) (h : RI R a (rv s)) : RI R a (rv (run R W dev s l)) := by
  induction l generalizing s with
  | nil => exact h
  | cons o l ih =>
    refine ih (step R W dev s o) (fun n m => ho n (List.mem_cons_of_mem _ m)) (ri_step R W dev a s o (fun n e => ho n ?_) h)
    rw [← e]; simp

theorem ri_new (a : σ) (b : τ) : RI R a (rv (new a b)) :=
  ⟨⟨[], rfl, Runs.start⟩, fun h => Bool.noConfusion h, rfl, fun h => Bool.noConfusion h⟩

/-! ## The writing half -/

/-- The stream below and the chain do their work. -/
structure Good : Prop where
  take : ∀ t n, n ≤ (dev t).take n
  err : ∀ t, (dev t).err = false
  ok : ∀ c, W.ok c = true

/-- The bytes that were accepted went into the chain, and what came out went below. -/
structure Flowing (b : τ) (s : St σ τ) : Prop where
  lowStop : s.lowStop = false
  lowClosed : s.lowClosed = false
  stop : s.stopWrite = false
  flow : ∃ fed, s.accepted = fed ++ s.writein ++ s.outbuf ∧ Runs W b fed s.below s.wc

/-- What is known while the stream is open. -/
structure Open (b : τ) (s : St σ τ) : Prop where
  closed : s.closed = false
  err : s.err = false
  lowErr : s.lowErr = false
  flowing : Flowing W b s

/-- What is known when it was closed. -/
structure Shut (b : τ) (s : St σ τ) : Prop where
  closed : s.closed = true
  lowClosed : s.lowClosed = true
  stop : s.stopWrite = false
  flow : ∃ fed left c, s.accepted = fed ++ left ∧ Runs W b fed s.below c
  atEnd : TakesAll W → ∃ c, Ended W b s.accepted s.below c

def WI (b : τ) (s : St σ τ) : Prop := (s.isClosing = false ∧ Open W b s) ∨ (s.isClosing = true ∧ Shut W b s)

variable {W dev}

theorem lowWrite_all (g : Good W dev) (t : List Byte) (s : St σ τ) (h1 : s.lowStop = false) (h2 : s.lowClosed = false) :
    (lowWrite dev t s).below = s.below ++ t := by
  unfold lowWrite
  have := g.take s.tick t.length
  simp only [h1, h2, Bool.or_self, Bool.false_eq_true, if_false]
  rw [List.take_of_length_le (by omega)]

theorem checkW0_id (g : Good W dev) (s : St σ τ) : checkW0 W s = s := by
  unfold checkW0; rw [if_pos (g.ok _)]

theorem checkW_id (g : Good W dev) (s : St σ τ) : checkW R W dev s = s := by
  unfold checkW; rw [if_pos (g.ok _)]

theorem push_eq (g : Good W dev) (flush fin : Bool) (s : St σ τ) : push R W dev flush fin s = push0 W dev flush fin s := by
  unfold push push0; dsimp only; rw [checkW_id R g, checkW0_id g]

/-- What `push` leaves as it is. -/
theorem push0_frame (g : Good W dev) (flush fin : Bool) (s : St σ τ) : let p := push0 W dev flush fin s
    p.lowStop = s.lowStop ∧ p.lowClosed = s.lowClosed ∧ p.stopWrite = s.stopWrite ∧ p.closed = s.closed ∧ p.err = s.err ∧
    p.isClosing = s.isClosing ∧ p.accepted = s.accepted ∧ p.lowErr = false ∧ p.flushing = s.flushing := by
  unfold push0 encW
  dsimp only
  rw [checkW0_id g]
  cases flush <;> cases fin <;> exact ⟨rfl, rfl, rfl, rfl, rfl, rfl, rfl, g.err _, rfl⟩

theorem push0_shut (g : Good W dev) (flush fin : Bool) (s : St σ τ) (h : s.lowClosed = true) :
    (push0 W dev flush fin s).below = s.below := by
  unfold push0 encW lowWrite
  dsimp only
  rw [checkW0_id g]
  cases flush <;> cases fin <;> simp [h]

/-- `push` moves bytes through the chain. -/
theorem push0_flow (g : Good W dev) (b : τ) (flush fin : Bool) (s : St σ τ) (h : Flowing W b s) :
    Flowing W b (push0 W dev flush fin s) ∧ (flush = true → (push0 W dev flush fin s).outbuf = []) ∧
    (flush = true → TakesAll W → (push0 W dev flush fin s).writein = []) ∧
    (flush = true → fin = true → TakesAll W → Ended W b (push0 W dev flush fin s).accepted (push0 W dev flush fin s).below (push0 W dev flush fin s).wc) := by
  obtain ⟨h1, h2, h3, fed, h4, h5⟩ := h
  -- the state in which the chain is called
  obtain ⟨w, o, hw, hflush⟩ : ∃ w o, (s.accepted = fed ++ w ++ o ∧ (flush = true → o = [])) ∧
      (if flush then { s with writein := s.writein ++ s.outbuf, outbuf := [] } else s) = { s with writein := w, outbuf := o } := by
    cases flush
    · exact ⟨s.writein, s.outbuf, ⟨h4, fun h => by cases h⟩, rfl⟩
    · exact ⟨s.writein ++ s.outbuf, [], ⟨by rw [h4]; simp, fun _ => rfl⟩, rfl⟩
  have hr := Runs.encode flush w h5
  generalize hx : W.encode s.wc flush w = x at hr
  have hacc : s.accepted = (fed ++ w.take x.2.1) ++ w.drop x.2.1 ++ o := by
    rw [List.append_assoc fed, List.take_append_drop]; exact hw.1
  have hdrop : flush = true → TakesAll W → w.drop x.2.1 = [] := by
    intro hf hall
    have := drop_all W hall s.wc w
    rw [← hf, hx] at this; exact this
  cases fin with
  | false =>
    have e : push0 W dev flush false s = lowWrite dev x.2.2 { s with writein := w.drop x.2.1, outbuf := o, wc := x.1 } := by
      unfold push0 encW; dsimp only
      rw [checkW0_id g, hflush]
      dsimp only
      simp only [Bool.false_eq_true, if_false]
      rw [hx]
    rw [e]
    refine ⟨⟨h1, h2, h3, _, hacc, ?_⟩, hw.2, fun hf hall => hdrop hf hall, fun _ h => by cases h⟩
    rw [lowWrite_all g]
    · exact hr
    · exact h1
    · exact h2
  | true =>
    have e : push0 W dev flush true s = lowWrite dev (x.2.2 ++ (W.finish x.1).2) { s with writein := w.drop x.2.1, outbuf := o, wc := (W.finish x.1).1 } := by
      unfold push0 encW; dsimp only
      rw [checkW0_id g, hflush]
      dsimp only
      simp only [if_true]
      rw [hx]
    rw [e]
    refine ⟨⟨h1, h2, h3, _, hacc, ?_⟩, hw.2, fun hf hall => hdrop hf hall, fun hf _ hall => ?_⟩
    · rw [lowWrite_all g, ← List.append_assoc]
      · exact Runs.finish hr
      · exact h1
      · exact h2
    · rw [lowWrite_all g _ _ (by exact h1) (by exact h2), ← List.append_assoc]
      have ha : s.accepted = fed ++ w.take x.2.1 := by rw [hacc, hdrop hf hall, hw.2 hf]; simp
      show Ended W b s.accepted _ _
      rw [ha]; exact Ended.finish hr

/-- `push` with nothing in the buffers, after the end. -/
theorem push0_end (g : Good W dev) (b : τ) (s : St σ τ) (h : Flowing W b s) (hw : s.writein = []) (ho : s.outbuf = [])
    (hE : Ended W b s.accepted s.below s.wc) :
    Ended W b (push0 W dev true false s).accepted (push0 W dev true false s).below (push0 W dev true false s).wc := by
  have e : push0 W dev true false s = lowWrite dev (W.encode s.wc true []).2.2
      { s with writein := [], outbuf := [], wc := (W.encode s.wc true []).1 } := by
    unfold push0 encW; dsimp only
    rw [checkW0_id g, hw, ho]
    simp
  rw [e, lowWrite_all g _ _ (by exact h.lowStop) (by exact h.lowClosed)]
  exact Ended.nothing true hE

theorem cloneFlush_flow (g : Good W dev) (b : τ) (s : St σ τ) (h : Flowing W b s) : let p := (cloneFlush dev s).1
    Flowing W b p ∧ p.accepted = s.accepted ∧ p.below = s.below ∧ p.wc = s.wc ∧ p.closed = s.closed ∧ p.err = s.err ∧ p.lowErr = false ∧
    p.isClosing = s.isClosing ∧ p.outbuf = s.outbuf ∧ p.writein = s.writein := by
  unfold cloneFlush
  simp only [h.stop, Bool.false_and, Bool.false_eq_true, if_false]
  exact ⟨⟨h.lowStop, h.lowClosed, rfl, h.flow⟩, trivial, trivial, trivial, trivial, trivial, g.err _, trivial, trivial, trivial⟩

theorem cloneFlush_shut (s : St σ τ) : let p := (cloneFlush dev s).1
    p.accepted = s.accepted ∧ p.below = s.below ∧ p.closed = s.closed ∧ p.isClosing = s.isClosing ∧ p.lowClosed = s.lowClosed ∧ p.stopWrite = s.stopWrite := by
  unfold cloneFlush
  dsimp only
  split <;> exact ⟨rfl, rfl, rfl, rfl, rfl, rfl⟩

theorem wv_finishRead (s : St σ τ) : let p := finishRead R s
    p.outbuf = s.outbuf ∧ p.writein = s.writein ∧ p.wc = s.wc ∧ p.accepted = s.accepted ∧ p.below = s.below ∧ p.isClosing = s.isClosing ∧
    p.lowStop = s.lowStop ∧ p.lowClosed = s.lowClosed ∧ p.stopWrite = s.stopWrite := by
  unfold finishRead checkR0 setErr
  dsimp only
  split
  · exact ⟨rfl, rfl, rfl, rfl, rfl, rfl, rfl, rfl, rfl⟩
  · split <;> exact ⟨rfl, rfl, rfl, rfl, rfl, rfl, rfl, rfl, rfl⟩

/-- What is known in the course of closing. -/
structure Closing (b : τ) (s : St σ τ) : Prop where
  flowing : Flowing W b s
  atEnd : TakesAll W → s.writein = [] ∧ s.outbuf = [] ∧ Ended W b s.accepted s.below s.wc

theorem closing_closeFlush (g : Good W dev) (b : τ) (s : St σ τ) (h : Closing (W := W) b s) (hc : s.isClosing = true) :
    Closing (W := W) b (closeFlush W dev s) ∧ (closeFlush W dev s).isClosing = true := by
  unfold closeFlush
  by_cases hf : s.flushing = true
  · rw [if_pos hf]; exact ⟨h, hc⟩
  · rw [if_neg hf]
    dsimp only
    have h0 : Flowing W b { s with wantFlush := true } := ⟨h.flowing.lowStop, h.flowing.lowClosed, h.flowing.stop, h.flowing.flow⟩
    have h1 := push0_flow g b true false { s with wantFlush := true } h0
    have h2 := push0_frame g true false { s with wantFlush := true }
    have h3 : TakesAll W → Ended W b _ _ _ := fun hall => push0_end g b { s with wantFlush := true } h0 (h.atEnd hall).1 (h.atEnd hall).2.1 (h.atEnd hall).2.2
    generalize push0 W dev true false { s with wantFlush := true } = P at h1 h2 h3
    have h4 := cloneFlush_flow g b P h1.1
    have key : Closing (W := W) b (cloneFlush dev P).1 ∧ (cloneFlush dev P).1.isClosing = true := by
      refine ⟨⟨h4.1, fun hall => ?_⟩, ?_⟩
      · refine ⟨?_, ?_, ?_⟩
        · rw [h4.2.2.2.2.2.2.2.2.2]; exact h1.2.2.1 rfl hall
        · rw [h4.2.2.2.2.2.2.2.2.1]; exact h1.2.1 rfl
        · rw [h4.2.1, h4.2.2.1, h4.2.2.2.1]; exact h3 hall
      · rw [h4.2.2.2.2.2.2.2.1, h2.2.2.2.2.2.1]; exact hc
    split
    · exact ⟨⟨⟨key.1.flowing.lowStop, key.1.flowing.lowClosed, key.1.flowing.stop, key.1.flowing.flow⟩, key.1.atEnd⟩, key.2⟩
    · exact key

theorem wi_close (g : Good W dev) (b : τ) (s : St σ τ) (h : WI W b s ∨ (s.isClosing = false ∧ Flowing W b s)) :
    WI W b (close R W dev s) := by
  unfold close
  by_cases hc : s.isClosing = true
  · rw [if_pos hc]
    rcases h with h | h
    · exact h
    · rw [hc] at h; cases h.1
  · rw [if_neg hc]
    dsimp only
    have hf : Flowing W b s := by
      rcases h with (h | h) | h
      · exact h.2.flowing
      · exact absurd h.1 hc
      · exact h.2
    have hx := wv_finishRead R { s with isClosing := true }
    generalize finishRead R { s with isClosing := true } = X at hx
    obtain ⟨x1, x2, x3, x4, x5, x6, x7, x8, x9⟩ := hx
    have hX : Flowing W b X := by
      refine ⟨x7.trans hf.lowStop, x8.trans hf.lowClosed, x9.trans hf.stop, ?_⟩
      rw [x1, x2, x3, x4, x5]; exact hf.flow
    have h1 := push0_flow g b true true X hX
    have h2 := push0_frame g true true X
    generalize push0 W dev true true X = P at h1 h2
    have h3 : Closing (W := W) b P := ⟨h1.1, fun hall => ⟨h1.2.2.1 rfl hall, h1.2.1 rfl, h1.2.2.2 rfl rfl hall⟩⟩
    have hPc : P.isClosing = true := h2.2.2.2.2.2.1.trans x6
    obtain ⟨h4, h5⟩ := closing_closeFlush g b P h3 hPc
    generalize closeFlush W dev P = Q at h4 h5
    right
    refine ⟨h5, ⟨rfl, rfl, h4.flowing.stop, ?_, fun hall => ⟨Q.wc, (h4.atEnd hall).2.2⟩⟩⟩
    obtain ⟨fed, a1, a2⟩ := h4.flowing.flow
    exact ⟨fed, Q.writein ++ Q.outbuf, Q.wc, by rw [← List.append_assoc]; exact a1, a2⟩

theorem wi_autoclose (g : Good W dev) (b : τ) (s : St σ τ) (h : WI W b s) : WI W b (autoclose R W dev s) := by
  unfold autoclose; split
  · exact wi_close R g b s (Or.inl h)
  · exact h

theorem wi_seterr (g : Good W dev) (b : τ) (s : St σ τ) (h : WI W b s) : WI W b (seterr R W dev s) := by
  unfold seterr; split
  · exact h
  · apply wi_close R g b
    rcases h with h | h
    · exact Or.inr ⟨h.1, ⟨h.2.flowing.lowStop, h.2.flowing.lowClosed, h.2.flowing.stop, h.2.flowing.flow⟩⟩
    · exact Or.inl (Or.inr ⟨h.1, ⟨h.2.closed, h.2.lowClosed, h.2.stop, h.2.flow, h.2.atEnd⟩⟩)

/-- Changes that are of no account for writing. -/
theorem wi_same (b : τ) (s t : St σ τ) (h : WI W b s)
    (e : t.outbuf = s.outbuf ∧ t.writein = s.writein ∧ t.wc = s.wc ∧ t.accepted = s.accepted ∧ t.below = s.below ∧ t.isClosing = s.isClosing ∧
      t.lowStop = s.lowStop ∧ t.lowClosed = s.lowClosed ∧ t.stopWrite = s.stopWrite ∧ t.closed = s.closed ∧ t.err = s.err ∧ (t.lowErr = s.lowErr ∨ t.lowErr = false)) :
    WI W b t := by
  obtain ⟨e1, e2, e3, e4, e5, e6, e7, e8, e9, e10, e11, e12⟩ := e
  rcases h with ⟨h1, h2⟩ | ⟨h1, h2⟩
  · left
    refine ⟨e6.trans h1, ⟨e10.trans h2.closed, e11.trans h2.err, ?_, ⟨e7.trans h2.flowing.lowStop, e8.trans h2.flowing.lowClosed,
      e9.trans h2.flowing.stop, ?_⟩⟩⟩
    · rcases e12 with e | e
      · exact e.trans h2.lowErr
      · exact e
    · rw [e1, e2, e3, e4, e5]; exact h2.flowing.flow
  · right
    refine ⟨e6.trans h1, ⟨e10.trans h2.closed, e8.trans h2.lowClosed, e9.trans h2.stop, ?_, ?_⟩⟩
    · rw [e4, e5]; exact h2.flow
    · rw [e4, e5]; exact h2.atEnd

theorem wi_checkR (g : Good W dev) (b : τ) (s : St σ τ) (h : WI W b s) : WI W b (checkR R W dev s) := by
  unfold checkR; split
  · exact h
  · apply wi_autoclose R g b
    exact wi_same b _ _ (wi_seterr R g b s h) ⟨rfl, rfl, rfl, rfl, rfl, rfl, rfl, rfl, rfl, rfl, rfl, Or.inl rfl⟩

theorem wi_push (g : Good W dev) (b : τ) (flush fin : Bool) (s : St σ τ) (h : WI W b s) : WI W b (push R W dev flush fin s) := by
  rw [push_eq R g]
  obtain ⟨f1, f2, f3, f4, f5, f6, f7, f8, f9⟩ := push0_frame g flush fin s
  rcases h with ⟨h1, h2⟩ | ⟨h1, h2⟩
  · left
    exact ⟨f6.trans h1, ⟨f4.trans h2.closed, f5.trans h2.err, f8, (push0_flow g b flush fin s h2.flowing).1⟩⟩
  · right
    have hb := push0_shut g flush fin s h2.lowClosed
    refine ⟨f6.trans h1, ⟨f4.trans h2.closed, f2.trans h2.lowClosed, f3.trans h2.stop, ?_, ?_⟩⟩
    · rw [f7, hb]; exact h2.flow
    · rw [f7, hb]; exact h2.atEnd

theorem wi_pull (g : Good W dev) (b : τ) (size : Nat) (s : St σ τ) (h : WI W b s) : WI W b (pull R W dev size s) := by
  unfold pull; dsimp only
  have h1 : WI W b (encR R (lowRead dev size s).1) :=
    wi_same b s _ h ⟨rfl, rfl, rfl, rfl, rfl, rfl, rfl, rfl, rfl, rfl, rfl, Or.inr (g.err _)⟩
  have h2 : WI W b (finR R (encR R (lowRead dev size s).1)) :=
    wi_same b _ _ h1 ⟨rfl, rfl, rfl, rfl, rfl, rfl, rfl, rfl, rfl, rfl, rfl, Or.inl rfl⟩
  apply wi_checkR R g b
  split
  · exact wi_close R g b _ (Or.inl h2)
  · split
    · exact wi_close R g b _ (Or.inl h1)
    · exact h1

theorem wi_uread (g : Good W dev) (b : τ) (size : Nat) (s : St σ τ) (h : WI W b s) : WI W b (uread R W dev size s).1 := by
  have h1 : WI W b (if size ≠ 0 ∧ s.readout = [] then pull R W dev (if s.minRead > size then s.minRead else size) s else s) := by
    split
    · exact wi_pull R g b _ s h
    · exact h
  exact wi_same b _ _ h1 ⟨rfl, rfl, rfl, rfl, rfl, rfl, rfl, rfl, rfl, rfl, rfl, Or.inl rfl⟩

theorem wi_fill (g : Good W dev) (b : τ) (s : St σ τ) (h : WI W b s) : WI W b (fill R W dev s) := by
  unfold fill; split
  · dsimp only
    have h0 : WI W b { s with inbuf := s.inbuf ++ List.replicate (s.queueMin - s.inbuf.length) (dev s.tick).junk } :=
      wi_same b s _ h ⟨rfl, rfl, rfl, rfl, rfl, rfl, rfl, rfl, rfl, rfl, rfl, Or.inl rfl⟩
    have h1 := wi_uread R g b (s.queueMin - s.inbuf.length) _ h0
    exact wi_same b _ _ h1 ⟨rfl, rfl, rfl, rfl, rfl, rfl, rfl, rfl, rfl, rfl, rfl, Or.inl rfl⟩
  · exact h

theorem wi_read (g : Good W dev) (b : τ) (n : Nat) (s : St σ τ) (h : WI W b s) : WI W b (read R W dev n s) := by
  unfold read
  have h1 := wi_fill R g b s h
  generalize fill R W dev s = X at h1
  dsimp only
  split
  · exact wi_autoclose R g b X h1
  · split
    · apply wi_autoclose R g b
      exact wi_same b _ _ (wi_uread R g b n X h1) ⟨rfl, rfl, rfl, rfl, rfl, rfl, rfl, rfl, rfl, rfl, rfl, Or.inl rfl⟩
    · apply wi_autoclose R g b
      exact wi_same b _ _ h1 ⟨rfl, rfl, rfl, rfl, rfl, rfl, rfl, rfl, rfl, rfl, rfl, Or.inl rfl⟩

theorem isok_open (b : τ) (s : St σ τ) (h : WI W b s) : isok s = true ↔ s.isClosing = false := by
  rcases h with ⟨h1, h2⟩ | ⟨h1, h2⟩
  · simp [isok, h1, h2.closed, h2.err, h2.lowErr]
  · simp [isok, h1, h2.closed]

theorem wi_flushOutbuf (g : Good W dev) (b : τ) (s : St σ τ) (h : WI W b s) : WI W b (flushOutbuf R W dev s) := by
  unfold flushOutbuf
  split
  · apply wi_autoclose R g b
    split
    · exact wi_same b s _ h ⟨rfl, rfl, rfl, rfl, rfl, rfl, rfl, rfl, rfl, rfl, rfl, Or.inl rfl⟩
    · exact h
  · dsimp only
    apply wi_autoclose R g b
    have h1 : WI W b (if isok s then uwrite R W dev (s.outbuf.take (max 1 (dev s.tick).chunk)) { s with outbuf := s.outbuf.drop (max 1 (dev s.tick).chunk) } else s) := by
      split
      · next hok =>
        have hc := (isok_open b s h).mp hok
        apply wi_push R g b
        rcases h with ⟨_, h2⟩ | ⟨h1, _⟩
        · left
          refine ⟨hc, ⟨h2.closed, h2.err, h2.lowErr, ⟨h2.flowing.lowStop, h2.flowing.lowClosed, h2.flowing.stop, ?_⟩⟩⟩
          obtain ⟨fed, a1, a2⟩ := h2.flowing.flow
          refine ⟨fed, ?_, a2⟩
          show s.accepted = fed ++ (s.writein ++ s.outbuf.take _) ++ s.outbuf.drop _
          rw [a1, List.append_assoc, List.append_assoc, List.append_assoc, List.take_append_drop]
        · rw [hc] at h1; cases h1
      · exact h
    generalize (if isok s then uwrite R W dev (s.outbuf.take (max 1 (dev s.tick).chunk)) { s with outbuf := s.outbuf.drop (max 1 (dev s.tick).chunk) } else s) = X at h1 ⊢
    split
    · exact h1
    · next hok =>
      rcases h1 with ⟨h1, h2⟩ | ⟨h1, h2⟩
      · exact absurd ((isok_open b X (Or.inl ⟨h1, h2⟩)).mpr h1) hok
      · exact Or.inr ⟨h1, ⟨h2.closed, h2.lowClosed, h2.stop, h2.flow, h2.atEnd⟩⟩

theorem wi_cloneFlush (g : Good W dev) (b : τ) (s : St σ τ) (h : WI W b s) : WI W b (cloneFlush dev s).1 := by
  rcases h with ⟨h1, h2⟩ | ⟨h1, h2⟩
  · left
    obtain ⟨c1, c2, c3, c4, c5, c6, c7, c8, c9⟩ := cloneFlush_flow g b s h2.flowing
    exact ⟨c8.trans h1, ⟨c5.trans h2.closed, c6.trans h2.err, c7, c1⟩⟩
  · right
    obtain ⟨c1, c2, c3, c4, c5, c6⟩ := cloneFlush_shut (dev := dev) s
    refine ⟨c4.trans h1, ⟨c3.trans h2.closed, c5.trans h2.lowClosed, c6.trans h2.stop, ?_, ?_⟩⟩
    · rw [c1, c2]; exact h2.flow
    · rw [c1, c2]; exact h2.atEnd

theorem wi_flush (g : Good W dev) (b : τ) (s : St σ τ) (h : WI W b s) : WI W b (flush R W dev s) := by
  unfold flush
  split
  · exact h
  · dsimp only
    have h0 : WI W b { s with flushing := true, wantFlush := true } := wi_same b s _ h ⟨rfl, rfl, rfl, rfl, rfl, rfl, rfl, rfl, rfl, rfl, rfl, Or.inl rfl⟩
    have h1 := wi_cloneFlush g b _ (wi_push R g b true false _ h0)
    generalize cloneFlush dev (push R W dev true false { s with flushing := true, wantFlush := true }) = X at h1
    have h2 : WI W b (if X.2 then flushOutbuf R W dev X.1 else X.1) := by
      split
      · exact wi_flushOutbuf R g b _ h1
      · exact h1
    exact wi_same b _ _ h2 ⟨rfl, rfl, rfl, rfl, rfl, rfl, rfl, rfl, rfl, rfl, rfl, Or.inl rfl⟩

theorem wi_write (g : Good W dev) (b : τ) (t : List Byte) (s : St σ τ) (h : WI W b s) : WI W b (write R W dev t s) := by
  unfold write
  split
  · exact h
  · next hg =>
    dsimp only
    have hok : isok s = true := by
      cases hx : isok s with
      | true => rfl
      | false => simp [hx] at hg
    have hc := (isok_open b s h).mp hok
    have h2 : Open W b s := by
      rcases h with ⟨_, h2⟩ | ⟨h1, _⟩
      · exact h2
      · rw [hc] at h1; cases h1
    obtain ⟨fed, a1, a2⟩ := h2.flowing.flow
    have h1 : WI W b (if (!s.delayed && s.outbuf.isEmpty) = true then uwrite R W dev t { s with accepted := s.accepted ++ t } else
        { s with accepted := s.accepted ++ t, outbuf := s.outbuf ++ t }) := by
      split
      · next hd =>
        have ho : s.outbuf = [] := by
          simp only [Bool.and_eq_true, List.isEmpty_iff] at hd; exact hd.2
        apply wi_push R g b
        left
        refine ⟨hc, ⟨h2.closed, h2.err, h2.lowErr, ⟨h2.flowing.lowStop, h2.flowing.lowClosed, h2.flowing.stop, fed, ?_, a2⟩⟩⟩
        show s.accepted ++ t = fed ++ (s.writein ++ t) ++ s.outbuf
        rw [a1, ho]; simp
      · left
        refine ⟨hc, ⟨h2.closed, h2.err, h2.lowErr, ⟨h2.flowing.lowStop, h2.flowing.lowClosed, h2.flowing.stop, fed, ?_, a2⟩⟩⟩
        show s.accepted ++ t = fed ++ s.writein ++ (s.outbuf ++ t)
        rw [a1]; simp
    generalize (if (!s.delayed && s.outbuf.isEmpty) = true then uwrite R W dev t { s with accepted := s.accepted ++ t } else
        { s with accepted := s.accepted ++ t, outbuf := s.outbuf ++ t }) = X at h1 ⊢
    split
    · split
      · exact wi_flush R g b X h1
      · exact wi_flushOutbuf R g b X h1
    · exact h1

theorem wi_poll (g : Good W dev) (b : τ) (s : St σ τ) (h : WI W b s) : WI W b (poll R W dev s) := by
  unfold poll; dsimp only
  have h1 : WI W b (if s.readout = [] then s else pull R W dev 0 s) := by
    split
    · exact h
    · exact wi_pull R g b 0 s h
  have h2 := wi_push R g b false false _ h1
  generalize push R W dev false false (if s.readout = [] then s else pull R W dev 0 s) = X at h2 ⊢
  split
  · exact wi_flush R g b _ h2
  · exact h2

theorem wi_step (g : Good W dev) (b : τ) (s : St σ τ) (o : Op) (ho : o ≠ .nowrite) (h : WI W b s) : WI W b (step R W dev s o) := by
  have hs : ∀ t : St σ τ, _ → WI W b t := fun t e => wi_same b s t h e
  cases o with
  | read n => exact wi_read R g b n s h
  | write t => exact wi_write R g b t s h
  | flush => exact wi_flush R g b s h
  | close => exact wi_close R g b s (Or.inl h)
  | noread => exact wi_autoclose R g b _ (hs _ ⟨rfl, rfl, rfl, rfl, rfl, rfl, rfl, rfl, rfl, rfl, rfl, Or.inl rfl⟩)
  | nowrite => exact absurd rfl ho
  | poll => exact wi_poll R g b s h
  | delay on => exact hs _ ⟨rfl, rfl, rfl, rfl, rfl, rfl, rfl, rfl, rfl, rfl, rfl, Or.inl rfl⟩
  | autoFlush on => exact hs _ ⟨rfl, rfl, rfl, rfl, rfl, rfl, rfl, rfl, rfl, rfl, rfl, Or.inl rfl⟩
  | queuemin n => exact hs _ ⟨rfl, rfl, rfl, rfl, rfl, rfl, rfl, rfl, rfl, rfl, rfl, Or.inl rfl⟩
  | minRead n => exact hs _ ⟨rfl, rfl, rfl, rfl, rfl, rfl, rfl, rfl, rfl, rfl, rfl, Or.inl rfl⟩

theorem wi_run (g : Good W dev) (b : τ) (l : List Op) (s : St σ τ) (ho : Op.nowrite ∉ l) (h : WI W b s) : WI W b (run R W dev s l) := by
  induction l generalizing s with
  | nil => exact h
  | cons o l ih =>
    refine ih (step R W dev s o) (fun m => ho (List.mem_cons_of_mem _ m)) (wi_step R g b s o (fun e => ho ?_) h)
    rw [← e]; simp

theorem wi_new (a : σ) (b : τ) : WI W b (new a b) :=
  Or.inl ⟨rfl, ⟨rfl, rfl, rfl, ⟨rfl, rfl, rfl, [], rfl, Runs.start⟩⟩⟩

/-! ## Flushing -/

variable (W dev)

theorem fl_push0 (flush fin : Bool) (s : St σ τ) : (push0 W dev flush fin s).flushing = s.flushing := by
  have h : (encW W flush fin s).1.flushing = s.flushing := by unfold encW; cases flush <;> cases fin <;> rfl
  show (checkW0 W (encW W flush fin s).1).flushing = _
  unfold checkW0 setErr
  split
  · exact h
  · split <;> exact h

theorem fl_close (s : St σ τ) : (close R W dev s).flushing = s.flushing := by
  unfold close
  split
  · rfl
  · dsimp only
    have h1 : (finishRead R { s with isClosing := true }).flushing = s.flushing := by
      unfold finishRead checkR0 setErr
      dsimp only
      split
      · rfl
      · split <;> rfl
    generalize finishRead R { s with isClosing := true } = X at h1
    have h2 := (fl_push0 W dev true true X).trans h1
    generalize push0 W dev true true X = P at h2
    unfold closeFlush
    split
    · exact h2
    · dsimp only
      have h3 := fl_push0 W dev true false { P with wantFlush := true }
      generalize push0 W dev true false { P with wantFlush := true } = Q at h3
      have h4 : (cloneFlush dev Q).1.flushing = Q.flushing := by
        unfold cloneFlush; dsimp only; split <;> rfl
      split
      · exact (h4.trans h3).trans h2
      · exact (h4.trans h3).trans h2

theorem fl_autoclose (s : St σ τ) : (autoclose R W dev s).flushing = s.flushing := by
  unfold autoclose; split
  · exact fl_close R W dev s
  · rfl

theorem fl_seterr (s : St σ τ) : (seterr R W dev s).flushing = s.flushing := by
  unfold seterr; split
  · rfl
  · exact fl_close R W dev _

theorem fl_checkR (s : St σ τ) : (checkR R W dev s).flushing = s.flushing := by
  unfold checkR; split
  · rfl
  · exact (fl_autoclose R W dev _).trans (fl_seterr R W dev s)

theorem fl_push (flush fin : Bool) (s : St σ τ) : (push R W dev flush fin s).flushing = s.flushing := by
  unfold push
  have h : (encW W flush fin s).1.flushing = s.flushing := by unfold encW; cases flush <;> cases fin <;> rfl
  show (checkW R W dev (encW W flush fin s).1).flushing = _
  unfold checkW; split
  · exact h
  · exact (fl_seterr R W dev _).trans h

theorem fl_pull (size : Nat) (s : St σ τ) : (pull R W dev size s).flushing = s.flushing := by
  unfold pull; dsimp only
  rw [fl_checkR]
  split
  · exact fl_close R W dev _
  · split
    · exact fl_close R W dev _
    · rfl

theorem fl_uread (size : Nat) (s : St σ τ) : (uread R W dev size s).1.flushing = s.flushing := by
  unfold uread
  show (if size ≠ 0 ∧ s.readout = [] then pull R W dev (if s.minRead > size then s.minRead else size) s else s).flushing = _
  split
  · exact fl_pull R W dev _ s
  · rfl

theorem fl_read (n : Nat) (s : St σ τ) : (read R W dev n s).flushing = s.flushing := by
  have h1 : (fill R W dev s).flushing = s.flushing := by
    unfold fill; split
    · exact fl_uread R W dev _ _
    · rfl
  unfold read
  generalize fill R W dev s = X at h1
  dsimp only
  split
  · exact (fl_autoclose R W dev X).trans h1
  · split
    · exact (fl_autoclose R W dev _).trans ((fl_uread R W dev n X).trans h1)
    · exact (fl_autoclose R W dev _).trans h1

theorem fl_flushOutbuf (s : St σ τ) : (flushOutbuf R W dev s).flushing = s.flushing := by
  unfold flushOutbuf
  split
  · rw [fl_autoclose]; split <;> rfl
  · dsimp only
    rw [fl_autoclose]
    have h1 : (if isok s then uwrite R W dev (s.outbuf.take (max 1 (dev s.tick).chunk)) { s with outbuf := s.outbuf.drop (max 1 (dev s.tick).chunk) } else s).flushing = s.flushing := by
      split
      · exact fl_push R W dev _ _ _
      · rfl
    generalize (if isok s then uwrite R W dev (s.outbuf.take (max 1 (dev s.tick).chunk)) { s with outbuf := s.outbuf.drop (max 1 (dev s.tick).chunk) } else s) = X at h1 ⊢
    split <;> exact h1

theorem fl_flush (s : St σ τ) : (flush R W dev s).flushing = s.flushing := by
  unfold flush
  split
  · rfl
  · next h => simpa using h

theorem fl_write (t : List Byte) (s : St σ τ) : (write R W dev t s).flushing = s.flushing := by
  unfold write
  split
  · rfl
  · dsimp only
    have h1 : (if (!s.delayed && s.outbuf.isEmpty) = true then uwrite R W dev t { s with accepted := s.accepted ++ t } else
        { s with accepted := s.accepted ++ t, outbuf := s.outbuf ++ t }).flushing = s.flushing := by
      split
      · exact fl_push R W dev _ _ _
      · rfl
    generalize (if (!s.delayed && s.outbuf.isEmpty) = true then uwrite R W dev t { s with accepted := s.accepted ++ t } else
        { s with accepted := s.accepted ++ t, outbuf := s.outbuf ++ t }) = X at h1 ⊢
    split
    · split
      · exact (fl_flush R W dev X).trans h1
      · exact (fl_flushOutbuf R W dev X).trans h1
    · exact h1

theorem fl_poll (s : St σ τ) : (poll R W dev s).flushing = s.flushing := by
  unfold poll; dsimp only
  have h1 : (if s.readout = [] then s else pull R W dev 0 s).flushing = s.flushing := by
    split
    · rfl
    · exact fl_pull R W dev 0 s
  have h2 := (fl_push R W dev false false _).trans h1
  generalize push R W dev false false (if s.readout = [] then s else pull R W dev 0 s) = X at h2 ⊢
  split
  · exact (fl_flush R W dev X).trans h2
  · exact h2

theorem fl_run (l : List Op) (s : St σ τ) : (run R W dev s l).flushing = s.flushing := by
  induction l generalizing s with
  | nil => rfl
  | cons o l ih =>
    refine (ih (step R W dev s o)).trans ?_
    cases o with
    | read n => exact fl_read R W dev n s
    | write t => exact fl_write R W dev t s
    | flush => exact fl_flush R W dev s
    | close => exact fl_close R W dev s
    | noread => exact fl_autoclose R W dev _
    | nowrite => exact fl_autoclose R W dev _
    | poll => exact fl_poll R W dev s
    | delay on => rfl
    | autoFlush on => rfl
    | queuemin n => rfl
    | minRead n => rfl

variable {W dev}

/-- `flush` while the stream is open. -/
theorem flush_all (g : Good W dev) (b : τ) (s : St σ τ) (h : WI W b s) (hf : s.flushing = false) (hc : s.closed = false) (hall : TakesAll W) :
    Runs W b (flush R W dev s).accepted (flush R W dev s).below (flush R W dev s).wc ∧ (flush R W dev s).accepted = s.accepted := by
  have h2 : Open W b s := by
    rcases h with ⟨_, h2⟩ | ⟨_, h2⟩
    · exact h2
    · rw [h2.closed] at hc; cases hc
  unfold flush
  rw [if_neg (by simp [hf])]
  dsimp only
  rw [push_eq R g]
  have h0 : Flowing W b { s with flushing := true, wantFlush := true } :=
    ⟨h2.flowing.lowStop, h2.flowing.lowClosed, h2.flowing.stop, h2.flowing.flow⟩
  have p := push0_flow g b true false _ h0
  have pf := push0_frame g true false { s with flushing := true, wantFlush := true }
  generalize push0 W dev true false { s with flushing := true, wantFlush := true } = P at p pf
  have c := cloneFlush_flow g b P p.1
  generalize cloneFlush dev P = C at c
  have ho : C.1.outbuf = [] := c.2.2.2.2.2.2.2.2.1.trans (p.2.1 rfl)
  have hw : C.1.writein = [] := c.2.2.2.2.2.2.2.2.2.trans (p.2.2.1 rfl hall)
  have ha : C.1.accepted = s.accepted := c.2.1.trans pf.2.2.2.2.2.2.1
  have key : Runs W b C.1.accepted C.1.below C.1.wc := by
    obtain ⟨fed, a1, a2⟩ := c.1.flow
    rw [ho, hw] at a1
    rw [a1]; simpa using a2
  split
  · unfold flushOutbuf
    rw [if_pos (by simp [ho])]
    unfold autoclose
    have hs : C.1.stopWrite = false := c.1.stop
    split
    · simp only [hs, Bool.and_false, Bool.false_and, Bool.false_eq_true, if_false]
      exact ⟨key, ha⟩
    · simp only [hs, Bool.and_false, Bool.false_and, Bool.false_eq_true, if_false]
      exact ⟨key, ha⟩
  · exact ⟨key, ha⟩

end Wv.EncStream
