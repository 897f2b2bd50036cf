import Verif.Lemmas.Http
/- `execute` keeps the stream in step with the server. -/
namespace Wv.Http
open Spec.Http

variable {m : Nat × Bool}

theorem out_id (s : St) (u : Req) : (s.out u fun o => o).outs = s.outs := by
  cases u with
  | get id h => funext i; show (if i = id then _ else _) = _; split <;> rfl
  | test n => rfl

/-- Some of the answer to the first request was read. -/
theorem move_sync (ans : Nat → Bool → Resp) (s s' : St) (got d : Nat) (p p' : Phase) (u : Req) (us asked : List Req) (f : Out → Out)
    (h : Sync ans s got d p) (ho : Ord m s asked) (hu : s.urls = u :: us)
    (h1 : s'.closed = s.closed) (h2 : s'.err = s.err) (h3 : s'.eof = s.eof) (h4 : s'.urls = s.urls) (h5 : s'.sent = s.sent)
    (h6 : s'.outs = (s.out u f).outs) (hok : PhaseOk (ans d u.head) u.head p') (hat : At s'.par u (ans d u.head) p')
    (hf : f (outAt (ans d u.head) p) = outAt (ans d u.head) p')
    (hin : s'.inbuf ++ (wire ans s.sent).drop got = rest (ans d u.head) u.head p' ++ wireFrom ans (d + 1) us) :
    Sync ans s' got d p' := by
  obtain ⟨g1, g2, g3, g4, g5, ⟨s1, s2, s3⟩, g7, g8, g9⟩ := h
  rw [hu] at g7 g8
  obtain ⟨-, -, c3⟩ := g7
  have hd : s.sent[d]? = some u := by
    rw [hu] at g4
    have h0 : (s.sent.drop d)[0]? = some u := by rw [← g4]; rfl
    rw [List.getElem?_drop] at h0
    simpa using h0
  have hout : ∀ i id a, s.sent[i]? = some (.get id a) → i ≠ d → s'.outs id = s.outs id := by
    intro i id a hi hne
    rw [h6]
    cases u with
    | test n => rfl
    | get id' b =>
      show (if id = id' then _ else _) = _
      rw [if_neg]
      intro e
      subst e
      exact hne (distinct s asked ho i d id a b hi hd)
  refine ⟨by rw [h1, g1], by rw [h2, g2], by rw [h3, g3], by rw [h4, h5, g4], by rw [h5]; exact g5, ⟨?_, ?_, ?_⟩, ?_, ?_,
    by rw [h5]; exact g9⟩
  · intro i id a hi hs
    rw [h5] at hs
    rw [hout i id a hs (by omega)]
    exact s1 i id a hi hs
  · intro i id a hi hs
    rw [h5] at hs
    rw [hout i id a hs (by omega)]
    exact s2 i id a hi hs
  · intro id hs
    rw [h5] at hs
    rw [h6]
    cases u with
    | test n => exact s3 id hs
    | get id' b =>
      show (if id = id' then _ else _) = _
      rw [if_neg]
      · exact s3 id hs
      · intro e; subst e; exact hs b (List.mem_iff_getElem?.mpr ⟨d, hd⟩)
  · rw [h4, hu]
    refine ⟨hok, hat, ?_⟩
    intro id a ha
    subst ha
    rw [h6]
    show (if id = id then f (s.outs id) else _) = _
    rw [if_pos rfl, c3 id a rfl]
    exact hf
  · rw [h4, h5, hu]; exact hin

theorem ord_congr (s s' : St) (asked : List Req) (h : Ord m s asked) (h1 : s'.sent = s.sent) (h2 : s'.waiting = s.waiting)
    (h3 : s'.lastTest = s.lastTest) (h4 : s'.pipe = s.pipe) (h5 : s'.count = s.count) (h6 : s'.max = s.max) : Ord m s' asked := by
  unfold Ord at *; rw [h1, h2, h3, h4, h5, h6]; exact h

theorem live_congr (s s' : St) (h : Live s) (h1 : s'.urls = s.urls) (h2 : s'.waiting = s.waiting)
    (h3 : s'.max = s.max) (h4 : s'.pipe = s.pipe) (h5 : s'.count = s.count) : Live s' := by
  unfold Live at *; rw [h1, h2, h3, h4, h5]; exact h

theorem getline_cases (s : St) (P l W : Bytes) (he : s.eof = false) (h : s.inbuf ++ P = l ++ (crlf ++ W)) (hl : Line l) :
    (s.getline = some (none, s) ∧ P ≠ []) ∨
    ∃ b', s.getline = some (some (l ++ [13]), { s with inbuf := b' }) ∧ b' ++ P = W ∧ b'.length < s.inbuf.length := by
  have h10 : (10 : Byte) ∉ l := fun hm => (hl 10 hm).2.1 rfl
  have h0 : (0 : Byte) ∉ l ++ [13] := by
    intro hm
    rcases List.mem_append.mp hm with hm | hm
    · exact (hl 0 hm).1 rfl
    · simp at hm
  unfold St.getline
  by_cases hb : (10 : Byte) ∈ s.inbuf
  · right
    have hf := first_line s.inbuf P l W h h10 hb
    rw [if_pos hb, hf.1, takeWhile_all 0 _ h0]
    refine ⟨_, rfl, hf.2, ?_⟩
    have := congrArg List.length (before_first 10 s.inbuf hb).1
    simp only [List.length_append, List.length_cons] at this
    omega
  · left
    rw [if_neg hb, he]
    refine ⟨rfl, ?_⟩
    intro hP
    apply hb
    rw [hP, List.append_nil] at h
    rw [h]; simp [crlf]

theorem read_cases (s : St) (P left W : Bytes) (n k : Nat) (he : s.eof = false) (h : s.inbuf ++ P = left ++ W)
    (hn : n ≤ left.length) :
    ∃ data left' b', s.read n k = some (data, { s with inbuf := b' }) ∧ left = data ++ left' ∧ b' ++ P = left' ++ W ∧
      (n ≠ 0 → 0 < k → s.inbuf ≠ [] → b'.length < s.inbuf.length) := by
  unfold St.read
  by_cases h0 : n = 0
  · rw [if_pos h0]; exact ⟨[], left, s.inbuf, rfl, rfl, h, fun hh => absurd h0 hh⟩
  · rw [if_neg h0]
    by_cases h1 : s.inbuf = []
    · rw [if_pos h1, if_neg (by rw [he]; decide)]
      exact ⟨[], left, s.inbuf, rfl, rfl, h, fun _ _ hh => absurd h1 hh⟩
    · rw [if_neg h1]
      refine ⟨_, left.drop (min (min n k) s.inbuf.length), _, rfl, ?_, ?_, ?_⟩
      · have : s.inbuf.take (min n k) = left.take (min (min n k) s.inbuf.length) := by
          have h2 : (s.inbuf ++ P).take (min (min n k) s.inbuf.length) = (left ++ W).take (min (min n k) s.inbuf.length) := by rw [h]
          rw [List.take_append_of_le_length (by omega), List.take_append_of_le_length (by omega)] at h2
          rw [← h2, List.take_eq_take_iff]
          omega
        rw [this, List.take_append_drop]
      · have h2 : (s.inbuf ++ P).drop (min (min n k) s.inbuf.length) = (left ++ W).drop (min (min n k) s.inbuf.length) := by rw [h]
        rw [List.drop_append_of_le_length (by omega), List.drop_append_of_le_length (by omega)] at h2
        rw [← h2]
        congr 1
        by_cases h3 : min n k ≤ s.inbuf.length
        · rw [Nat.min_eq_left h3]
        · have e1 : s.inbuf.drop (min n k) = [] := List.drop_eq_nil_of_le (by omega)
          have e2 : s.inbuf.drop (min (min n k) s.inbuf.length) = [] := List.drop_eq_nil_of_le (by omega)
          rw [e1, e2]
      · intro _ hk hne
        have : 0 < s.inbuf.length := List.length_pos_iff.mpr hne
        simp only [List.length_drop]
        omega

/-- There is less to do. -/
def Prog (s s' : St) : Prop :=
  s'.closed = true ∨ s'.work < s.work ∨ (s'.inbuf.length < s.inbuf.length ∧ s'.sent = s.sent ∧ s'.work = s.work)

/-- What `execute` leads to: all is well; and if all of what the server sends has arrived, some of it was read or a request
    is done. -/
def Result (m : Nat × Bool) (ans : Nat → Bool → Resp) (s : St) (asked : List Req) (got d k : Nat) (r : Option St) : Prop :=
  ∃ s', r = some s' ∧ Fine m ans s' asked got d ∧
    ((wire ans s.sent).drop got = [] → 0 < k → Prog s s')

theorem fine_mono (ans : Nat → Bool → Resp) (s : St) (asked : List Req) (got d : Nat) (h : Fine m ans s asked got (d + 1)) :
    Fine m ans s asked got d := by
  rcases h with ⟨d', p, hd, h⟩ | h
  · exact Or.inl ⟨d', p, by omega, h⟩
  · exact Or.inr h

theorem result_done (ans : Nat → Bool → Resp) (s s1 : St) (asked : List Req) (got d k : Nat) (u : Req) (us : List Req)
    (h : Finished ans s1 got d u us) (ho : Ord m s1 asked) (hl : Live s1) (hw : s1.work = s.work) : Result m ans s asked got d k s1.doneurl := by
  obtain ⟨s', e, -, hf⟩ := doneurl_fine ans s1 asked got d u us h ho hl
  refine ⟨s', e, fine_mono _ _ _ _ _ hf, fun _ _ => ?_⟩
  rcases doneurl_work s1 s' u us h.ne h.curl h.urls e with hh | hh
  · exact Or.inl hh
  · rw [hw] at hh; exact Or.inr (Or.inl hh)

theorem close_eval (s : St) (he : s.err = false) (hc : s.curl = none) :
    ∃ b, s.close = some { s with broken := s.broken || b, closed := true, waiting := [] } := by
  refine ⟨s.pipe && decide (1 < s.max) && (decide (s.tests < 1) || (s.tests == 1 && s.lastTest)), ?_⟩
  unfold St.close St.closeWith
  simp only [he, hc, Bool.false_and, Bool.false_eq_true, if_false, Option.bind_some, Option.isSome_none]

theorem headerLine_status (s : St) (u : Req) (us : List Req) (r : Resp) (h : Bool) (ok : r.Ok h) (hr : s.response = [])
    (hu : s.urls = u :: us) :
    (∃ b, s.headerLine (statusText r) =
      some ({ s with response := statusText r, keep := b }.out u
        fun o => { o with version := str ['1', '.', '1'], status := value 10 r.code })) ∨
    (s.lastTest = true ∧ ∃ b, s.headerLine (statusText r) =
      { s with response := statusText r, keep := b, broken := true }.close) := by
  obtain ⟨bad, e, hb⟩ := suspicious_some { s with response := statusText r, keep := !lHttp10.isPrefixOf (statusText r) } r h ok
  unfold St.headerLine
  simp only [hr, if_true, e, Option.bind_some]
  cases bad with
  | true => right; exact ⟨hb rfl, _, rfl⟩
  | false =>
    left
    refine ⟨!lHttp10.isPrefixOf (statusText r), ?_⟩
    simp only [Bool.false_eq_true, if_false, framing_status, Option.bind_some, statusText_ne]
    split
    · next hh => rw [hu] at hh; cases hh
    · next v vs hh =>
      rw [hu] at hh
      cases hh
      exact header_status _ _ _ h ok

theorem exec_start (ans : Nat → Bool → Resp) (hok : ∀ i h, (ans i h).Ok h) (s : St) (asked : List Req) (got d k : Nat)
    (u : Req) (us : List Req) (hu : s.urls = u :: us) (h : Sync ans s got d .start) (ho : Ord m s asked) (hl : Live s) :
    Result m ans s asked got d k (s.execute k) := by
  have hs := h
  obtain ⟨g1, g2, g3, g4, g5, -, g7, g8, g9⟩ := h
  rw [hu] at g7 g8
  obtain ⟨-, c2, c3⟩ := g7
  have hcurl : s.curl = none := congrArg Par.curl c2
  have hresp : s.response = [] := congrArg Par.response c2
  have r0 := hok d u.head
  have hin : s.inbuf ++ (wire ans s.sent).drop got = (ans d u.head).statusLine ++ (crlf ++
      (rest (ans d u.head) u.head (.hdr [] (ans d u.head).headers) ++ wireFrom ans (d + 1) us)) := by
    rw [g8]; simp [Rem, rest, Resp.bytes]
  unfold St.execute
  rw [hcurl]
  simp only []
  rcases getline_cases s _ _ _ g3 hin (status_line _ _ r0) with ⟨e, hP⟩ | ⟨b', e, hb', hlt⟩
  · rw [e]
    exact ⟨s, rfl, Or.inl ⟨d, .start, Nat.le_refl _, hs, ho, hl⟩, fun hh => absurd hh hP⟩
  · rw [e]
    simp only [Option.bind_some, trim_status _ _ r0]
    rcases headerLine_status { s with inbuf := b' } u us (ans d u.head) u.head r0 hresp hu with ⟨b, e2⟩ | ⟨ht, b, e2⟩
    · rw [e2]
      refine ⟨_, rfl, Or.inl ⟨d, .hdr [] (ans d u.head).headers, Nat.le_refl _, ?_, ?_, ?_⟩, ?_⟩
      · refine move_sync ans s _ got d .start _ u us asked
          (fun o => { o with version := str ['1', '.', '1'], status := value 10 (ans d u.head).code }) hs ho hu
          ?_ ?_ ?_ ?_ ?_ ?_ rfl ?_ rfl ?_
        case refine_7 => cases u <;> (show _ = _; unfold frame; simp [St.par, St.out]; exact ⟨hcurl, congrArg Par.enc c2, congrArg Par.remaining c2, congrArg Par.trailer c2⟩)
        all_goals (cases u <;> first | rfl | exact hb')
      · cases u <;> exact ord_congr s _ asked ho rfl rfl rfl rfl rfl rfl
      · cases u <;> exact live_congr s _ hl rfl rfl rfl rfl rfl
      · intro _ _; right; right; cases u <;> exact ⟨hlt, rfl, rfl⟩
    · rw [e2]
      obtain ⟨bb, e3⟩ := close_eval { s with inbuf := b', response := statusText (ans d u.head), keep := b, broken := true } g2 hcurl
      refine ⟨_, e3, Or.inr ?_, fun _ _ => Or.inl rfl⟩
      exact shut_of ans s _ asked got d hs ho rfl (by simp) (ho.2.2.1 ht) rfl rfl

theorem length_char (c : Byte) : tolower c ∈ contentLength → c ≠ 0 ∧ c ≠ 58 ∧ isspace c = false := by
  revert c; apply forall_byte; decide +kernel

theorem encoding_char (c : Byte) : tolower c ∈ transferEncoding → c ≠ 0 ∧ c ≠ 58 ∧ isspace c = false := by
  revert c; apply forall_byte; decide +kernel

theorem hdrOk_length (name text : Bytes) (h1 : lower name = contentLength) (hd : ∀ b ∈ text, isdigit b = true) :
    HdrOk (name, text) := by
  refine ⟨⟨?_, ?_⟩, ?_, ?_, ?_⟩
  · rintro rfl; revert h1; decide
  · intro b hb; apply length_char; rw [← h1]; exact List.mem_map_of_mem hb
  · intro b hb; have := digit_char b (hd b hb); exact ⟨this.2.2.1, this.2.2.2.1, this.2.2.2.2.1⟩
  · intro b hb; exact (digit_char b (hd b (List.mem_of_mem_head? hb))).1
  · intro b hb; exact (digit_char b (hd b (List.mem_of_getLast? hb))).1

theorem hdrOk_chunked (name : Bytes) (h1 : lower name = transferEncoding) : HdrOk (name, str ['c', 'h', 'u', 'n', 'k', 'e', 'd']) := by
  refine ⟨⟨?_, ?_⟩, ?_, ?_, ?_⟩
  · rintro rfl; revert h1; decide
  · intro b hb; apply encoding_char; rw [← h1]; exact List.mem_map_of_mem hb
  · show ∀ b ∈ str ['c', 'h', 'u', 'n', 'k', 'e', 'd'], _
    decide
  · intro b hb
    have : b = 99 := by simp [str] at hb; rw [← hb]; decide
    rw [this]; decide
  · intro b hb
    have : b = 100 := by simp [str] at hb; rw [← hb]; decide
    rw [this]; decide

/-- A header that says how the body is sent, and others. -/
theorem framing_step (r : Resp) (h : Bool) (ok : r.Ok h) (s : St) (d t : List Hdr) (x : Hdr) (hd : d ++ x :: t = r.headers)
    (h1 : s.enc = (frame r d).1) (h2 : s.remaining = (frame r d).2) :
    HdrOk x ∧ ∃ b, s.framing (shown x) =
      some { s with enc := (frame r (d ++ [x])).1, remaining := (frame r (d ++ [x])).2, keep := b } := by
  have hother : x ∈ r.before ++ r.after → frame r (d ++ [x]) = frame r d → HdrOk x ∧ ∃ b, s.framing (shown x) =
      some { s with enc := (frame r (d ++ [x])).1, remaining := (frame r (d ++ [x])).2, keep := b } := by
    intro hx hf
    obtain ⟨k1, k2, k3⟩ := ok.headers x hx
    refine ⟨k1, ?_⟩
    obtain ⟨b, e⟩ := framing_other s x k1 k2 k3
    exact ⟨b, by rw [e, hf, ← h1, ← h2]⟩
  have hpos : r.headers[d.length]? = some x := by rw [← hd]; simp
  have hsplit : ∀ F : Hdr, r.headers = r.before ++ [F] ++ r.after →
      (x ∈ r.before ∧ d.length < r.before.length) ∨ (x = F ∧ d.length = r.before.length) ∨
      (x ∈ r.after ∧ r.before.length < d.length) := by
    intro F hF
    rw [hF] at hpos
    rcases Nat.lt_trichotomy d.length r.before.length with hlt | heq | hgt
    · left
      rw [List.append_assoc, List.getElem?_append_left hlt] at hpos
      exact ⟨List.mem_of_getElem? hpos, hlt⟩
    · right; left
      rw [List.append_assoc, List.getElem?_append_right (by omega), heq] at hpos
      simp at hpos
      exact ⟨hpos.symm, heq⟩
    · right; right
      rw [List.getElem?_append_right (by simp; omega)] at hpos
      exact ⟨List.mem_of_getElem? hpos, hgt⟩
  have hsame : (d.length < r.before.length ∨ r.before.length < d.length) → frame r (d ++ [x]) = frame r d := by
    intro hh
    unfold frame
    rw [List.length_append]
    rcases hh with hh | hh
    · rw [if_neg (by simp; omega), if_neg (by omega)]
    · rw [if_pos (by simp; omega), if_pos hh]
  have hb := ok.body
  cases hbody : r.body with
  | none =>
    apply hother
    · have : r.headers = r.before ++ r.after := by unfold Resp.headers; rw [hbody]; simp
      rw [← this, ← hd]; simp
    · unfold frame; rw [hbody]; simp [finalEnc]
  | length name text data =>
    rw [hbody] at hb
    obtain ⟨b1, b2, b3, b4, b5⟩ := hb
    rcases hsplit (name, text) (by unfold Resp.headers; rw [hbody]) with ⟨hx, hl⟩ | ⟨rfl, hl⟩ | ⟨hx, hl⟩
    · exact hother (List.mem_append_left _ hx) (hsame (Or.inl hl))
    · refine ⟨hdrOk_length _ _ b1 b3, s.keep, ?_⟩
      have hf : frame r (d ++ [(name, text)]) = (.contentLength, data.length) := by
        unfold frame; rw [if_pos (by simp; omega), hbody]; rfl
      rw [framing_length s name text data.length b1 b2 b3 b4 b5, hf]
    · exact hother (List.mem_append_right _ hx) (hsame (Or.inr hl))
  | chunked name cs l tr =>
    rw [hbody] at hb
    obtain ⟨b1, -⟩ := hb
    rcases hsplit (name, str ['c', 'h', 'u', 'n', 'k', 'e', 'd']) (by unfold Resp.headers; rw [hbody]) with ⟨hx, hl⟩ | ⟨rfl, hl⟩ | ⟨hx, hl⟩
    · exact hother (List.mem_append_left _ hx) (hsame (Or.inl hl))
    · refine ⟨hdrOk_chunked _ b1, s.keep, ?_⟩
      have hf : frame r (d ++ [(name, str ['c', 'h', 'u', 'n', 'k', 'e', 'd'])]) = (.chunked, 0) := by
        unfold frame; rw [if_pos (by simp; omega), hbody]; rfl
      have h0 : s.remaining = 0 := by
        rw [h2]; unfold frame; rw [if_neg (by omega)]
      rw [framing_chunked s name b1, hf]
      simp only [← h0]
    · exact hother (List.mem_append_right _ hx) (hsame (Or.inr hl))

theorem headerLine_next (s : St) (u : Req) (us : List Req) (line : Bytes) (hr : s.response ≠ []) (hu : s.urls = u :: us) :
    s.headerLine line = (s.framing line).bind fun s => if line = [] then s.blank u else s.header u line := by
  unfold St.headerLine
  simp only [hr, if_false, Option.bind_some, Bool.false_eq_true]
  split
  · next hh => rw [hu] at hh; cases hh
  · next v vs hh => rw [hu] at hh; cases hh; rfl

theorem exec_hdr (ans : Nat → Bool → Resp) (hok : ∀ i h, (ans i h).Ok h) (s : St) (asked : List Req) (got d k : Nat)
    (u : Req) (us : List Req) (x : Hdr) (dn t : List Hdr) (hu : s.urls = u :: us) (h : Sync ans s got d (.hdr dn (x :: t)))
    (ho : Ord m s asked) (hl : Live s) : Result m ans s asked got d k (s.execute k) := by
  have hs := h
  obtain ⟨g1, g2, g3, g4, g5, -, g7, g8, g9⟩ := h
  rw [hu] at g7 g8
  obtain ⟨c1, c2, c3⟩ := g7
  have hcurl : s.curl = none := congrArg Par.curl c2
  have hresp : s.response = statusText (ans d u.head) := congrArg Par.response c2
  have r0 := hok d u.head
  have hin : s.inbuf ++ (wire ans s.sent).drop got = hdrLine x ++ (crlf ++
      (rest (ans d u.head) u.head (.hdr (dn ++ [x]) t) ++ wireFrom ans (d + 1) us)) := by
    rw [g8]; simp [Rem, rest, lines]
  have hx : HdrOk x := (framing_step _ _ r0 s dn t x c1 (congrArg Par.enc c2) (congrArg Par.remaining c2)).1
  unfold St.execute
  rw [hcurl]
  simp only []
  rcases getline_cases s _ _ _ g3 hin (hdrLine_line x hx) with ⟨e, hP⟩ | ⟨b', e, hb', hlt⟩
  · rw [e]
    exact ⟨s, rfl, Or.inl ⟨d, _, Nat.le_refl _, hs, ho, hl⟩, fun hh => absurd hh hP⟩
  · rw [e]
    obtain ⟨-, b, e2⟩ := framing_step _ _ r0 { s with inbuf := b' } dn t x c1 (congrArg Par.enc c2) (congrArg Par.remaining c2)
    simp only [Option.bind_some, trim_hdr x hx]
    rw [headerLine_next { s with inbuf := b' } u us _ (show s.response ≠ [] by rw [hresp]; exact statusText_ne _) hu, e2]
    simp only [Option.bind_some, shown_ne, if_false, header_hdr _ _ _ hx]
    refine ⟨_, rfl, Or.inl ⟨d, .hdr (dn ++ [x]) t, Nat.le_refl _, ?_, ?_, ?_⟩, ?_⟩
    · refine move_sync ans s _ got d _ _ u us asked (fun o => { o with headers := o.headers ++ [x] }) hs ho hu
        ?_ ?_ ?_ ?_ ?_ ?_ ?_ ?_ rfl ?_
      case refine_7 => show (dn ++ [x]) ++ t = _; rw [List.append_assoc]; exact c1
      case refine_8 => cases u <;> (show _ = _; simp only [St.par, St.out]; rw [hcurl, hresp, show s.trailer = false from congrArg Par.trailer c2])
      all_goals (cases u <;> first | rfl | exact hb')
    · cases u <;> exact ord_congr s _ asked ho rfl rfl rfl rfl rfl rfl
    · cases u <;> exact live_congr s _ hl rfl rfl rfl rfl rfl
    · intro _ _; right; right; cases u <;> exact ⟨hlt, rfl, rfl⟩

theorem frame_all (r : Resp) (h : Bool) (d : List Hdr) (hd : d = r.headers) : frame r d = finalEnc r.body := by
  unfold frame
  cases hb : r.body with
  | none => simp [finalEnc]
  | length n t data => rw [if_pos]; rw [hd]; unfold Resp.headers; rw [hb]; simp
  | chunked n c l t => rw [if_pos]; rw [hd]; unfold Resp.headers; rw [hb]; simp

theorem exec_blank (ans : Nat → Bool → Resp) (hok : ∀ i h, (ans i h).Ok h) (s : St) (asked : List Req) (got d k : Nat)
    (u : Req) (us : List Req) (dn : List Hdr) (hu : s.urls = u :: us) (h : Sync ans s got d (.hdr dn []))
    (ho : Ord m s asked) (hl : Live s) : Result m ans s asked got d k (s.execute k) := by
  have hs := h
  obtain ⟨g1, g2, g3, g4, g5, g6, g7, g8, g9⟩ := h
  rw [hu] at g7 g8
  obtain ⟨c1, c2, c3⟩ := g7
  have hcurl : s.curl = none := congrArg Par.curl c2
  have hresp : s.response = statusText (ans d u.head) := congrArg Par.response c2
  have htr : s.trailer = false := congrArg Par.trailer c2
  have hdn : dn = (ans d u.head).headers := by
    have : dn ++ [] = _ := c1
    simpa using this
  have henc : s.enc = (finalEnc (ans d u.head).body).1 := by
    rw [← frame_all (ans d u.head) u.head dn hdn]; exact congrArg Par.enc c2
  have hrem : s.remaining = (finalEnc (ans d u.head).body).2 := by
    rw [← frame_all (ans d u.head) u.head dn hdn]; exact congrArg Par.remaining c2
  have r0 := hok d u.head
  have hin : s.inbuf ++ (wire ans s.sent).drop got = [] ++ (crlf ++
      ((if u.head then [] else (ans d u.head).body.bytes) ++ wireFrom ans (d + 1) us)) := by
    rw [g8]; simp [Rem, rest, lines]
  unfold St.execute
  rw [hcurl]
  simp only []
  rcases getline_cases s _ _ _ g3 hin (by intro b hb; cases hb) with ⟨e, hP⟩ | ⟨b', e, hb', hlt⟩
  · rw [e]
    exact ⟨s, rfl, Or.inl ⟨d, _, Nat.le_refl _, hs, ho, hl⟩, fun hh => absurd hh hP⟩
  · rw [e]
    have htrim : trimString ([] ++ [13]) = [] := trim_cr [] trimmed_nil
    simp only [Option.bind_some, htrim]
    rw [headerLine_next { s with inbuf := b' } u us _ (show s.response ≠ [] by rw [hresp]; exact statusText_ne _) hu, framing_nil]
    simp only [Option.bind_some, if_true]
    unfold St.blank
    by_cases hh : u.head = true
    · simp only [hh, if_true, hresp, (status_http _).2, Bool.false_eq_true, if_false]
      rw [hh] at hdn
      apply result_done ans s _ asked got d k u us
      · refine ⟨g1, g2, g3, hu, g4, g6, rfl, ?_, ?_, g9⟩
        · intro id a ha
          have ea : a = true := by rw [ha] at hh; exact hh
          subst ea
          rw [show ({ s with inbuf := b' } : St).outs id = s.outs id from rfl, c3 id true ha]
          simp [outAt, Resp.whole, hdn]
        · show b' ++ _ = _
          rw [hb', hh]; rfl
      · exact ord_congr s _ asked ho rfl rfl rfl rfl rfl rfl
      · exact live_congr s _ hl rfl rfl rfl rfl rfl
      · rfl
    · have hf : u.head = false := by simpa using hh
      simp only [hh, if_false]
      refine ⟨_, rfl, Or.inl ?_, fun _ _ => Or.inr (Or.inr ⟨hlt, rfl, rfl⟩)⟩
      cases hbody : (ans d u.head).body with
      | none => exact absurd (r0.none hbody) hh
      | length n t data =>
        rw [hbody] at henc hrem
        refine ⟨d, .len [] data, Nat.le_refl _, ?_, ord_congr s _ asked ho rfl rfl rfl rfl rfl rfl, live_congr s _ hl rfl rfl rfl rfl rfl⟩
        refine move_sync ans s _ got d _ _ u us asked (fun o => o) hs ho hu rfl rfl rfl rfl rfl (out_id s u).symm ?_ ?_ ?_ ?_
        · exact ⟨hf, n, t, hbody⟩
        · show _ = _
          simp only [St.par]
          rw [hresp, henc, hrem]
          rfl
        · simp only [outAt, hdn]
        · show b' ++ _ = _
          rw [hb', hbody]
          simp [rest, hf, Body.bytes]
      | chunked n cs l tr =>
        rw [hbody] at henc hrem
        refine ⟨d, .line [] false cs, Nat.le_refl _, ?_, ord_congr s _ asked ho rfl rfl rfl rfl rfl rfl, live_congr s _ hl rfl rfl rfl rfl rfl⟩
        refine move_sync ans s _ got d _ _ u us asked (fun o => o) hs ho hu rfl rfl rfl rfl rfl (out_id s u).symm ?_ ?_ ?_ ?_
        · exact ⟨hf, n, [], l, tr, hbody, rfl⟩
        · show _ = _
          simp only [St.par]
          rw [hresp, henc, hrem]
          rfl
        · simp only [outAt, hdn]
        · show b' ++ _ = _
          rw [hb', hbody]
          have hbody2 := hbody
          rw [hf] at hbody2
          simp [rest, hf, Body.bytes, tailOf, hbody2]

theorem not_test (u : Req) (h : u.head = false) : u.isTest = false := by
  cases u with
  | get id a => rfl
  | test n => cases h

theorem exec_len (ans : Nat → Bool → Resp) (s : St) (asked : List Req) (got d k : Nat)
    (u : Req) (us : List Req) (g left : Bytes) (hu : s.urls = u :: us) (h : Sync ans s got d (.len g left))
    (ho : Ord m s asked) (hl : Live s) : Result m ans s asked got d k (s.execute k) := by
  have hs := h
  obtain ⟨g1, g2, g3, g4, g5, g6, g7, g8, g9⟩ := h
  rw [hu] at g7 g8
  obtain ⟨⟨hf, n, t, hbody⟩, c2, c3⟩ := g7
  have hcurl : s.curl = some u := congrArg Par.curl c2
  have hresp : s.response = statusText (ans d u.head) := congrArg Par.response c2
  have henc : s.enc = .contentLength := congrArg Par.enc c2
  have hrem : s.remaining = left.length := congrArg Par.remaining c2
  have htr : s.trailer = false := congrArg Par.trailer c2
  obtain ⟨id, rfl⟩ : ∃ id, u = .get id false := by
    cases u with
    | get id a => exact ⟨id, by rw [show a = false from hf]⟩
    | test n => cases hf
  obtain ⟨data, left', b', e, hleft, hb', hlt⟩ := read_cases s _ left (wireFrom ans (d + 1) us) (min s.remaining 1024) k g3 g8 (by omega)
  unfold St.execute
  rw [hcurl]
  simp only [Req.isTest, Bool.false_eq_true, if_false, henc, Enc.postHead, reduceCtorEq, false_and, or_self, e, Option.bind_some, g1]
  have hr : s.remaining - data.length = left'.length := by rw [hrem, hleft]; simp
  simp only [St.deliver, hcurl, St.out, hr, true_and, Option.isSome_some, and_true]
  have hcont : g ++ left = g ++ data ++ left' := by rw [hleft, List.append_assoc]
  have hout : s.outs id = outAt (ans d false) (.len g left) := c3 id false rfl
  by_cases h0 : left'.length = 0
  · rw [if_pos h0]
    have hl0 : left' = [] := List.length_eq_zero_iff.mp h0
    apply result_done ans s _ asked got d k (.get id false) us
    · refine ⟨rfl, g2, g3, hu, g4, ?_, rfl, ?_, ?_, g9⟩
      · obtain ⟨s1, s2, s3⟩ := g6
        have hd : s.sent[d]? = some (.get id false) := by
          rw [hu] at g4
          have h0 : (s.sent.drop d)[0]? = some (.get id false) := by rw [← g4]; rfl
          rw [List.getElem?_drop] at h0
          simpa using h0
        have hne : ∀ i id' a, s.sent[i]? = some (.get id' a) → i ≠ d → id' ≠ id := by
          intro i id' a hi hne e
          subst e
          exact hne (distinct s asked ho i d id' a false hi hd)
        refine ⟨?_, ?_, ?_⟩
        · intro i id' a hi hsx
          show (if id' = id then _ else _) = _
          rw [if_neg (hne i id' a hsx (by omega))]
          exact s1 i id' a hi hsx
        · intro i id' a hi hsx
          show (if id' = id then _ else _) = _
          rw [if_neg (hne i id' a hsx (by omega))]
          exact s2 i id' a hi hsx
        · intro id' hsx
          show (if id' = id then _ else _) = _
          rw [if_neg]
          · exact s3 id' hsx
          · rintro rfl; exact hsx false (List.mem_iff_getElem?.mpr ⟨d, hd⟩)
      · intro id' a ha
        cases ha
        show (if id = id then _ else _) = _
        rw [if_pos rfl, hout]
        have hbody' : (ans d false).body = .length n t (g ++ data) := by
          have : (ans d false).body = .length n t (g ++ left) := hbody
          rw [this, hcont, hl0, List.append_nil]
        simp [outAt, Resp.whole, hbody', Body.content]
      · show b' ++ _ = _
        rw [hb', hl0]; rfl
    · exact ord_congr s _ asked ho rfl rfl rfl rfl rfl rfl
    · exact live_congr s _ hl rfl rfl rfl rfl rfl
    · rfl
  · rw [if_neg h0]
    refine ⟨_, rfl, Or.inl ⟨d, .len (g ++ data) left', Nat.le_refl _, ?_, ord_congr s _ asked ho rfl rfl rfl rfl rfl rfl, live_congr s _ hl rfl rfl rfl rfl rfl⟩, ?_⟩
    · refine move_sync ans s _ got d _ _ (.get id false) us asked (fun o => { o with body := o.body ++ data }) hs ho hu g1.symm rfl rfl rfl rfl rfl ?_ ?_ rfl ?_
      · exact ⟨rfl, n, t, by rw [← hcont]; exact hbody⟩
      · show _ = _
        simp only [St.par]
        rw [hresp, htr]
      · exact hb'
    · intro hP hk
      right; right
      have hpos : 0 < left.length := by rw [hleft]; simp; omega
      refine ⟨?_, rfl, rfl⟩
      apply hlt _ hk
      · intro hi
        rw [hi, hP] at g8
        have := congrArg List.length g8
        simp [Rem, rest] at this
        omega
      · rw [hrem]; omega

theorem size_text (size ext : Bytes) (n : Nat) (h : SizeOk size ext n) :
    Line (size ++ ext) ∧ trimString (size ++ ext ++ [13]) = size ++ ext ∧ size ++ ext ≠ [] := by
  obtain ⟨h0, hx, -, -, he, -, hl⟩ := h
  refine ⟨?_, trim_cr _ ⟨?_, ?_⟩, ?_⟩
  · intro b hb
    rcases List.mem_append.mp hb with hb | hb
    · have := xdigit_char b (hx b hb); exact ⟨this.2.1, this.2.2.1, this.2.2.2.1⟩
    · exact he b hb
  · intro b hb
    rw [head?_append_ne _ _ h0] at hb
    exact (xdigit_char b (hx b (List.mem_of_mem_head? hb))).1
  · intro b hb
    by_cases hn : ext = []
    · rw [hn, List.append_nil] at hb
      exact (xdigit_char b (hx b (List.mem_of_getLast? hb))).1
    · rw [getLast?_append_ne _ _ hn] at hb
      exact hl b hb
  · intro hh; exact h0 (List.append_eq_nil_iff.mp hh).1

theorem req_of (u : Req) (hf : u.head = false) : ∃ id, u = .get id false := by
  cases u with
  | get id a => exact ⟨id, by rw [show a = false from hf]⟩
  | test n => cases hf

theorem exec_line (ans : Nat → Bool → Resp) (hok : ∀ i h, (ans i h).Ok h) (s : St) (asked : List Req) (got d k : Nat)
    (u : Req) (us : List Req) (g : Bytes) (nl : Bool) (cs : List Chunk) (hu : s.urls = u :: us)
    (h : Sync ans s got d (.line g nl cs)) (ho : Ord m s asked) (hl : Live s) : Result m ans s asked got d k (s.execute k) := by
  have hs := h
  obtain ⟨g1, g2, g3, g4, g5, g6, g7, g8, g9⟩ := h
  rw [hu] at g7 g8
  obtain ⟨⟨hf, n, pre, l, tr, hbody, hg⟩, c2, c3⟩ := g7
  have hcurl : s.curl = some u := congrArg Par.curl c2
  have hresp : s.response = statusText (ans d u.head) := congrArg Par.response c2
  have henc : s.enc = .chunked := congrArg Par.enc c2
  have hrem : s.remaining = 0 := congrArg Par.remaining c2
  have htr : s.trailer = false := congrArg Par.trailer c2
  have hb := (hok d u.head).body
  rw [hbody] at hb
  obtain ⟨-, hch, hlast, -⟩ := hb
  obtain ⟨id, rfl⟩ := req_of u hf
  have hexec : s.execute k = s.getline.bind fun (line, s) =>
        match line with
        | none => some s
        | some line => s.chunkLine (trimString line) := by
    unfold St.execute
    rw [hcurl]
    simp only [Req.isTest, Bool.false_eq_true, if_false, henc, Enc.postHead, reduceCtorEq, false_and, or_self, hrem, and_self, if_true]
    rfl
  rw [hexec]
  have htail : tailOf (ans d (Req.get id false).head) = tail l tr := by unfold tailOf; rw [hbody]
  cases nl with
  | true =>
    have hin : s.inbuf ++ (wire ans s.sent).drop got = [] ++ (crlf ++
        (rest (ans d (Req.get id false).head) (Req.get id false).head (.line g false cs) ++ wireFrom ans (d + 1) us)) := by
      rw [g8]; simp [Rem, rest]
    rcases getline_cases s _ _ _ g3 hin (by intro b hb; cases hb) with ⟨e, hP⟩ | ⟨b', e, hb', hlt⟩
    · rw [e]
      exact ⟨s, rfl, Or.inl ⟨d, _, Nat.le_refl _, hs, ho, hl⟩, fun hh => absurd hh hP⟩
    · rw [e]
      have htrim : trimString ([] ++ [13]) = [] := trim_cr [] trimmed_nil
      simp only [Option.bind_some, htrim]
      unfold St.chunkLine
      simp only [htr, Bool.false_eq_true, if_false, if_true]
      refine ⟨_, rfl, Or.inl ⟨d, .line g false cs, Nat.le_refl _, ?_, ord_congr s _ asked ho rfl rfl rfl rfl rfl rfl, live_congr s _ hl rfl rfl rfl rfl rfl⟩, fun _ _ => Or.inr (Or.inr ⟨hlt, rfl, rfl⟩)⟩
      exact move_sync ans s _ got d _ _ (.get id false) us asked (fun o => o) hs ho hu rfl rfl rfl rfl rfl (out_id s _).symm
        ⟨rfl, n, pre, l, tr, hbody, hg⟩ (by show St.par _ = _; simp only [St.par, hcurl, hresp, henc, hrem]) rfl hb'
  | false =>
    cases cs with
    | nil =>
      obtain ⟨t1, t2, t3⟩ := size_text _ _ _ hlast
      have hin : s.inbuf ++ (wire ans s.sent).drop got = (l.1 ++ l.2) ++ (crlf ++
          (rest (ans d (Req.get id false).head) (Req.get id false).head (.trail tr) ++ wireFrom ans (d + 1) us)) := by
        rw [g8]; simp [Rem, rest, htail, tail]
      rcases getline_cases s _ _ _ g3 hin t1 with ⟨e, hP⟩ | ⟨b', e, hb', hlt⟩
      · rw [e]
        exact ⟨s, rfl, Or.inl ⟨d, _, Nat.le_refl _, hs, ho, hl⟩, fun hh => absurd hh hP⟩
      · rw [e]
        simp only [Option.bind_some, t2]
        unfold St.chunkLine
        simp only [htr, Bool.false_eq_true, if_false, t3, strtoul_value _ _ _ hlast, if_true]
        refine ⟨_, rfl, Or.inl ⟨d, .trail tr, Nat.le_refl _, ?_, ord_congr s _ asked ho rfl rfl rfl rfl rfl rfl, live_congr s _ hl rfl rfl rfl rfl rfl⟩, fun _ _ => Or.inr (Or.inr ⟨hlt, rfl, rfl⟩)⟩
        refine move_sync ans s _ got d _ _ (.get id false) us asked (fun o => o) hs ho hu rfl rfl rfl rfl rfl (out_id s _).symm
          ⟨rfl, n, pre ++ [], l, [], hbody⟩ ?_ ?_ hb'
        · show _ = _
          simp only [St.par]
          rw [hcurl, hresp, henc]
        · simp [outAt, hbody, Body.content, hg]
    | cons c cs =>
      obtain ⟨hc, hc0⟩ := hch c (by simp)
      obtain ⟨t1, t2, t3⟩ := size_text _ _ _ hc
      have hin : s.inbuf ++ (wire ans s.sent).drop got = (c.size ++ c.ext) ++ (crlf ++
          (rest (ans d (Req.get id false).head) (Req.get id false).head (.data g c.data cs) ++ wireFrom ans (d + 1) us)) := by
        rw [g8]; simp [Rem, rest, Chunk.bytes]
      rcases getline_cases s _ _ _ g3 hin t1 with ⟨e, hP⟩ | ⟨b', e, hb', hlt⟩
      · rw [e]
        exact ⟨s, rfl, Or.inl ⟨d, _, Nat.le_refl _, hs, ho, hl⟩, fun hh => absurd hh hP⟩
      · rw [e]
        simp only [Option.bind_some, t2]
        unfold St.chunkLine
        have hn0 : c.data.length ≠ 0 := fun hh => hc0 (List.length_eq_zero_iff.mp hh)
        simp only [htr, Bool.false_eq_true, if_false, t3, strtoul_value _ _ _ hc, hn0]
        refine ⟨_, rfl, Or.inl ⟨d, .data g c.data cs, Nat.le_refl _, ?_, ord_congr s _ asked ho rfl rfl rfl rfl rfl rfl, live_congr s _ hl rfl rfl rfl rfl rfl⟩, fun _ _ => Or.inr (Or.inr ⟨hlt, rfl, rfl⟩)⟩
        refine move_sync ans s _ got d _ _ (.get id false) us asked (fun o => o) hs ho hu rfl rfl rfl rfl rfl (out_id s _).symm
          ⟨rfl, hc0, n, pre, c, l, tr, [], hbody, rfl, by rw [hg, List.append_nil]⟩ ?_ rfl hb'
        show _ = _
        simp only [St.par]
        rw [hcurl, hresp, henc]

theorem exec_data (ans : Nat → Bool → Resp) (s : St) (asked : List Req) (got d k : Nat)
    (u : Req) (us : List Req) (g left : Bytes) (cs : List Chunk) (hu : s.urls = u :: us)
    (h : Sync ans s got d (.data g left cs)) (ho : Ord m s asked) (hl : Live s) : Result m ans s asked got d k (s.execute k) := by
  have hs := h
  obtain ⟨g1, g2, g3, g4, g5, g6, g7, g8, g9⟩ := h
  rw [hu] at g7 g8
  obtain ⟨⟨hf, hl0, n, pre, c, l, tr, cd, hbody, hcd, hg⟩, c2, c3⟩ := g7
  have hcurl : s.curl = some u := congrArg Par.curl c2
  have hresp : s.response = statusText (ans d u.head) := congrArg Par.response c2
  have henc : s.enc = .chunked := congrArg Par.enc c2
  have hrem : s.remaining = left.length := congrArg Par.remaining c2
  have htr : s.trailer = false := congrArg Par.trailer c2
  obtain ⟨id, rfl⟩ := req_of u hf
  have hpos : 0 < left.length := List.length_pos_iff.mpr hl0
  have hr0 : s.remaining ≠ 0 := by omega
  have hin : s.inbuf ++ (wire ans s.sent).drop got = left ++ ((crlf ++ (cs.flatMap Chunk.bytes ++ tailOf (ans d (Req.get id false).head))) ++ wireFrom ans (d + 1) us) := by
    rw [g8]; simp [Rem, rest]
  obtain ⟨data, left', b', e, hleft, hb', hlt⟩ := read_cases s _ left _ (min s.remaining 1024) k g3 hin (by omega)
  unfold St.execute
  rw [hcurl]
  simp only [Req.isTest, Bool.false_eq_true, if_false, henc, Enc.postHead, reduceCtorEq, false_and, or_self, hr0, and_false, e,
    Option.bind_some, g1]
  have hr : s.remaining - data.length = left'.length := by rw [hrem, hleft]; simp
  simp only [St.deliver, hcurl, St.out, hr]
  rw [if_neg (by rintro ⟨-, hh, -⟩; cases hh)]
  have hprog : (wire ans s.sent).drop got = [] → 0 < k → b'.length < s.inbuf.length := by
    intro hP hk
    apply hlt _ hk
    · intro hi
      rw [hi, hP] at hin
      have := congrArg List.length hin
      simp at this
      omega
    · rw [hrem]; omega
  by_cases h0 : left' = []
  · refine ⟨_, rfl, Or.inl ⟨d, .line (g ++ data) true cs, Nat.le_refl _, ?_, ord_congr s _ asked ho rfl rfl rfl rfl rfl rfl, live_congr s _ hl rfl rfl rfl rfl rfl⟩, fun hP hk => Or.inr (Or.inr ⟨hprog hP hk, rfl, rfl⟩)⟩
    refine move_sync ans s _ got d _ _ (.get id false) us asked (fun o => { o with body := o.body ++ data }) hs ho hu g1.symm rfl rfl rfl rfl rfl
      ⟨rfl, n, pre ++ [c], l, tr, by rw [hbody]; simp, ?_⟩ ?_ rfl ?_
    · rw [hg]
      rw [h0, List.append_nil] at hleft
      simp [hcd, hleft]
    · show _ = _
      simp only [St.par]
      rw [hresp, htr, h0]; rfl
    · show b' ++ _ = _
      rw [hb', h0]; simp [rest]
  · refine ⟨_, rfl, Or.inl ⟨d, .data (g ++ data) left' cs, Nat.le_refl _, ?_, ord_congr s _ asked ho rfl rfl rfl rfl rfl rfl, live_congr s _ hl rfl rfl rfl rfl rfl⟩, fun hP hk => Or.inr (Or.inr ⟨hprog hP hk, rfl, rfl⟩)⟩
    refine move_sync ans s _ got d _ _ (.get id false) us asked (fun o => { o with body := o.body ++ data }) hs ho hu g1.symm rfl rfl rfl rfl rfl
      ⟨rfl, h0, n, pre, c, l, tr, cd ++ data, hbody, by rw [hcd, hleft, List.append_assoc], by rw [hg, List.append_assoc]⟩ ?_ rfl ?_
    · show _ = _
      simp only [St.par]
      rw [hresp, htr]
    · show b' ++ _ = _
      rw [hb']; simp [rest]

theorem exec_trail (ans : Nat → Bool → Resp) (hok : ∀ i h, (ans i h).Ok h) (s : St) (asked : List Req) (got d k : Nat)
    (u : Req) (us : List Req) (ts : List Hdr) (hu : s.urls = u :: us)
    (h : Sync ans s got d (.trail ts)) (ho : Ord m s asked) (hl : Live s) : Result m ans s asked got d k (s.execute k) := by
  have hs := h
  obtain ⟨g1, g2, g3, g4, g5, g6, g7, g8, g9⟩ := h
  rw [hu] at g7 g8
  obtain ⟨⟨hf, n, cs, l, pre, hbody⟩, c2, c3⟩ := g7
  have hcurl : s.curl = some u := congrArg Par.curl c2
  have hresp : s.response = statusText (ans d u.head) := congrArg Par.response c2
  have henc : s.enc = .chunked := congrArg Par.enc c2
  have hrem : s.remaining = 0 := congrArg Par.remaining c2
  have htr : s.trailer = true := congrArg Par.trailer c2
  have hb := (hok d u.head).body
  rw [hbody] at hb
  obtain ⟨-, -, -, htrs⟩ := hb
  obtain ⟨id, rfl⟩ := req_of u hf
  have hexec : s.execute k = s.getline.bind fun (line, s) =>
        match line with
        | none => some s
        | some line => s.chunkLine (trimString line) := by
    unfold St.execute
    rw [hcurl]
    simp only [Req.isTest, Bool.false_eq_true, if_false, henc, Enc.postHead, reduceCtorEq, false_and, or_self, hrem, and_self, if_true]
    rfl
  rw [hexec]
  cases ts with
  | nil =>
    have hin : s.inbuf ++ (wire ans s.sent).drop got = [] ++ (crlf ++ wireFrom ans (d + 1) us) := by
      rw [g8]; simp [Rem, rest, lines]
    rcases getline_cases s _ _ _ g3 hin (by intro b hb; cases hb) with ⟨e, hP⟩ | ⟨b', e, hb', hlt⟩
    · rw [e]
      exact ⟨s, rfl, Or.inl ⟨d, _, Nat.le_refl _, hs, ho, hl⟩, fun hh => absurd hh hP⟩
    · rw [e]
      have htrim : trimString ([] ++ [13]) = [] := trim_cr [] trimmed_nil
      simp only [Option.bind_some, htrim]
      unfold St.chunkLine
      simp only [htr, if_true]
      apply result_done ans s _ asked got d k (.get id false) us
      · refine ⟨g1, g2, g3, hu, g4, g6, hcurl, ?_, hb', g9⟩
        intro id' a ha
        rw [show ({ s with inbuf := b' } : St).outs id' = s.outs id' from rfl, c3 id' a ha]
        cases ha
        rfl
      · exact ord_congr s _ asked ho rfl rfl rfl rfl rfl rfl
      · exact live_congr s _ hl rfl rfl rfl rfl rfl
      · rfl
  | cons x ts =>
    have hx : HdrOk x := htrs x (by simp)
    have hin : s.inbuf ++ (wire ans s.sent).drop got = hdrLine x ++ (crlf ++
        (rest (ans d (Req.get id false).head) (Req.get id false).head (.trail ts) ++ wireFrom ans (d + 1) us)) := by
      rw [g8]; simp [Rem, rest, lines]
    rcases getline_cases s _ _ _ g3 hin (hdrLine_line x hx) with ⟨e, hP⟩ | ⟨b', e, hb', hlt⟩
    · rw [e]
      exact ⟨s, rfl, Or.inl ⟨d, _, Nat.le_refl _, hs, ho, hl⟩, fun hh => absurd hh hP⟩
    · rw [e]
      simp only [Option.bind_some, trim_hdr x hx]
      unfold St.chunkLine
      simp only [htr, if_true, shown_ne, if_false]
      refine ⟨_, rfl, Or.inl ⟨d, .trail ts, Nat.le_refl _, ?_, ord_congr s _ asked ho rfl rfl rfl rfl rfl rfl, live_congr s _ hl rfl rfl rfl rfl rfl⟩, fun _ _ => Or.inr (Or.inr ⟨hlt, rfl, rfl⟩)⟩
      exact move_sync ans s _ got d _ _ (.get id false) us asked (fun o => o) hs ho hu rfl rfl rfl rfl rfl (out_id s _).symm
        ⟨rfl, n, cs, l, pre ++ [x], by rw [hbody]; simp⟩ (by show St.par _ = _; simp only [St.par, hcurl, hresp, henc, hrem]) rfl hb'

/-- `execute` while an answer is expected. -/
theorem exec_some (ans : Nat → Bool → Resp) (hok : ∀ i h, (ans i h).Ok h) (s : St) (asked : List Req) (got d k : Nat) (p : Phase)
    (hu : s.urls ≠ []) (h : Sync ans s got d p) (ho : Ord m s asked) (hl : Live s) : Result m ans s asked got d k (s.execute k) := by
  cases hus : s.urls with
  | nil => exact absurd hus hu
  | cons u us =>
    cases p with
    | start => exact exec_start ans hok s asked got d k u us hus h ho hl
    | hdr dn t =>
      cases t with
      | nil => exact exec_blank ans hok s asked got d k u us dn hus h ho hl
      | cons x t => exact exec_hdr ans hok s asked got d k u us x dn t hus h ho hl
    | len g left => exact exec_len ans s asked got d k u us g left hus h ho hl
    | line g nl cs => exact exec_line ans hok s asked got d k u us g nl cs hus h ho hl
    | data g left cs => exact exec_data ans s asked got d k u us g left cs hus h ho hl
    | trail ts => exact exec_trail ans hok s asked got d k u us ts hus h ho hl

/-- `execute` while no answer is expected. -/
theorem exec_none (ans : Nat → Bool → Resp) (s : St) (got d k : Nat) (p : Phase)
    (hu : s.urls = []) (h : Sync ans s got d p) : s.execute k = some s := by
  obtain ⟨g1, g2, g3, g4, g5, g6, g7, g8, g9⟩ := h
  rw [hu] at g7 g8
  obtain ⟨-, c2⟩ := g7
  have hcurl : s.curl = none := congrArg Par.curl c2
  have hi : s.inbuf = [] := (List.append_eq_nil_iff.mp g8).1
  unfold St.execute
  rw [hcurl]
  have : s.getline = some (none, s) := by
    unfold St.getline
    rw [if_neg (by rw [hi]; simp), if_neg (by rw [g3]; decide)]
  rw [this]
  rfl

end Wv.Http
