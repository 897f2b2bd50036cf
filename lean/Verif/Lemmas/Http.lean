import Verif.Lemmas.HttpText
/- A stream of answers, and how far the stream has come in it. -/
namespace Wv.Http
open Spec.Http

/-- Where in an answer the stream is: before it; between headers; in a body of known length; before the length of a chunk (and
    perhaps still before the end of the line of the last one); in a chunk; in the trailers. With what was read and what is left. -/
inductive Phase where
  | start
  | hdr (done todo : List Hdr)
  | len (got left : Bytes)
  | line (got : Bytes) (nl : Bool) (cs : List Chunk)
  | data (got left : Bytes) (cs : List Chunk)
  | trail (ts : List Hdr)

def tailOf (r : Resp) : Bytes :=
  match r.body with
  | .chunked _ _ last tr => tail last tr
  | _ => []

/-- What is left of an answer. -/
def rest (r : Resp) (h : Bool) : Phase → Bytes
  | .start => r.bytes h
  | .hdr _ todo => lines (todo.map hdrLine) ++ crlf ++ (if h then [] else r.body.bytes)
  | .len _ left => left
  | .line _ nl cs => (if nl then crlf else []) ++ (cs.flatMap Chunk.bytes ++ tailOf r)
  | .data _ left cs => left ++ (crlf ++ (cs.flatMap Chunk.bytes ++ tailOf r))
  | .trail ts => lines (ts.map hdrLine) ++ crlf

/-- That is part of the answer. -/
def PhaseOk (r : Resp) (h : Bool) : Phase → Prop
  | .start => True
  | .hdr d t => d ++ t = r.headers
  | .len got left => h = false ∧ ∃ n t, r.body = .length n t (got ++ left)
  | .line got _ cs => h = false ∧ ∃ n pre l tr, r.body = .chunked n (pre ++ cs) l tr ∧ got = pre.flatMap Chunk.data
  | .data got left cs => h = false ∧ left ≠ [] ∧ ∃ n pre c l tr cd, r.body = .chunked n (pre ++ c :: cs) l tr ∧
      c.data = cd ++ left ∧ got = pre.flatMap Chunk.data ++ cd
  | .trail ts => h = false ∧ ∃ n cs l pre, r.body = .chunked n cs l (pre ++ ts)

/-- The state of the parser. -/
structure Par where
  curl : Option Req
  response : Bytes
  enc : Enc
  remaining : Nat
  trailer : Bool

def St.par (s : St) : Par := ⟨s.curl, s.response, s.enc, s.remaining, s.trailer⟩

def finalEnc : Body → Enc × Nat
  | .none => (.unknown, 0)
  | .length _ _ data => (.contentLength, data.length)
  | .chunked _ _ _ _ => (.chunked, 0)

/-- What the headers have told about the body. -/
def frame (r : Resp) (d : List Hdr) : Enc × Nat := if r.before.length < d.length then finalEnc r.body else (.unknown, 0)

def At (v : Par) (u : Req) (r : Resp) : Phase → Prop
  | .start => v = ⟨none, [], .unknown, 0, false⟩
  | .hdr d _ => v = ⟨none, statusText r, (frame r d).1, (frame r d).2, false⟩
  | .len _ left => v = ⟨some u, statusText r, .contentLength, left.length, false⟩
  | .line _ _ _ => v = ⟨some u, statusText r, .chunked, 0, false⟩
  | .data _ left _ => v = ⟨some u, statusText r, .chunked, left.length, false⟩
  | .trail _ => v = ⟨some u, statusText r, .chunked, 0, true⟩

/-- What the user has seen. -/
def outAt (r : Resp) : Phase → Out
  | .start => {}
  | .hdr d _ => { version := str ['1', '.', '1'], status := value 10 r.code, headers := d }
  | .len got _ | .line got _ _ | .data got _ _ =>
    { version := str ['1', '.', '1'], status := value 10 r.code, headers := r.headers, body := got }
  | .trail _ => { version := str ['1', '.', '1'], status := value 10 r.code, headers := r.headers, body := r.body.content }

theorem part_empty (w : Out) : Part {} w := by
  refine ⟨rfl, Or.inl ⟨rfl, rfl⟩, ?_, ?_, fun h => absurd rfl h⟩
  · exact List.nil_prefix
  · exact List.nil_prefix

theorem part_at (r : Resp) (h : Bool) (p : Phase) (ok : PhaseOk r h p) : Part (outAt r p) (r.whole h) := by
  cases p with
  | start => exact part_empty _
  | hdr d t =>
    refine ⟨rfl, Or.inr ⟨rfl, rfl⟩, ?_, ?_, fun h => absurd rfl h⟩
    · exact ⟨t, ok⟩
    · exact List.nil_prefix
  | len got left =>
    obtain ⟨rfl, n, t, hb⟩ := ok
    refine ⟨rfl, Or.inr ⟨rfl, rfl⟩, List.prefix_refl _, ?_, fun _ => rfl⟩
    exact ⟨left, by simp [outAt, Resp.whole, hb, Body.content]⟩
  | line got nl cs =>
    obtain ⟨rfl, n, pre, l, tr, hb, hg⟩ := ok
    refine ⟨rfl, Or.inr ⟨rfl, rfl⟩, List.prefix_refl _, ?_, fun _ => rfl⟩
    exact ⟨cs.flatMap Chunk.data, by simp [outAt, Resp.whole, hb, Body.content, hg]⟩
  | data got left cs =>
    obtain ⟨rfl, -, n, pre, c, l, tr, cd, hb, hc, hg⟩ := ok
    refine ⟨rfl, Or.inr ⟨rfl, rfl⟩, List.prefix_refl _, ?_, fun _ => rfl⟩
    exact ⟨left ++ cs.flatMap Chunk.data, by simp [outAt, Resp.whole, hb, Body.content, hg, hc]⟩
  | trail ts =>
    obtain ⟨rfl, -⟩ := ok
    exact ⟨rfl, Or.inr ⟨rfl, rfl⟩, List.prefix_refl _, List.prefix_refl _, fun _ => rfl⟩

/-- Answers from the `i`-th on. -/
def wireFrom (ans : Nat → Bool → Resp) (i : Nat) (l : List Req) : Bytes :=
  ((l.zipIdx i).map fun (u, i) => (ans i u.head).bytes u.head).flatten

theorem wireFrom_cons (ans : Nat → Bool → Resp) (i : Nat) (u : Req) (l : List Req) :
    wireFrom ans i (u :: l) = (ans i u.head).bytes u.head ++ wireFrom ans (i + 1) l := by
  simp [wireFrom, List.zipIdx_cons]

theorem wireFrom_append (ans : Nat → Bool → Resp) (i : Nat) (l m : List Req) :
    wireFrom ans i (l ++ m) = wireFrom ans i l ++ wireFrom ans (i + l.length) m := by
  induction l generalizing i with
  | nil => simp [wireFrom]
  | cons u l ih =>
    rw [List.cons_append, wireFrom_cons, wireFrom_cons, ih, List.append_assoc, List.length_cons,
      show i + 1 + l.length = i + (l.length + 1) by omega]

theorem wire_eq (ans : Nat → Bool → Resp) (l : List Req) : wire ans l = wireFrom ans 0 l := rfl

/-- The requests before the `d`-th are done, those after it were not touched. -/
def Seen (ans : Nat → Bool → Resp) (sent : List Req) (outs : Nat → Out) (d : Nat) : Prop :=
  (∀ i id h, i < d → sent[i]? = some (.get id h) → outs id = (ans i h).whole h) ∧
  (∀ i id h, d < i → sent[i]? = some (.get id h) → outs id = {}) ∧
  (∀ id, (∀ h, Req.get id h ∉ sent) → outs id = {})

/-- The request that is being answered. -/
def Cur (ans : Nat → Bool → Resp) (urls : List Req) (v : Par) (outs : Nat → Out) (d : Nat) (p : Phase) : Prop :=
  match urls with
  | [] => p = .start ∧ v = ⟨none, [], .unknown, 0, false⟩
  | u :: _ => PhaseOk (ans d u.head) u.head p ∧ At v u (ans d u.head) p ∧ ∀ id h, u = .get id h → outs id = outAt (ans d h) p

/-- What is still to come. -/
def Rem (ans : Nat → Bool → Resp) (urls : List Req) (d : Nat) (p : Phase) : Bytes :=
  match urls with
  | [] => []
  | u :: us => rest (ans d u.head) u.head p ++ wireFrom ans (d + 1) us

/-- The stream is in step with the server. -/
def Sync (ans : Nat → Bool → Resp) (s : St) (got d : Nat) (p : Phase) : Prop :=
  s.closed = false ∧ s.err = false ∧ s.eof = false ∧ s.urls = s.sent.drop d ∧ d ≤ s.sent.length ∧
  Seen ans s.sent s.outs d ∧ Cur ans s.urls s.par s.outs d p ∧
  s.inbuf ++ (wire ans s.sent).drop got = Rem ans s.urls d p ∧ got ≤ (wire ans s.sent).length

/-- The requests are in the order in which they were added; the settings are `m`. -/
def Ord (m : Nat × Bool) (s : St) (asked : List Req) : Prop :=
  s.sent.filter (!·.isTest) ++ s.waiting = asked ∧ asked.map Req.id? = (List.range asked.length).map some ∧
  (s.lastTest = true → s.pipe = true) ∧ (∀ n, Req.test n ∈ s.sent → s.pipe = true) ∧
  s.count = s.sent.length ∧ s.max = m.1 ∧ s.pipe = m.2

/-- Requests wait only when they must. -/
def Live (s : St) : Prop := s.waiting = [] ∨ s.max ≤ s.count ∨ (s.pipe = false ∧ s.urls ≠ [])

/-- The stream was closed because pipelining does not seem to work. -/
def Shut (m : Nat × Bool) (ans : Nat → Bool → Resp) (s : St) (asked : List Req) : Prop :=
  s.closed = true ∧ s.broken = true ∧ m.2 = true ∧ s.sent.filter (!·.isTest) <+: asked ∧
  asked.map Req.id? = (List.range asked.length).map some ∧ ∃ d ≤ s.sent.length,
    (∀ i id h, i < d → s.sent[i]? = some (.get id h) → s.outs id = (ans i h).whole h) ∧
    (∀ i id h, d ≤ i → s.sent[i]? = some (.get id h) → s.outs id = {}) ∧
    (∀ id, (∀ h, Req.get id h ∉ s.sent) → s.outs id = {})

variable {m : Nat × Bool}

theorem id_of_filter (l : List Req) : (l.filter (!·.isTest)).filterMap Req.id? = l.filterMap Req.id? := by
  induction l with
  | nil => rfl
  | cons u l ih =>
    cases u with
    | get id a =>
      rw [List.filter_cons_of_pos (by rfl)]
      show id :: _ = id :: _
      rw [ih]
    | test n => rw [List.filter_cons_of_neg (by simp [Req.isTest])]; exact ih

theorem nodup_ids (s : St) (asked : List Req) (h : Ord m s asked) : (s.sent.filterMap Req.id? ++ s.waiting.filterMap Req.id?).Nodup := by
  have h1 : s.sent.filterMap Req.id? ++ s.waiting.filterMap Req.id? = asked.filterMap Req.id? := by
    rw [← h.1, List.filterMap_append, id_of_filter]
  have h2 : asked.filterMap Req.id? = List.range asked.length := by
    have : asked.filterMap Req.id? = (asked.map Req.id?).filterMap id := by
      rw [List.filterMap_map]; rfl
    rw [this, h.2.1, List.filterMap_map]
    exact List.filterMap_some
  rw [h1, h2]
  exact List.nodup_range

theorem distinct (s : St) (asked : List Req) (h : Ord m s asked) (i j id : Nat) (a b : Bool)
    (hi : s.sent[i]? = some (.get id a)) (hj : s.sent[j]? = some (.get id b)) : i = j := by
  have hn := (List.nodup_append.mp (nodup_ids s asked h)).1
  unfold List.Nodup at hn
  rw [List.pairwise_filterMap, List.pairwise_iff_getElem] at hn
  obtain ⟨li, ei⟩ := List.getElem?_eq_some_iff.mp hi
  obtain ⟨lj, ej⟩ := List.getElem?_eq_some_iff.mp hj
  rcases Nat.lt_trichotomy i j with hlt | heq | hgt
  · exact absurd rfl (hn i j li lj hlt id (by rw [ei]; rfl) id (by rw [ej]; rfl))
  · exact heq
  · exact absurd rfl (hn j i lj li hgt id (by rw [ej]; rfl) id (by rw [ei]; rfl))

theorem fresh (s : St) (asked : List Req) (h : Ord m s asked) (u : Req) (ws : List Req) (hw : s.waiting = u :: ws)
    (id : Nat) (a : Bool) (hu : u = .get id a) (b : Bool) : Req.get id b ∉ s.sent := by
  intro hm
  have hn := (List.nodup_append.mp (nodup_ids s asked h)).2.2
  refine hn id (List.mem_filterMap.mpr ⟨_, hm, rfl⟩) id (List.mem_filterMap.mpr ⟨u, by rw [hw]; simp, by rw [hu]; rfl⟩) rfl

/-- A request is sent and put at the end of the list. -/
def St.push (s : St) (u : Req) : St := { s with count := s.count + 1, sent := s.sent ++ [u], urls := s.urls ++ [u] }

theorem push_sync (ans : Nat → Bool → Resp) (s : St) (got d : Nat) (p : Phase) (u : Req) (h : Sync ans s got d p)
    (hf : ∀ id a, u = .get id a → ∀ b, Req.get id b ∉ s.sent) : Sync ans (s.push u) got d p := by
  obtain ⟨h1, h2, h3, h4, h5, ⟨s1, s2, s3⟩, h7, h8, h9⟩ := h
  have hw : wire ans (s.sent ++ [u]) = wire ans s.sent ++ (ans s.sent.length u.head).bytes u.head := by
    rw [wire_eq, wire_eq, wireFrom_append, wireFrom_cons]
    simp [wireFrom]
  have hlast : ∀ i id a, (s.sent ++ [u])[i]? = some (.get id a) →
      s.sent[i]? = some (.get id a) ∨ (i = s.sent.length ∧ u = .get id a) := by
    intro i id a hi
    rcases Nat.lt_trichotomy i s.sent.length with hlt | heq | hgt
    · rw [List.getElem?_append_left hlt] at hi; exact Or.inl hi
    · subst heq; rw [List.getElem?_append_right (Nat.le_refl _)] at hi
      simp at hi; exact Or.inr ⟨rfl, hi⟩
    · rw [List.getElem?_eq_none (by simp; omega)] at hi; cases hi
  refine ⟨h1, h2, h3, ?_, ?_, ⟨?_, ?_, ?_⟩, ?_, ?_, ?_⟩
  · show s.urls ++ [u] = (s.sent ++ [u]).drop d
    rw [List.drop_append_of_le_length h5, h4]
  · show d ≤ (s.sent ++ [u]).length
    simp; omega
  · intro i id a hi hs
    rcases hlast i id a hs with hs | ⟨rfl, -⟩
    · exact s1 i id a hi hs
    · omega
  · intro i id a hi hs
    rcases hlast i id a hs with hs | ⟨rfl, hu⟩
    · exact s2 i id a hi hs
    · exact s3 id (hf id a hu)
  · intro id hs
    exact s3 id (fun a hm => hs a (List.mem_append_left _ hm))
  · show Cur ans (s.urls ++ [u]) s.par s.outs d p
    revert h7
    cases hu : s.urls with
    | nil =>
      rintro ⟨rfl, hv⟩
      refine ⟨trivial, hv, ?_⟩
      intro id a ha
      exact s3 id (hf id a ha)
    | cons v us => exact fun h7 => h7
  · show s.inbuf ++ (wire ans (s.sent ++ [u])).drop got = Rem ans (s.urls ++ [u]) d p
    rw [hw, List.drop_append_of_le_length h9, ← List.append_assoc, h8]
    revert h7
    cases hu : s.urls with
    | nil =>
      rintro ⟨rfl, -⟩
      have hd : d = s.sent.length := by
        rw [hu] at h4
        have := congrArg List.length h4
        simp at this
        omega
      simp [Rem, rest, wireFrom, hd]
    | cons v us =>
      intro _
      have hl : us.length + 1 = s.sent.length - d := by
        rw [hu] at h4
        have := congrArg List.length h4
        simpa using this
      simp only [Rem, List.cons_append, List.append_assoc]
      congr 1
      rw [wireFrom_append, wireFrom_cons, show d + 1 + us.length = s.sent.length by omega]
      simp [wireFrom]
  · show got ≤ (wire ans (s.sent ++ [u])).length
    rw [hw]; simp; omega

/-- Everything is as it should be; the stream may have been closed. -/
def Fine (m : Nat × Bool) (ans : Nat → Bool → Resp) (s : St) (asked : List Req) (got d : Nat) : Prop :=
  (∃ d' p, d ≤ d' ∧ Sync ans s got d' p ∧ Ord m s asked ∧ Live s) ∨ Shut m ans s asked

theorem requestNext_inbuf (s : St) : s.requestNext.inbuf = s.inbuf := by
  unfold St.requestNext
  cases s.waiting with
  | nil => rfl
  | cons u ws =>
    simp only []
    split
    · rfl
    · split
      · rfl
      · show (St.send (if _ then _ else _) u).inbuf = _
        split <;> rfl

theorem requestNext_fine (ans : Nat → Bool → Resp) (s : St) (asked : List Req) (got d : Nat) (p : Phase)
    (h : Sync ans s got d p) (ho : Ord m s asked) (hl : s.pipe = true → s.waiting.length ≤ 1 ∨ s.max ≤ s.count) :
    Sync ans s.requestNext got d p ∧ Ord m s.requestNext asked ∧ Live s.requestNext := by
  unfold St.requestNext
  cases hw : s.waiting with
  | nil => exact ⟨h, ho, Or.inl hw⟩
  | cons u ws =>
    simp only []
    by_cases h1 : s.count ≥ s.max
    · rw [if_pos h1]; exact ⟨h, ho, Or.inr (Or.inl h1)⟩
    · rw [if_neg h1]
      by_cases h2 : (!s.pipe && !s.urls.isEmpty) = true
      · rw [if_pos h2]
        refine ⟨h, ho, Or.inr (Or.inr ?_)⟩
        simp at h2; exact h2
      · rw [if_neg h2]
        have hut : u.isTest = false := by
          have hm : u ∈ asked := by rw [← ho.1, hw]; simp
          have : u.id? ∈ asked.map Req.id? := List.mem_map_of_mem hm
          rw [ho.2.1] at this
          obtain ⟨n, -, hn⟩ := List.mem_map.mp this
          cases u with
          | get id a => rfl
          | test n => cases hn
        have hc : s.closed = false := h.1
        have hws : s.pipe = true → ws = [] := by
          intro hp
          rcases hl hp with hl | hl
          · rw [hw] at hl; simp at hl; exact hl
          · omega
        by_cases h3 : (s.pipe && s.count == 0 && decide (1 < s.max)) = true
        · -- with a test first
          have hp : s.pipe = true := by simp at h3; exact h3.1.1
          have e : (let s' : St := { s with waiting := ws }
              let s' := if s'.pipe && s'.count == 0 && 1 < s'.max then s'.startTest else s'
              let s' := s'.send u
              { s' with urls := s'.urls ++ [u] } : St) = (({ s with waiting := ws }).push (.test s.count)).push u := by
            simp only [h3, if_true, St.startTest, St.send, hc, St.push, Bool.false_eq_true, if_false]
          refine ⟨?_, ?_, ?_⟩
          · rw [e]
            apply push_sync
            · apply push_sync
              · exact h
              · intro id a ha; cases ha
            · intro id a ha b hm
              rcases List.mem_append.mp hm with hm | hm
              · exact fresh s asked ho u ws hw id a ha b hm
              · simp at hm
          · rw [e]
            refine ⟨?_, ho.2.1, ho.2.2.1, fun _ _ => hp, by simp [St.push, ho.2.2.2.2.1], ho.2.2.2.2.2⟩
            show (s.sent ++ [Req.test s.count] ++ [u]).filter (!·.isTest) ++ ws = asked
            rw [← ho.1, hw]
            cases u with
            | get id a => simp [List.filter_cons, Req.isTest]
            | test n => cases hut
          · rw [e]; left; exact hws hp
        · have e : (let s' : St := { s with waiting := ws }
              let s' := if s'.pipe && s'.count == 0 && 1 < s'.max then s'.startTest else s'
              let s' := s'.send u
              { s' with urls := s'.urls ++ [u] } : St) = ({ s with waiting := ws }).push u := by
            simp only [h3, St.send, hc, St.push, Bool.false_eq_true, if_false]
          refine ⟨?_, ?_, ?_⟩
          · rw [e]
            apply push_sync
            · exact h
            · intro id a ha b hm
              exact fresh s asked ho u ws hw id a ha b hm
          · rw [e]
            refine ⟨?_, ho.2.1, ho.2.2.1, ?_, by simp [St.push, ho.2.2.2.2.1], ho.2.2.2.2.2⟩
            · show (s.sent ++ [u]).filter (!·.isTest) ++ ws = asked
              rw [← ho.1, hw]; simp [hut]
            · intro n hm
              rcases List.mem_append.mp hm with hm | hm
              · exact ho.2.2.2.1 n hm
              · simp at hm; rw [← hm] at hut; cases hut
          · rw [e]
            cases hp : s.pipe with
            | true => left; exact hws hp
            | false => right; right; exact ⟨rfl, by simp [St.push]⟩

/-- The answer to the first request has been read. -/
structure Finished (ans : Nat → Bool → Resp) (s : St) (got d : Nat) (u : Req) (us : List Req) : Prop where
  nc : s.closed = false
  ne : s.err = false
  nf : s.eof = false
  urls : s.urls = u :: us
  drop : s.urls = s.sent.drop d
  seen : Seen ans s.sent s.outs d
  curl : s.curl = some u
  out : ∀ id h, u = .get id h → s.outs id = { (ans d h).whole h with done := false }
  input : s.inbuf ++ (wire ans s.sent).drop got = wireFrom ans (d + 1) us
  got : got ≤ (wire ans s.sent).length

/-- The first request is marked done and taken off the list. -/
theorem removed_sync (ans : Nat → Bool → Resp) (s s' : St) (got d : Nat) (u : Req) (us : List Req) (asked : List Req)
    (h : Finished ans s got d u us) (ho : Ord m s asked) (h1 : s'.closed = false) (h2 : s'.err = false) (h3 : s'.eof = false)
    (h4 : s'.urls = us) (h5 : s'.sent = s.sent) (h6 : s'.outs = (s.out u fun o => { o with done := true }).outs)
    (h7 : s'.par = ⟨none, [], .unknown, 0, false⟩) (h8 : s'.inbuf = s.inbuf) : Sync ans s' got (d + 1) .start := by
  have hd : s.sent[d]? = some u := by
    have := h.drop
    rw [h.urls] at this
    have h0 : (s.sent.drop d)[0]? = some u := by rw [← this]; rfl
    rw [List.getElem?_drop] at h0
    simpa using h0
  have hlt : d < s.sent.length := (List.getElem?_eq_some_iff.mp hd).1
  have hu : us = s.sent.drop (d + 1) := by
    have := h.drop
    rw [h.urls] at this
    have := congrArg List.tail this
    simpa using this
  obtain ⟨s1, s2, s3⟩ := h.seen
  have hout : ∀ i id a, s.sent[i]? = some (.get id a) → i ≠ d → s'.outs id = s.outs id := by
    intro i id a hi hne
    rw [h6]
    cases u with
    | test n => rfl
    | get id' b =>
      show (if id = id' then _ else _) = _
      rw [if_neg]
      intro e
      subst e
      exact hne (distinct s asked ho i d id a b hi hd)
  refine ⟨h1, h2, h3, by rw [h4, h5, hu], by rw [h5]; omega, ⟨?_, ?_, ?_⟩, ?_, ?_, by rw [h5]; exact h.got⟩
  · intro i id a hi hs
    rw [h5] at hs
    by_cases e : i = d
    · subst e
      rw [hs] at hd
      have hd := Option.some.inj hd
      rw [h6, ← hd]
      show (if id = id then _ else _) = _
      rw [if_pos rfl, h.out id a hd.symm]
      rfl
    · rw [hout i id a hs e]
      exact s1 i id a (by omega) hs
  · intro i id a hi hs
    rw [h5] at hs
    rw [hout i id a hs (by omega)]
    exact s2 i id a (by omega) hs
  · intro id hs
    rw [h5] at hs
    rw [h6]
    cases u with
    | test n => exact s3 id hs
    | get id' b =>
      show (if id = id' then _ else _) = _
      rw [if_neg]
      · exact s3 id hs
      · intro e; subst e; exact hs b (List.mem_iff_getElem?.mpr ⟨d, hd⟩)
  · rw [h4, h7]
    cases us with
    | nil => exact ⟨rfl, rfl⟩
    | cons v vs =>
      refine ⟨trivial, rfl, ?_⟩
      intro id a ha
      have hv : s.sent[d + 1]? = some v := by
        have h0 : (s.sent.drop (d + 1))[0]? = some v := by rw [← hu]; rfl
        rw [List.getElem?_drop] at h0
        simpa using h0
      rw [ha] at hv
      rw [hout (d + 1) id a hv (by omega)]
      exact s2 (d + 1) id a (by omega) hv
  · rw [h8, h5, h.input, h4]
    cases us with
    | nil => rfl
    | cons v vs => rw [wireFrom_cons]; rfl

theorem shut_of (ans : Nat → Bool → Resp) (s s' : St) (asked : List Req) (got d : Nat) (h : Sync ans s got d .start) (ho : Ord m s asked)
    (h1 : s'.closed = true) (h2 : s'.broken = true) (h3 : s.pipe = true) (h4 : s'.sent = s.sent) (h5 : s'.outs = s.outs) :
    Shut m ans s' asked := by
  obtain ⟨-, -, -, e, hd, ⟨s1, s2, s3⟩, hc, -, -⟩ := h
  refine ⟨h1, h2, by rw [← ho.2.2.2.2.2.2]; exact h3, by rw [h4]; exact ⟨_, ho.1⟩, ho.2.1, d, by rw [h4]; exact hd, ?_, ?_, ?_⟩
  · rw [h4, h5]; exact s1
  · rw [h4, h5]
    intro i id a hi hs
    by_cases he : i = d
    · subst he
      have hu : s.urls.head? = some (.get id a) := by
        rw [e, List.head?_drop]; exact hs
      revert hc
      cases hu' : s.urls with
      | nil => rw [hu'] at hu; cases hu
      | cons u us =>
        rw [hu'] at hu
        intro hc
        exact hc.2.2 id a (Option.some.inj hu)
    · exact s2 i id a (by omega) hs
  · rw [h4, h5]; exact s3

/-- `doneurl` after all of an answer has been read. -/
theorem doneurl_fine (ans : Nat → Bool → Resp) (s : St) (asked : List Req) (got d : Nat) (u : Req) (us : List Req)
    (h : Finished ans s got d u us) (ho : Ord m s asked) (hl : Live s) :
    ∃ s', s.doneurl = some s' ∧ s'.inbuf = s.inbuf ∧ Fine m ans s' asked got (d + 1) := by
  have hd : s.sent[d]? = some u := by
    have := h.drop
    rw [h.urls] at this
    have h0 : (s.sent.drop d)[0]? = some u := by rw [← this]; rfl
    rw [List.getElem?_drop] at h0
    simpa using h0
  have hlive : s.pipe = true → s.waiting.length ≤ 1 ∨ s.max ≤ s.count := by
    intro hp
    rcases hl with hl | hl | hl
    · left; rw [hl]; simp
    · right; exact hl
    · rw [hp] at hl; cases hl.1
  unfold St.doneurl
  rw [h.curl, h.urls]
  simp only [ne_eq, not_true_eq_false, if_false]
  cases u with
  | get id a =>
    simp only [Req.isTest, Bool.false_and, Bool.false_eq_true, if_false, Option.map_some]
    refine ⟨_, rfl, requestNext_inbuf _, Or.inl ?_⟩
    have hs := removed_sync ans s
      { St.out { s with response := [], enc := .unknown, trailer := false, remaining := 0, lastTest := false } (.get id a)
          (fun o => { o with done := true }) with curl := none, urls := us }
      got d (.get id a) us asked h ho h.nc h.ne h.nf rfl rfl rfl rfl rfl
    have hr := requestNext_fine ans _ asked got (d + 1) .start hs
      ⟨ho.1, ho.2.1, (fun hh => by cases hh), ho.2.2.2.1, ho.2.2.2.2⟩ hlive
    refine ⟨d + 1, .start, Nat.le_refl _, ?_⟩
    exact hr
  | test n =>
    have hp : s.pipe = true := ho.2.2.2.1 n (List.mem_iff_getElem?.mpr ⟨d, hd⟩)
    by_cases h0 : s.tests = 0
    · have hb : (s.tests != 0) = false := by simp [h0]
      have h1 : (s.tests + 1 == 1) = true := by simp [h0]
      simp only [Req.isTest, Bool.true_and, hb, Bool.false_and, if_true, h1, Bool.false_eq_true, if_false, Option.map_some, St.out,
        St.startTest, St.send, h.nc, List.cons_append, List.tail_cons]
      refine ⟨_, rfl, requestNext_inbuf _, Or.inl ?_⟩
      let s0 : St := { s with response := [], enc := .unknown, trailer := false, remaining := 0, lastTest := true,
                              tests := s.tests + 1, testResponse := s.response, curl := none, urls := us }
      have hs := removed_sync ans s s0 got d (.test n) us asked h ho h.nc h.ne h.nf rfl rfl rfl rfl rfl
      have hs2 := push_sync ans s0 got (d + 1) .start (.test s.count) hs (by intro id a ha; cases ha)
      have ho2 : Ord m (s0.push (.test s.count)) asked := by
        refine ⟨?_, ho.2.1, fun _ => hp, fun _ _ => hp, by simp [St.push, s0, ho.2.2.2.2.1], ho.2.2.2.2.2⟩
        show (s.sent ++ [Req.test s.count]).filter (!·.isTest) ++ s.waiting = asked
        rw [← ho.1]; simp [List.filter_cons, Req.isTest]
      have hl2 : (s0.push (.test s.count)).pipe = true →
          (s0.push (.test s.count)).waiting.length ≤ 1 ∨ (s0.push (.test s.count)).max ≤ (s0.push (.test s.count)).count := by
        intro _
        rcases hlive hp with hh | hh
        · exact Or.inl hh
        · exact Or.inr (Nat.le_succ_of_le hh)
      have hr := requestNext_fine ans _ asked got (d + 1) .start hs2 ho2 hl2
      refine ⟨d + 1, .start, Nat.le_refl _, ?_⟩
      simp only [St.push, s0, h.nc] at hr
      exact hr
    · have hb : (s.tests != 0) = true := by simp [h0]
      have h1 : (s.tests + 1 == 1) = false := by simp [h0]
      let s0 : St := { s with response := [], enc := .unknown, trailer := false, remaining := 0, lastTest := true,
                              tests := s.tests + 1, testResponse := s.response, curl := none, urls := us }
      have hs := removed_sync ans s s0 got d (.test n) us asked h ho h.nc h.ne h.nf rfl rfl rfl rfl rfl
      by_cases h2 : (s.testResponse != s.response) = true
      · simp only [Req.isTest, Bool.true_and, hb, h2, if_true, h1, Bool.false_eq_true, if_false, St.out, List.tail_cons]
        unfold St.closeWith
        simp only [h.ne, Bool.false_and, Bool.false_eq_true, if_false, Option.bind_some, Option.isSome_none, Option.map_some]
        refine ⟨_, rfl, rfl, Or.inr ?_⟩
        exact shut_of ans s0 _ asked got (d + 1) hs ⟨ho.1, ho.2.1, fun _ => hp, ho.2.2.2⟩ rfl rfl hp rfl rfl
      · simp only [Req.isTest, Bool.true_and, hb, h2, if_true, h1, Bool.false_eq_true, if_false, St.out, List.tail_cons,
          Option.map_some]
        refine ⟨_, rfl, requestNext_inbuf _, Or.inl ?_⟩
        have hr := requestNext_fine ans s0 asked got (d + 1) .start hs
          ⟨ho.1, ho.2.1, (fun _ => hp), ho.2.2.2.1, ho.2.2.2.2⟩ hlive
        exact ⟨d + 1, .start, Nat.le_refl _, hr⟩

/-- How much is left to do, in requests. -/
def St.work (s : St) : Nat := 3 * s.waiting.length + s.urls.length + if s.tests = 0 then 1 else 0

theorem requestNext_work (s : St) : s.requestNext.work ≤ s.work := by
  unfold St.requestNext
  cases hw : s.waiting with
  | nil => exact Nat.le_refl _
  | cons u ws =>
    simp only []
    split
    · exact Nat.le_refl _
    · split
      · exact Nat.le_refl _
      · split
        · simp only [St.work, St.startTest, St.send, hw, List.length_append, List.length_cons, List.length_nil]; omega
        · simp only [St.work, St.send, hw, List.length_append, List.length_cons, List.length_nil]; omega

theorem doneurl_work (s s' : St) (u : Req) (us : List Req) (he : s.err = false) (hc : s.curl = some u) (hu : s.urls = u :: us)
    (h : s.doneurl = some s') : s'.closed = true ∨ s'.work < s.work := by
  unfold St.doneurl at h
  rw [hc, hu] at h
  simp only [ne_eq, not_true_eq_false, if_false] at h
  cases u with
  | get id a =>
    simp only [Req.isTest, Bool.false_and, Bool.false_eq_true, if_false, Option.map_some] at h
    right
    rw [← Option.some.inj h]
    refine Nat.lt_of_le_of_lt (requestNext_work _) ?_
    simp only [St.work, St.out, hu, List.tail_cons, List.length_cons]; omega
  | test n =>
    by_cases h0 : s.tests = 0
    · have hb : (s.tests != 0) = false := by simp [h0]
      have h1 : (s.tests + 1 == 1) = true := by simp [h0]
      simp only [Req.isTest, Bool.true_and, hb, Bool.false_and, if_true, h1, Bool.false_eq_true, if_false, Option.map_some, St.out,
        St.startTest, St.send, List.cons_append, List.tail_cons] at h
      right
      rw [← Option.some.inj h]
      refine Nat.lt_of_le_of_lt (requestNext_work _) ?_
      simp only [St.work, hu, h0, List.length_append, List.length_cons, List.length_nil, if_true]
      simp
    · have hb : (s.tests != 0) = true := by simp [h0]
      have h1 : (s.tests + 1 == 1) = false := by simp [h0]
      by_cases h2 : (s.testResponse != s.response) = true
      · left
        simp only [Req.isTest, Bool.true_and, hb, h2, if_true, h1, Bool.false_eq_true, if_false, St.out, List.tail_cons] at h
        unfold St.closeWith at h
        simp only [he, Bool.false_and, Bool.false_eq_true, if_false, Option.bind_some, Option.isSome_none, Option.map_some] at h
        rw [← Option.some.inj h]
        rfl
      · right
        simp only [Req.isTest, Bool.true_and, hb, h2, if_true, h1, Bool.false_eq_true, if_false, St.out, List.tail_cons,
          Option.map_some] at h
        rw [← Option.some.inj h]
        refine Nat.lt_of_le_of_lt (requestNext_work _) ?_
        simp only [St.work, hu, h0, List.length_cons, if_false]
        simp

end Wv.Http
