import Verif.Lemmas.HttpRun
/-
C66: a request made over an HTTP connection gets the answer the server sent to it.

`ans` is the server: its answer to the request it receives as the `j`-th one. Histories are lists of events: the program adds a
request, some bytes of the server arrive, `execute` is called (and gets at most `k` bytes by one `read`).
-/
namespace Props
open Wv Wv.Http Spec.Http

namespace Http66

/-- The requests, numbered as they were added. -/
def requests (hs : List Bool) : List Req := hs.zipIdx.map fun (h, i) => Req.get i h

/-- A page in chunks and one of known length. -/
def page : Resp :=
  { code := str ['2', '0', '0'], reason := str ['O', 'K'], before := [(str ['A'], str ['b'])],
    body := .chunked (str ['T', 'r', 'a', 'n', 's', 'f', 'e', 'r', '-', 'E', 'n', 'c', 'o', 'd', 'i', 'n', 'g'])
      [⟨str ['2'], str [';', 'x'], [13, 10]⟩, ⟨str ['1'], [], [65]⟩] (str ['0'], []) [] }

def page2 : Resp :=
  { code := str ['4', '0', '4'], reason := str ['N', 'o'],
    body := .length (str ['c', 'o', 'n', 't', 'e', 'n', 't', '-', 'L', 'e', 'n', 'g', 't', 'h']) (str ['5'])
      (str ['h', 'e', 'l', 'l', 'o']) }

def server (i : Nat) (_ : Bool) : Resp := if i % 2 = 0 then page else page2

theorem server_ok (i : Nat) (h : Bool) : (server i h).Ok h := by
  unfold server
  split
  · refine ⟨?_, ?_, ?_, ?_, ?_⟩
    · exact ⟨by decide, by decide, by decide⟩
    · exact ⟨by decide, by intro b hb; have : b = 75 := by { simp [page, str] at hb; rw [← hb]; decide }; rw [this]; decide⟩
    · intro x hx
      have : x = (str ['A'], str ['b']) := by simpa [page] using hx
      subst this
      refine ⟨⟨⟨by decide, by decide⟩, by unfold Line; decide, ?_, ?_⟩, by decide, by decide⟩ <;>
        (intro b hb; have : b = 98 := by { simp [str] at hb; rw [← hb]; decide }; rw [this]; decide)
    · refine ⟨by decide, ?_, ?_, by intro x hx; cases hx⟩
      · intro c hc
        simp only [List.mem_cons, List.not_mem_nil, or_false] at hc
        rcases hc with rfl | rfl
        · refine ⟨⟨by decide, by decide, by decide, by decide, by unfold Line; decide, ?_, ?_⟩, by decide⟩
          · intro b hb; simp [str] at hb; rw [← hb]; decide
          · intro b hb; simp [str] at hb; rw [← hb]; decide
        · refine ⟨⟨by decide, by decide, by decide, by decide, by unfold Line; decide, ?_, ?_⟩, by decide⟩ <;>
            (intro b hb; cases hb)
      · refine ⟨by decide, by decide, by decide, by decide, by unfold Line; decide, ?_, ?_⟩ <;> (intro b hb; cases hb)
    · intro hh; cases hh
  · refine ⟨?_, ?_, ?_, ?_, ?_⟩
    · exact ⟨by decide, by decide, by decide⟩
    · exact ⟨by decide, by intro b hb; have : b = 111 := by { simp [page2, str] at hb; rw [← hb]; decide }; rw [this]; decide⟩
    · intro x hx; cases hx
    · exact ⟨by decide, by decide, by decide, by decide, by decide⟩
    · intro hh; cases hh

/-- Rounds in which some bytes arrive and `execute` is called. -/
def rounds (n k : Nat) : Nat → List Event
  | 0 => []
  | r + 1 => .arrive n :: .exec k :: rounds n k r

/-- A server that has no page with the name used in the tests of pipelining. -/
def tested (i : Nat) (_ : Bool) : Resp := if i = 0 ∨ i = 4 then page2 else page

/-- A server with a colon in the reason. -/
def colon (_ : Nat) (_ : Bool) : Resp := { page2 with reason := str ['N', ':', 'o'] }

end Http66
open Http66

/-- While the server does not hang up, nothing fails; the requests are sent once each and in the order in which they were
    added; of the requests that were sent, those before some point have got exactly the answer of the server to them, with the
    mark that it is complete, the next one a part of the answer to it, and those after it nothing; the other requests have
    got nothing. The connection is closed only if it is used for pipelining.
    Missing: servers that hang up in the middle of an answer, for which it fails (below); answers that are not HTTP/1.1 or have
    no length. -/
theorem C66_answers_partial (ans : Nat → Bool → Resp) (hok : ∀ j head, (ans j head).Ok head) (max : Nat) (pipe : Bool)
    (es : List Event) (hn : Event.hangup ∉ es) :
    ∃ y hs, (Sys.new max pipe).run ans es = some y ∧
      hs <+: adds es ∧ (y.st.closed = false → hs = adds es) ∧
      y.st.sent.filter (!·.isTest) <+: requests hs ∧
      (∃ d, ∀ j id head, y.st.sent[j]? = some (.get id head) →
        (j < d → y.st.outs id = (ans j head).whole head) ∧
        (j = d → Part (y.st.outs id) ((ans j head).whole head)) ∧
        (d < j → y.st.outs id = {})) ∧
      (∀ id, (∀ head, Req.get id head ∉ y.st.sent) → y.st.outs id = {}) ∧
      (y.st.closed = true → pipe = true ∧ y.st.broken = true) := by
  obtain ⟨y, hr, hg⟩ := run_good ans hok es hn (Sys.new max pipe) (new_good ans max pipe)
  obtain ⟨hs, h1, h2, h3⟩ := run_asked ans es _ _ hr
  have h3 : y.asked = requests hs := h3
  obtain ⟨⟨d, -, hd⟩, ho⟩ := good_outs ans y hg
  refine ⟨y, hs, hr, h1, h2, ?_, ⟨d, hd⟩, ho, ?_⟩
  · rw [← h3]
    rcases hg with ⟨_, _, -, -, hord, -⟩ | hsh
    · exact ⟨_, hord.1⟩
    · exact hsh.2.2.2.1
  · intro hc
    rcases hg with ⟨_, _, -, hs, -⟩ | hsh
    · rw [hs.1] at hc; cases hc
    · exact ⟨hsh.2.2.1, hsh.2.1⟩

-- A page in chunks, then one of known length, that arrive in pieces of 7 bytes and are read by 3 bytes: both are complete.
example : (((Sys.new 100 false).run server ([.add false, .add false] ++ rounds 7 3 40)).map fun y =>
    (y.st.outs 0, y.st.outs 1, y.st.closed)) = some ((server 0 false).whole false, (server 1 false).whole false, false) := by
  decide +kernel

example : (server 0 false).whole false =
    { version := str ['1', '.', '1'], status := 200,
      headers := [(str ['A'], str ['b']), (str ['T', 'r', 'a', 'n', 's', 'f', 'e', 'r', '-', 'E', 'n', 'c', 'o', 'd', 'i', 'n', 'g'],
        str ['c', 'h', 'u', 'n', 'k', 'e', 'd'])], body := [13, 10, 65], done := true } := by decide +kernel

-- After fewer rounds a part of the first one is there.
example : (((Sys.new 100 false).run server ([.add false, .add false] ++ rounds 7 3 11)).map fun y =>
    ((y.st.outs 0).headers, (y.st.outs 0).body, (y.st.outs 0).done, y.st.outs 1)) =
      some ((server 0 false).headers, [13, 10], false, {}) := by decide +kernel

example : ∀ j head, (server j head).Ok head := server_ok

/-- Whatever happened, if from now on the bytes of the server arrive and `execute` is called for long enough, then the stream
    is closed because pipelining does not work, or all requests that were sent have got all of the answers, and these are all
    that were added or as many as may be sent over one connection. Missing: as above. -/
theorem C66_completes_partial (ans : Nat → Bool → Resp) (hok : ∀ j head, (ans j head).Ok head) (max : Nat) (pipe : Bool)
    (es : List Event) (hn : Event.hangup ∉ es) :
    ∃ fs, (∀ e ∈ fs, (∃ n, e = .arrive n) ∨ ∃ k, e = .exec k) ∧
      ∃ y, (Sys.new max pipe).run ans (es ++ fs) = some y ∧
        ((y.st.closed = true ∧ pipe = true ∧ y.st.broken = true) ∨
         ((∀ j id head, y.st.sent[j]? = some (.get id head) → y.st.outs id = (ans j head).whole head) ∧
          (y.st.sent.filter (!·.isTest) = requests (adds es) ∨
           (max ≤ y.st.sent.length ∧ y.st.sent.filter (!·.isTest) <+: requests (adds es))))) := by
  obtain ⟨y1, hr1, hg1⟩ := run_good ans hok es hn (Sys.new max pipe) (new_good ans max pipe)
  obtain ⟨fs, hf, y, hr, hg, hend⟩ := drain ans hok _ _ y1 (Nat.le_refl _) (Nat.le_refl _) hg1
  have hrun : (Sys.new max pipe).run ans (es ++ fs) = some y := by rw [run_append, hr1]; exact hr
  refine ⟨fs, hf, y, hrun, ?_⟩
  have hadds : adds (es ++ fs) = adds es := by
    have : adds fs = [] := by
      unfold adds
      rw [List.filterMap_eq_nil_iff]
      intro e he
      rcases hf e he with ⟨n, rfl⟩ | ⟨k, rfl⟩ <;> rfl
    unfold adds at *
    rw [List.filterMap_append, this, List.append_nil]
  obtain ⟨hs, h1, h2, h3⟩ := run_asked ans _ _ _ hrun
  rw [hadds] at h1 h2
  have h3 : y.asked = requests hs := h3
  rcases hg with ⟨d0, p0, hd0, hsync, hord, hl⟩ | hsh
  · right
    have hc : y.st.closed = false := hsync.1
    have hu : y.st.urls = [] := by
      rcases hend with hh | hh
      · rw [hc] at hh; cases hh
      · exact hh
    rw [h2 hc] at h3
    obtain ⟨⟨d, hd1, hd⟩, -⟩ := good_outs ans y (Or.inl ⟨d0, p0, hd0, hsync, hord, hl⟩)
    refine ⟨?_, ?_⟩
    · intro j id head hj
      refine (hd j id head hj).1 ?_
      rw [hd1 hu hc]
      exact (List.getElem?_eq_some_iff.mp hj).1
    · rw [← h3]
      rcases hl with hl | hl | hl
      · left
        have := hord.1
        rw [hl, List.append_nil] at this
        exact this
      · right
        refine ⟨?_, _, hord.1⟩
        rw [hord.2.2.2.2.1, hord.2.2.2.2.2.1] at hl
        exact hl
      · exact absurd hu hl.2
  · left; exact ⟨hsh.1, hsh.2.2.1, hsh.2.1⟩

-- With pipelining, three requests, of which one is HEAD; the tests of pipelining come in between.
example : (((Sys.new 100 true).run tested ([.add false, .add true, .add false] ++ rounds 1000 50 60)).map fun y =>
    (y.st.outs 0 == page.whole false && y.st.outs 1 == page.whole true && y.st.outs 2 == page.whole false, y.st.closed,
     y.st.sent)) = some (true, false, [.test 0, .get 0 false, .get 1 true, .get 2 false, .test 4]) := by
  decide +kernel

/-- It fails if the server hangs up in the middle of a page: what has come of it is marked complete, and no error is
    reported. -/
theorem C66_truncated_fails :
    ∃ (ans : Nat → Bool → Resp) (es : List Event) (y : Sys), (∀ j head, (ans j head).Ok head) ∧
      (Sys.new 1 false).run ans es = some y ∧ y.st.sent = [.get 0 false] ∧ y.st.err = false ∧
      (y.st.outs 0).done = true ∧ (y.st.outs 0).body = str ['h', 'e', 'l'] ∧
      ((ans 0 false).whole false).body = str ['h', 'e', 'l', 'l', 'o'] := by
  refine ⟨fun j h => server (j + 1) h, [.add false, .arrive 41] ++ rounds 0 100 4 ++ [.hangup, .exec 100], ?_⟩
  refine ⟨((Sys.new 1 false).run (fun j h => server (j + 1) h) ([.add false, .arrive 41] ++ rounds 0 100 4 ++ [.hangup, .exec 100])).getD
    (Sys.new 0 false), fun j h => server_ok (j + 1) h, ?_⟩
  refine ⟨?_, by decide +kernel, by decide +kernel, by decide +kernel, by decide +kernel, by decide +kernel⟩
  have : (((Sys.new 1 false).run (fun j h => server (j + 1) h) ([.add false, .arrive 41] ++ rounds 0 100 4 ++ [.hangup, .exec 100])).isSome) = true := by
    decide +kernel
  cases h : (Sys.new 1 false).run (fun j h => server (j + 1) h) ([.add false, .arrive 41] ++ rounds 0 100 4 ++ [.hangup, .exec 100]) with
  | none => rw [h] at this; cases this
  | some y => rfl

/-- A colon in the reason is not allowed for: the status line is taken for a header, and there is no status. -/
theorem C66_colon_fails :
    (((Sys.new 1 false).run colon ([.add false] ++ rounds 100 100 6)).map fun y =>
      ((y.st.outs 0).done, (y.st.outs 0).status, (y.st.outs 0).version, (y.st.outs 0).headers.length)) = some (true, 0, [], 2) ∧
    ((colon 0 false).whole false).status = 404 ∧ ((colon 0 false).whole false).headers.length = 1 := by
  decide +kernel

/-- After an answer of an old server to HEAD the stream looks at the next five bytes, to find out whether the server sent the
    page in spite of that; if not all five have come yet, an assertion fails. -/
theorem C66_peek_fails :
    let s := ({ max := 1, pipe := false } : St).addurl (.get 0 true)
    let s : St := { s with inbuf := str ['H', 'T', 'T', 'P', '/', '1', '.', '0', ' ', '2', '0', '0', ' ', 'O', 'K', '\r', '\n',
      'C', 'o', 'n', 't', 'e', 'n', 't', '-', 'l', 'e', 'n', 'g', 't', 'h', ':', ' ', '5', '\r', '\n', '\r', '\n', 'h', 'e', 'l'] }
    ((((s.execute 100).bind (·.execute 100)).bind (·.execute 100)).map (·.inbuf)) = some (str ['h', 'e', 'l']) ∧
    ((((s.execute 100).bind (·.execute 100)).bind (·.execute 100)).bind (·.execute 100)).isNone = true := by
  decide +kernel

end Props
