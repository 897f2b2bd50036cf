import Verif.Lemmas.BusConn
/-
C68: each request that is sent over a DBus connection gets the answer that belongs to it, once; other messages go to the filters
in the order of their priorities.
-/
namespace Props
open Wv.BusConn Spec.BusCalls

namespace Bus68

abbrev Filters := List (Nat × Nat)

/-- The answer to the request that went out with this number. -/
def ans (n : Nat) : In := { tag := n, reply := n }

/-- Requests 0 and 1 are sent; the answer to 1 comes; its function sends request 2 and returns; the answer to 0 comes. -/
def story : List Event := [.send 0 true 100, .send 0 true 100, .recv (ans 1002), .send 0 true 100, .ret true, .recv (ans 1001), .ret true]

def start : Conn := { callbacks := [(6000, 1), (0, 2)] }

theorem run_append (sort : Filters → Filters) : ∀ (es fs : List Event) (c : Conn),
    c.run sort (es ++ fs) = (c.run sort es).bind fun (d, l) => (d.run sort fs).map fun (e, k) => (e, l ++ k) := by
  intro es
  induction es with
  | nil =>
    intro fs c
    show c.run sort fs = (c.run sort fs).map fun (e, k) => (e, [] ++ k)
    cases c.run sort fs <;> rfl
  | cons e es ih =>
    intro fs c
    show (c.step sort e).bind _ = ((c.step sort e).bind _).bind _
    cases c.step sort e with
    | none => rfl
    | some x =>
      obtain ⟨d, l⟩ := x
      show (d.run sort (es ++ fs)).map _ = ((d.run sort es).map _).bind _
      rw [ih]
      cases d.run sort es with
      | none => rfl
      | some y =>
        obtain ⟨d', l'⟩ := y
        show ((d'.run sort fs).map _).map _ = (d'.run sort fs).map _
        cases d'.run sort fs with
        | none => rfl
        | some z =>
          show some _ = some _
          simp [List.append_assoc]

end Bus68
open Bus68

/-- **C68 (each answer once).** Whatever the program sends, at any time, whatever arrives: the function of a request is called at most
    once, and if it is called with an answer, that answers the message that was sent as this request. (`Fine`: no message is sent
    again, with a function, from inside of the function that runs with its answer; see `C68_resend_fails`.) -/
theorem C68_once_partial (sort : Filters → Filters) (cbs : Filters) (es : List Event)
    (hf : Fine sort { callbacks := cbs } es) (c : Conn) (l : List Effect) (hr : Conn.run sort { callbacks := cbs } es = some (c, l)) :
    (∀ r, calls r l ≤ 1) ∧ (∀ r m, Effect.called r (.answer m) ∈ l → Effect.sent m.reply (some r) ∈ l) ∧
      ∀ r s s', Effect.sent s (some r) ∈ l → Effect.sent s' (some r) ∈ l → s = s' := by
  have hi := run_inv sort es _ [] (inv_init cbs) hf c l hr
  rw [List.nil_append] at hi
  refine ⟨fun r => ?_, hi.right, fun r s s' => hi.once s s' r⟩
  have hs := hi.sum r
  have h1 : (if r < c.next then 1 else 0) ≤ 1 := by split <;> omega
  rcases hi.running with h | ⟨p, h2, h3⟩
  · rw [h, cnt_nil] at hs; omega
  · rw [h2, cnt_cons, cnt_nil] at hs
    by_cases hp : p.id = r
    · have : 0 < cnt r c.all := by rw [← hp]; exact cnt_mem (List.mem_append_left _ (find_mem h3).1)
      rw [if_pos hp] at hs
      omega
    · rw [if_neg hp] at hs; omega

example : ∃ c, Conn.run id start story = some (c, [.sent 1001 (some 0), .sent 1002 (some 1), .called 1 (.answer (ans 1002)),
    .sent 1003 (some 2), .called 0 (.answer (ans 1001))]) ∧ c.stack = [] := ⟨_, rfl, rfl⟩

example : Fine id start story := by
  refine ⟨fun p hp => ?_, ?_⟩
  · simp [start, Conn.running] at hp
  intro c l h; cases h
  refine ⟨fun p hp => ?_, ?_⟩
  · simp [start, Conn.running, Conn.addPending, Conn.find] at hp
  intro c l h; cases h
  refine ⟨trivial, ?_⟩
  intro c l h; cases h
  refine ⟨fun p hp => ?_, ?_⟩
  · have hp : p ∈ [(⟨1, 1002, 100⟩ : Req)] := hp
    rw [List.mem_singleton] at hp
    subst hp
    decide
  intro c l h; cases h
  refine ⟨trivial, ?_⟩
  intro c l h; cases h
  refine ⟨trivial, ?_⟩
  intro c l h; cases h
  exact ⟨trivial, fun _ _ _ => trivial⟩

/-- **C68 (no answer is lost).** When the answer to a request arrives that was not answered so far, the function of this request is called
    with it, and nothing else; no matter what else was sent, answered or is open. (The connection is open and no function runs;
    no other open request went out with the same number, which can only be when the program sent one message twice.) -/
theorem C68_answered_partial (sort : Filters → Filters) (cbs : Filters) (es : List Event)
    (hf : Fine sort { callbacks := cbs } es) (c : Conn) (l : List Effect) (hr : Conn.run sort { callbacks := cbs } es = some (c, l))
    (hc : c.closed = false) (hst : c.stack = []) (r : Nat) (m : In) (hm : m.reply ≠ 0) (ho : Open l r m.reply)
    (hu : ∀ q, Open l q m.reply → q = r) :
    ∃ d, Conn.run sort { callbacks := cbs } (es ++ [.recv m]) = some (d, l ++ [.called r (.answer m)]) := by
  have hi := run_inv sort es _ [] (inv_init cbs) hf c l hr
  rw [List.nil_append] at hi
  have hrun : c.running = [] := by unfold Conn.running; rw [hst]; rfl
  have hall : c.all = c.pending := by unfold Conn.all Conn.waiting; rw [hst]; simp
  have hsel : c.selecting = false := by unfold Conn.selecting; rw [hst]; rfl
  have hs := hi.sum r
  rw [ho.2, if_pos (hi.below _ _ ho.1), hrun, cnt_nil, hall] at hs
  have hpos : 0 < cnt r c.pending := by omega
  obtain ⟨p, hp, hpid⟩ := List.countP_pos_iff.mp hpos
  have hpid : p.id = r := by simpa using hpid
  have hps : p.serial = m.reply := hi.once _ _ r (by rw [← hpid]; exact hi.sent p (by rw [hall]; exact hp)) ho.1
  cases hfd : c.find m.reply with
  | none =>
    unfold Conn.find at hfd
    have := List.find?_eq_none.mp hfd p hp
    simp [hps] at this
  | some q =>
    obtain ⟨hq1, hq2⟩ := find_mem hfd
    have hqs := hi.sent q (by rw [hall]; exact hq1)
    have hqr : q.id = r := by
      refine hu q.id ⟨by rw [← hq2]; exact hqs, ?_⟩
      have hs := hi.sum q.id
      rw [if_pos (hi.below _ _ hqs), hrun, cnt_nil, hall] at hs
      have := cnt_mem hq1
      omega
    rw [run_append, hr]
    refine ⟨{ c with stack := .reply q :: c.stack }, ?_⟩
    show ((c.run sort [.recv m]).map _) = _
    have : c.run sort [.recv m] = some ({ c with stack := .reply q :: c.stack }, [.called r (.answer m)]) := by
      unfold Conn.run Conn.step
      dsimp only
      rw [if_neg (by rw [hc, hsel]; decide), if_neg hm, hfd]
      dsimp only
      rw [hqr]
      rfl
    rw [this]; rfl

example : Open [.sent 1001 (some 0), .sent 1002 (some 1), .called 1 (.answer (ans 1002))] 0 1001 ∧
    ∀ q, Open [.sent 1001 (some 0), .sent 1002 (some 1), .called 1 (.answer (ans 1002))] q 1001 → q = 0 := by
  refine ⟨⟨by decide, by decide⟩, fun q h => ?_⟩
  have := h.1
  simp at this
  exact this

/-- **C68 (other messages go to the filters).** A message that is no answer, or the answer to something nobody waits for, goes to the
    filters in the order of their priorities, one after the other, until one says that it has handled it. This does not change
    what is open, and `sort` may put filters of the same priority in any order. -/
theorem C68_filters (sort : Filters → Filters) (hsort : ∀ l, (sort l).Perm l ∧ (sort l).Pairwise fun a b => a.1 ≤ b.1)
    (cbs : Filters) (es : List Event) (hf : Fine sort { callbacks := cbs } es) (c : Conn) (l : List Effect)
    (hr : Conn.run sort { callbacks := cbs } es = some (c, l)) (hc : c.closed = false) (hst : c.stack = []) (m : In)
    (hm : m.reply = 0 ∨ ∀ q, ¬ Open l q m.reply) :
    ∃ fs : Filters, fs.Perm c.callbacks ∧ (fs.Pairwise fun a b => a.1 ≤ b.1) ∧
      ∀ n < fs.length,
        (∃ d, Conn.run sort { callbacks := cbs } (es ++ .recv m :: List.replicate n (.ret false)) =
          some (d, l ++ (fs.take (n + 1)).map fun f => .filter f.2 m)) ∧
        ∀ b, b = true ∨ n + 1 = fs.length → (∃ d, Conn.run sort { callbacks := cbs } (es ++ .recv m :: (List.replicate n (.ret false) ++ [.ret b])) =
          some (d, l ++ (fs.take (n + 1)).map fun f => .filter f.2 m) ∧ d.stack = [] ∧ d.pending = c.pending) := by
  have hi := run_inv sort es _ [] (inv_init cbs) hf c l hr
  rw [List.nil_append] at hi
  refine ⟨sort c.callbacks, (hsort _).1, (hsort _).2, ?_⟩
  have hrun : c.running = [] := by unfold Conn.running; rw [hst]; rfl
  have hall : c.all = c.pending := by unfold Conn.all Conn.waiting; rw [hst]; simp
  have hsel : c.selecting = false := by unfold Conn.selecting; rw [hst]; rfl
  have hfd : (if m.reply = 0 then none else c.find m.reply) = none := by
    split
    · rfl
    · rename_i h0
      cases hfd : c.find m.reply with
      | none => rfl
      | some q =>
        exfalso
        obtain ⟨hq1, hq2⟩ := find_mem hfd
        have hqs := hi.sent q (by rw [hall]; exact hq1)
        rcases hm with hm | hm
        · exact h0 hm
        · refine hm q.id ⟨by rw [← hq2]; exact hqs, ?_⟩
          have hs := hi.sum q.id
          rw [if_pos (hi.below _ _ hqs), hrun, cnt_nil, hall] at hs
          have := cnt_mem hq1
          omega
  have hstep : c.step sort (.recv m) = some (c.filter m ((sort c.callbacks).map (·.2))) := by
    unfold Conn.step
    dsimp only
    rw [if_neg (by rw [hc, hsel]; decide), hfd]
  -- the loop, from any filter on
  have loop : ∀ (n : Nat) (fs : Filters), n < fs.length →
      (c.filter m (fs.map (·.2))).1.run sort (List.replicate n (.ret false)) =
        some ({ c with stack := [.filters m ((fs.drop (n + 1)).map (·.2))] }, ((fs.drop 1).take n).map fun f => .filter f.2 m) := by
    intro n
    induction n with
    | zero =>
      intro fs hfs
      cases fs with
      | nil => simp at hfs
      | cons f fs =>
        show some ({ c with stack := .filters m (List.map (fun x : Nat × Nat => x.2) fs) :: c.stack }, []) = _
        rw [hst]; simp
    | succ n ih =>
      intro fs hfs
      cases fs with
      | nil => simp at hfs
      | cons f fs =>
        have hrest := ih fs (by simpa using hfs)
        cases fs with
        | nil => simp at hfs
        | cons g fs =>
          have h1 : (c.filter m ((f :: g :: fs).map (·.2))).1.step sort (.ret false) =
              some ((c.filter m ((g :: fs).map (·.2))).1, [.filter g.2 m]) := by
            rfl
          rw [List.replicate_succ]
          show ((Conn.step sort _ _).bind _) = _
          rw [h1]
          show ((Conn.run sort (c.filter m ((g :: fs).map (·.2))).1 _).map _) = _
          rw [hrest]
          simp
  intro n hn
  have hrest := loop n (sort c.callbacks) hn
  have heff : ∀ fs : Filters, n < fs.length → (c.filter m (fs.map (·.2))).2 ++ (((fs.drop 1).take n).map fun f => Effect.filter f.2 m) =
      (fs.take (n + 1)).map fun f => .filter f.2 m := by
    intro fs hn
    cases fs with
    | nil => simp at hn
    | cons f fs => simp [Conn.filter]
  have hrun1 : c.run sort (.recv m :: List.replicate n (.ret false)) =
      some ({ c with stack := [.filters m (((sort c.callbacks).drop (n + 1)).map (·.2))] }, ((sort c.callbacks).take (n + 1)).map fun f => .filter f.2 m) := by
    show ((c.step sort _).bind _) = _
    rw [hstep]
    show ((Conn.run sort (c.filter m ((sort c.callbacks).map (·.2))).1 _).map _) = _
    rw [hrest]
    show some (_, (c.filter m ((sort c.callbacks).map (·.2))).2 ++ _) = _
    rw [heff _ hn]
  constructor
  · refine ⟨{ c with stack := [.filters m (((sort c.callbacks).drop (n + 1)).map (·.2))] }, ?_⟩
    rw [run_append, hr]
    show ((c.run sort _).map _) = _
    rw [hrun1]; rfl
  · intro b hb
    refine ⟨{ c with stack := [] }, ?_, rfl, rfl⟩
    rw [run_append, hr]
    show ((c.run sort (.recv m :: (_ ++ _))).map _) = _
    rw [← List.cons_append, run_append, hrun1]
    have hlast : Conn.run sort { c with stack := [.filters m (((sort c.callbacks).drop (n + 1)).map (·.2))] } [.ret b] = some ({ c with stack := [] }, []) := by
      cases b with
      | true => rfl
      | false =>
        rcases hb with hb | hb
        · cases hb
        · rw [List.drop_eq_nil_of_le (by omega)]
          rfl
    show (((Conn.run sort _ [.ret b]).map _).map _) = _
    rw [hlast]
    show some (_, l ++ (_ ++ [])) = _
    rw [List.append_nil]

/-- Filters with priorities 0 and 6000: the first to be asked is number 2. -/
example : (∃ d, Conn.run (fun l => l.mergeSort fun a b => a.1 ≤ b.1) start [.recv (ans 77), .ret false] =
    some (d, [.filter 2 (ans 77), .filter 1 (ans 77)])) := by
  refine ⟨{ start with stack := [.filters (ans 77) []] }, ?_⟩
  simp [Conn.run, Conn.step, start, Conn.selecting, Conn.find, ans, Conn.filter, List.mergeSort, List.MergeSort.Internal.splitInTwo, List.merge]

/-- **C68 (what goes wrong, exactly).** As long as no message is sent again from inside the function that got its answer, freed memory is
    used only when the time for an answer is over. -/
theorem C68_stops_exactly (sort : Filters → Filters) (cbs : Filters) (es : List Event) (hf : Fine sort { callbacks := cbs } es) (c : Conn)
    (l : List Effect) (hr : Conn.run sort { callbacks := cbs } es = some (c, l)) (e : Event) :
    Conn.run sort { callbacks := cbs } (es ++ [e]) = none ↔
      ∃ now, e = .poll now ∧ c.closed = false ∧ c.selecting = false ∧ ∃ p ∈ c.pending, p.deadline < now := by
  have hi := run_inv sort es _ [] (inv_init cbs) hf c l hr
  rw [List.nil_append] at hi
  rw [← step_none sort hi e, run_append, hr]
  show ((c.run sort [e]).map _) = none ↔ _
  show (((c.step sort e).bind _).map _) = none ↔ _
  cases c.step sort e with
  | none => simp
  | some x => simp [Conn.run]

/-- **C68 fails.** The program is to be told when the time for the answer is over. Instead `expire_pending` uses the request it has just
    deleted. -/
theorem C68_timeout_fails : ∀ sort cbs, Conn.run sort { callbacks := cbs } [.send 0 true 5, .poll 6] = none := fun _ _ => rfl

/-- **C68 fails.** A function that got an answer sends the message again, with itself for the answer (a retry): it is called a
    second time for the first request, as if that was cancelled, and when both calls returned freed memory is used. -/
theorem C68_resend_fails : ∀ sort cbs,
    (∃ c l, Conn.run sort { callbacks := cbs } [.send 0 true 5, .recv (ans 1001), .send 1001 true 9] = some (c, l) ∧ calls 0 l = 2) ∧
    Conn.run sort { callbacks := cbs } [.send 0 true 5, .recv (ans 1001), .send 1001 true 9, .ret true, .ret true] = none :=
  fun _ _ => ⟨⟨_, _, rfl, rfl⟩, rfl⟩

/-- **C68 fails.** A function that was called for a message that arrived waits for the answer to another request (`send_and_wait`): it never
    gets one, whatever arrives, and the time is never over. -/
theorem C68_wait_fails (sort : Filters → Filters) (c : Conn) (h : c.selecting = true) (es : List Event)
    (he : ∀ e ∈ es, (∃ m, e = .recv m) ∨ ∃ n, e = .poll n) : Conn.run sort c es = some (c, []) := by
  induction es with
  | nil => rfl
  | cons e es ih =>
    have hstep : c.step sort e = some (c, []) := by
      rcases he e List.mem_cons_self with ⟨m, rfl⟩ | ⟨n, rfl⟩ <;>
      · unfold Conn.step
        dsimp only
        rw [if_pos (by rw [h]; simp)]
    show ((c.step sort e).bind _) = _
    rw [hstep]
    show (c.run sort es).map _ = _
    rw [ih (fun e h => he e (List.mem_cons_of_mem _ h))]
    rfl

example : ∃ c l, Conn.run id start [.send 0 true 5, .recv (ans 1001), .send 0 true 9] = some (c, l) ∧ c.selecting = true ∧ Open l 1 1002 :=
  ⟨_, _, rfl, rfl, by decide, by decide⟩

/-- **C68 fails.** When the connection is closed the requests that are open are never answered, not even with an error. -/
theorem C68_close_fails (sort : Filters → Filters) (cbs : Filters) (es : List Event)
    (he : ∀ e ∈ es, (∃ m, e = .recv m) ∨ (∃ n, e = .poll n) ∨ e = .close) :
    ∃ c l, Conn.run sort { callbacks := cbs } ([.send 0 true 5, .close] ++ es) = some (c, l) ∧ Open l 0 1001 := by
  have key : ∀ (c : Conn), c.closed = true → Conn.run sort c es = some (c, []) := by
    intro c hc
    induction es with
    | nil => rfl
    | cons e es ih =>
      have hstep : c.step sort e = some (c, []) := by
        rcases he e List.mem_cons_self with ⟨m, rfl⟩ | ⟨n, rfl⟩ | rfl
        · unfold Conn.step
          dsimp only
          rw [if_pos (by rw [hc]; simp)]
        · unfold Conn.step
          dsimp only
          rw [if_pos (by rw [hc]; simp)]
        · unfold Conn.step
          dsimp only
          rw [← hc]
      show ((c.step sort e).bind _) = _
      rw [hstep]
      show (c.run sort es).map _ = _
      rw [ih (fun e h => he e (List.mem_cons_of_mem _ h))]
      rfl
  refine ⟨{ callbacks := cbs, pending := [⟨0, 1001, 5⟩], serial := 1001, next := 1, closed := true }, [.sent 1001 (some 0)], ?_, by decide, by decide⟩
  rw [run_append]
  show ((Conn.run sort { callbacks := cbs, pending := [⟨0, 1001, 5⟩], serial := 1001, next := 1, closed := true } es).map _) = _
  rw [key _ rfl]; rfl

end Props
