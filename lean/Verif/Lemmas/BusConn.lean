import Verif.Model.BusConn
/- Facts about the requests of a DBus connection (Model/BusConn). -/
namespace Wv.BusConn
open Spec.BusCalls (In Event Outcome Effect calls Open)

/-- Requests that wait for their turn to be added. -/
def Frame.waits : Frame → List Req
  | .cancel r => [r]
  | _ => []

/-- Requests whose function runs with the answer. -/
def Frame.runs : Frame → List Req
  | .reply p => [p]
  | _ => []

def Conn.waiting (c : Conn) : List Req := c.stack.flatMap Frame.waits
def Conn.running (c : Conn) : List Req := c.stack.flatMap Frame.runs
def Conn.all (c : Conn) : List Req := c.pending ++ c.waiting

/-- How often a request is in a list. -/
def cnt (r : Nat) (l : List Req) : Nat := l.countP (·.id == r)

structure Inv (c : Conn) (l : List Effect) : Prop where
  sum : ∀ r, calls r l + cnt r c.all = (if r < c.next then 1 else 0) + cnt r c.running
  running : c.running = [] ∨ (∃ p, c.running = [p] ∧ c.find p.serial = some p)
  sent : ∀ p ∈ c.all, Effect.sent p.serial (some p.id) ∈ l
  below : ∀ s r, Effect.sent s (some r) ∈ l → r < c.next
  once : ∀ s s' r, Effect.sent s (some r) ∈ l → Effect.sent s' (some r) ∈ l → s = s'
  right : ∀ r m, Effect.called r (.answer m) ∈ l → Effect.sent m.reply (some r) ∈ l

/-- A message is not sent again, with a function, while the function of the request it was runs with the answer. -/
def Conn.fine (c : Conn) : Event → Prop
  | .send serial true _ => ∀ p ∈ c.running, p.serial ≠ if serial = 0 then c.serial + 1 else serial
  | _ => True

theorem calls_append (r : Nat) (l k : List Effect) : calls r (l ++ k) = calls r l + calls r k := List.countP_append

theorem cnt_append (r : Nat) (l k : List Req) : cnt r (l ++ k) = cnt r l + cnt r k := List.countP_append

theorem cnt_cons (r : Nat) (p : Req) (l : List Req) : cnt r (p :: l) = cnt r l + if p.id = r then 1 else 0 := by
  unfold cnt
  rw [List.countP_cons]
  by_cases h : p.id = r <;> simp [h]

theorem cnt_nil (r : Nat) : cnt r [] = 0 := rfl

theorem cnt_mem {p : Req} {l : List Req} (h : p ∈ l) : 0 < cnt p.id l := List.countP_pos_iff.mpr ⟨p, h, by simp⟩

theorem find_mem {c : Conn} {s : Nat} {p : Req} (h : c.find s = some p) : p ∈ c.pending ∧ p.serial = s :=
  ⟨List.mem_of_find?_eq_some h, by have := List.find?_some h; simpa using this⟩

/-- Removing a request that was found removes it. -/
theorem remove_cnt (l : List Req) (p : Req) (h : l.find? (·.serial == p.serial) = some p) (r : Nat) :
    cnt r (l.eraseP (·.serial == p.serial)) + (if p.id = r then 1 else 0) = cnt r l := by
  induction l with
  | nil => simp at h
  | cons q l ih =>
    by_cases hq : q.serial = p.serial
    · rw [List.find?_cons_of_pos (by simp [hq])] at h
      cases h
      rw [List.eraseP_cons_of_pos (by simp), cnt_cons]
    · rw [List.find?_cons_of_neg (by simp [hq])] at h
      rw [List.eraseP_cons_of_neg (by simp [hq]), cnt_cons, cnt_cons]
      have := ih h
      omega

theorem find_append {l : List Req} {s : Nat} {p r : Req} (h : l.find? (·.serial == s) = some p) :
    (l ++ [r]).find? (·.serial == s) = some p := by
  rw [List.find?_append, h]; rfl

theorem find_erase {l : List Req} {s t : Nat} (h : s ≠ t) :
    (l.eraseP (·.serial == t)).find? (·.serial == s) = l.find? (·.serial == s) := by
  induction l with
  | nil => rfl
  | cons q l ih =>
    by_cases hq : q.serial = t
    · rw [List.eraseP_cons_of_pos (by simp [hq]), List.find?_cons_of_neg (by simp [hq]; exact fun e => h e.symm)]
    · rw [List.eraseP_cons_of_neg (by simp [hq])]
      by_cases hs : q.serial = s
      · rw [List.find?_cons_of_pos (by simp [hs]), List.find?_cons_of_pos (by simp [hs])]
      · rw [List.find?_cons_of_neg (by simp [hs]), List.find?_cons_of_neg (by simp [hs]), ih]

theorem not_selecting {c : Conn} (h : c.selecting = false) : c.running = [] := by
  unfold Conn.selecting at h
  unfold Conn.running
  rw [List.flatMap_eq_nil_iff]
  intro f hf
  have := List.any_eq_false.mp h f hf
  cases f <;> simp_all [Frame.runs]

/-- More effects that call nothing and send nothing change nothing. -/
theorem Inv.sum_of {c : Conn} {l : List Effect} (hi : Inv c l) {d : Conn} {k : List Effect} (r : Nat)
    (h : calls r k + cnt r d.all + (if r < c.next then 1 else 0) + cnt r c.running =
      cnt r c.all + (if r < d.next then 1 else 0) + cnt r d.running) :
    calls r (l ++ k) + cnt r d.all = (if r < d.next then 1 else 0) + cnt r d.running := by
  have := hi.sum r
  rw [calls_append]
  omega

theorem inv_init (cbs : List (Nat × Nat)) : Inv { callbacks := cbs } [] :=
  ⟨fun r => by simp [calls, Conn.all, Conn.waiting, Conn.running, cnt], Or.inl rfl, fun p hp => by simp [Conn.all, Conn.waiting] at hp,
    fun s r h => by simp at h, fun s s' r h => by simp at h, fun r m h => by simp at h⟩

theorem inv_congr {c d : Conn} {l k : List Effect} (hi : Inv c l) (h1 : d.pending = c.pending) (h2 : d.next = c.next)
    (h3 : d.waiting = c.waiting) (h4 : d.running = c.running)
    (hk : ∀ x ∈ k, (∃ n m, x = .filter n m) ∨ ∃ s, x = .sent s none) : Inv d (l ++ k) := by
  have hall : d.all = c.all := by unfold Conn.all; rw [h1, h3]
  have hc : ∀ r, calls r k = 0 := by
    intro r
    refine List.countP_eq_zero.mpr fun x hx => ?_
    rcases hk x hx with ⟨n, m, rfl⟩ | ⟨s, rfl⟩ <;> simp
  have hs : ∀ s r, Effect.sent s (some r) ∈ l ++ k ↔ Effect.sent s (some r) ∈ l := by
    intro s r
    rw [List.mem_append]
    refine ⟨fun h => h.elim id fun h => ?_, Or.inl⟩
    rcases hk _ h with ⟨n, m, e⟩ | ⟨t, e⟩ <;> cases e
  refine ⟨fun r => ?_, ?_, ?_, ?_, ?_, ?_⟩
  · refine hi.sum_of r ?_
    rw [hc, hall, h2, h4]; omega
  · rw [h4]
    unfold Conn.find
    rw [h1]
    exact hi.running
  · rw [hall]
    exact fun p hp => (hs _ _).mpr (hi.sent p hp)
  · rw [h2]
    exact fun s r h => hi.below s r ((hs _ _).mp h)
  · exact fun s s' r h h' => hi.once s s' r ((hs _ _).mp h) ((hs _ _).mp h')
  · intro r m h
    rcases List.mem_append.mp h with h | h
    · exact (hs _ _).mpr (hi.right r m h)
    · rcases hk _ h with ⟨n, m, e⟩ | ⟨t, e⟩ <;> cases e

/-- A new request. -/
theorem inv_add {c : Conn} {l : List Effect} (hi : Inv c l) (serial deadline : Nat) (hf : ∀ p ∈ c.running, p.serial ≠ serial) :
    Inv ({ c with next := c.next + 1 }.addPending ⟨c.next, serial, deadline⟩).1
      (l ++ Effect.sent serial (some c.next) :: ({ c with next := c.next + 1 }.addPending ⟨c.next, serial, deadline⟩).2) := by
  have hbelow : ∀ (k : List Effect), (∀ x ∈ k, ∃ r, x = .called r .cancelled) → ∀ s r,
      Effect.sent s (some r) ∈ l ++ Effect.sent serial (some c.next) :: k → (Effect.sent s (some r) ∈ l ∧ r < c.next) ∨ (s = serial ∧ r = c.next) := by
    intro k hk s r h
    rcases List.mem_append.mp h with h | h
    · exact Or.inl ⟨h, hi.below s r h⟩
    · rcases List.mem_cons.mp h with h | h
      · cases h; exact Or.inr ⟨rfl, rfl⟩
      · obtain ⟨q, e⟩ := hk _ h; cases e
  have hbo : ∀ (k : List Effect), (∀ x ∈ k, ∃ r, x = .called r .cancelled) →
      (∀ s r, Effect.sent s (some r) ∈ l ++ Effect.sent serial (some c.next) :: k → r < c.next + 1) ∧
      (∀ s s' r, Effect.sent s (some r) ∈ l ++ Effect.sent serial (some c.next) :: k →
        Effect.sent s' (some r) ∈ l ++ Effect.sent serial (some c.next) :: k → s = s') ∧
      (∀ r m, Effect.called r (.answer m) ∈ l ++ Effect.sent serial (some c.next) :: k →
        Effect.sent m.reply (some r) ∈ l ++ Effect.sent serial (some c.next) :: k) := by
    intro k hk
    refine ⟨fun s r h => ?_, fun s s' r h h' => ?_, fun r m h => ?_⟩
    · rcases hbelow k hk s r h with h | h <;> omega
    · rcases hbelow k hk s r h with h | h <;> rcases hbelow k hk s' r h' with h' | h'
      · exact hi.once s s' r h.1 h'.1
      · omega
      · omega
      · exact h.1.trans h'.1.symm
    · rcases List.mem_append.mp h with h | h
      · exact List.mem_append_left _ (hi.right r m h)
      · rcases List.mem_cons.mp h with h | h
        · cases h
        · obtain ⟨q, e⟩ := hk _ h; cases e
  have hlt : ∀ r, (if r < c.next + 1 then 1 else 0) = (if r < c.next then 1 else 0) + if c.next = r then 1 else 0 := by
    intro r
    by_cases h1 : r < c.next
    · rw [if_pos h1, if_pos (by omega), if_neg (by omega)]
    · by_cases h2 : c.next = r
      · rw [if_neg h1, if_pos (by omega), if_pos h2]
      · rw [if_neg h1, if_neg (by omega), if_neg h2]
  unfold Conn.addPending
  cases hfd : Conn.find { c with next := c.next + 1 } serial with
  | none =>
    dsimp only
    obtain ⟨b1, b2, b3⟩ := hbo [] (fun x hx => by simp at hx)
    refine ⟨fun r => ?_, ?_, ?_, b1, b2, b3⟩
    · refine hi.sum_of r ?_
      show calls r [Effect.sent serial (some c.next)] + cnt r ((c.pending ++ [_]) ++ c.waiting) + _ + _ =
        cnt r (c.pending ++ c.waiting) + (if r < c.next + 1 then 1 else 0) + cnt r c.running
      rw [hlt, cnt_append, cnt_append, cnt_append, cnt_cons, cnt_nil]
      have : calls r [Effect.sent serial (some c.next)] = 0 := rfl
      rw [this]
      dsimp only
      omega
    · rcases hi.running with h | ⟨p, h1, h2⟩
      · exact Or.inl h
      · exact Or.inr ⟨p, h1, find_append h2⟩
    · intro p hp
      have hp : p ∈ (c.pending ++ [_]) ++ c.waiting := hp
      rcases List.mem_append.mp hp with hp | hp
      · rcases List.mem_append.mp hp with hp | hp
        · exact List.mem_append_left _ (hi.sent p (List.mem_append_left _ hp))
        · rw [List.mem_singleton] at hp
          subst hp
          exact List.mem_append_right _ List.mem_cons_self
      · exact List.mem_append_left _ (hi.sent p (List.mem_append_right _ hp))
  | some p =>
    dsimp only
    obtain ⟨b1, b2, b3⟩ := hbo [.called p.id .cancelled] (fun x hx => ⟨p.id, by simpa using hx⟩)
    have hps := (find_mem hfd).2
    subst hps
    refine ⟨fun r => ?_, ?_, ?_, b1, b2, b3⟩
    · refine hi.sum_of r ?_
      show calls r [Effect.sent p.serial (some c.next), Effect.called p.id .cancelled] + cnt r (c.pending.eraseP _ ++ (_ :: c.waiting)) + _ + _ =
        cnt r (c.pending ++ c.waiting) + (if r < c.next + 1 then 1 else 0) + cnt r c.running
      rw [hlt, cnt_append, cnt_append, cnt_cons]
      have h1 := remove_cnt c.pending p hfd r
      have : calls r [Effect.sent p.serial (some c.next), Effect.called p.id .cancelled] = if p.id = r then 1 else 0 := by
        unfold calls
        by_cases h : p.id = r <;> simp [h]
      rw [this]
      dsimp only
      omega
    · rcases hi.running with h | ⟨q, h1, h2⟩
      · exact Or.inl h
      · refine Or.inr ⟨q, h1, ?_⟩
        have : q.serial ≠ p.serial := hf q (by rw [h1]; exact List.mem_singleton.mpr rfl)
        show (c.pending.eraseP _).find? _ = _
        rw [find_erase this]
        exact h2
    · intro q hq
      have hq : q ∈ c.pending.eraseP _ ++ (_ :: c.waiting) := hq
      rcases List.mem_append.mp hq with hq | hq
      · exact List.mem_append_left _ (hi.sent q (List.mem_append_left _ (List.mem_of_mem_eraseP hq)))
      · rcases List.mem_cons.mp hq with hq | hq
        · subst hq
          exact List.mem_append_right _ List.mem_cons_self
        · exact List.mem_append_left _ (hi.sent q (List.mem_append_right _ hq))

theorem inv_filter {c : Conn} {l : List Effect} (hi : Inv c l) (m : In) (fs : List Nat) :
    Inv (c.filter m fs).1 (l ++ (c.filter m fs).2) := by
  cases fs with
  | nil => exact inv_congr hi rfl rfl rfl rfl (fun x hx => by simp [Conn.filter] at hx)
  | cons f fs =>
    refine inv_congr hi rfl rfl rfl rfl (fun x hx => ?_)
    simp [Conn.filter] at hx
    exact Or.inl ⟨f, m, hx⟩

theorem inv_step (sort : List (Nat × Nat) → List (Nat × Nat)) {c : Conn} {l : List Effect} (hi : Inv c l) (e : Event) (hf : c.fine e)
    (d : Conn) (k : List Effect) (hs : c.step sort e = some (d, k)) : Inv d (l ++ k) := by
  have nilk : ∀ x ∈ ([] : List Effect), (∃ n m, x = .filter n m) ∨ ∃ s, x = .sent s none := fun x hx => by simp at hx
  cases e with
  | send serial fn deadline =>
    cases fn with
    | false =>
      unfold Conn.step at hs
      dsimp only at hs
      by_cases h0 : serial = 0
      · rw [if_pos h0] at hs
        cases hs
        refine inv_congr hi rfl rfl rfl rfl (fun x hx => ?_)
        simp at hx; exact Or.inr ⟨_, hx⟩
      · rw [if_neg h0] at hs
        cases hs
        refine inv_congr hi rfl rfl rfl rfl (fun x hx => ?_)
        simp at hx; exact Or.inr ⟨_, hx⟩
    | true =>
      unfold Conn.step at hs
      dsimp only at hs
      have hf : ∀ p ∈ c.running, p.serial ≠ if serial = 0 then c.serial + 1 else serial := hf
      by_cases h0 : serial = 0
      · rw [if_pos h0] at hs hf
        cases hs
        have hi' : Inv { c with serial := c.serial + 1 } l := by
          have := inv_congr (d := { c with serial := c.serial + 1 }) hi rfl rfl rfl rfl nilk
          rwa [List.append_nil] at this
        exact inv_add hi' (c.serial + 1) deadline hf
      · rw [if_neg h0] at hs hf
        cases hs
        exact inv_add hi serial deadline hf
  | recv m =>
    unfold Conn.step at hs
    dsimp only at hs
    by_cases hc : (c.closed || c.selecting) = true
    · rw [if_pos hc] at hs
      cases hs
      exact inv_congr hi rfl rfl rfl rfl nilk
    · rw [if_neg hc] at hs
      have hr : c.running = [] := not_selecting (by simpa using (fun h => hc (by simp [h]) : ¬ c.selecting = true))
      cases hx : (if m.reply = 0 then none else c.find m.reply) with
      | none =>
        rw [hx] at hs
        have hs := Option.some.inj hs
        have := inv_filter hi m ((sort c.callbacks).map (·.2))
        rw [hs] at this
        exact this
      | some p =>
        rw [hx] at hs
        cases hs
        have hfd : c.find m.reply = some p := by
          split at hx
          · cases hx
          · exact hx
        have hps := find_mem hfd
        have hrun : ({ c with stack := .reply p :: c.stack } : Conn).running = [p] := by
          show p :: c.running = [p]; rw [hr]
        refine ⟨fun r => ?_, Or.inr ⟨p, hrun, ?_⟩, ?_, ?_, ?_, ?_⟩
        · refine hi.sum_of r ?_
          rw [hrun, hr, cnt_cons, cnt_nil]
          have : calls r [Effect.called p.id (.answer m)] = if p.id = r then 1 else 0 := by
            unfold calls
            by_cases h : p.id = r <;> simp [h]
          rw [this]
          show (if p.id = r then 1 else 0) + cnt r c.all + (if r < c.next then 1 else 0) + 0 =
            cnt r c.all + (if r < c.next then 1 else 0) + (0 + if p.id = r then 1 else 0)
          omega
        · show c.find p.serial = some p
          rw [hps.2, hfd]
        · exact fun q hq => List.mem_append_left _ (hi.sent q hq)
        · intro s r h
          rcases List.mem_append.mp h with h | h
          · exact hi.below s r h
          · simp at h
        · intro s s' r h h'
          rcases List.mem_append.mp h with h | h
          · rcases List.mem_append.mp h' with h' | h'
            · exact hi.once s s' r h h'
            · simp at h'
          · simp at h
        · intro r m' h
          rcases List.mem_append.mp h with h | h
          · exact List.mem_append_left _ (hi.right r m' h)
          · simp only [List.mem_singleton] at h
            cases h
            rw [← hps.2]
            exact List.mem_append_left _ (hi.sent p (List.mem_append_left _ hps.1))
  | ret handled =>
    unfold Conn.step at hs
    dsimp only at hs
    cases hst : c.stack with
    | nil =>
      rw [hst] at hs
      cases hs
      exact inv_congr hi rfl rfl rfl rfl nilk
    | cons f st =>
      rw [hst] at hs
      cases f with
      | reply p =>
        dsimp only at hs
        split at hs
        · cases hs
          rw [List.append_nil]
          have hrun : c.running = p :: st.flatMap Frame.runs := by unfold Conn.running; rw [hst]; rfl
          have hw : c.waiting = st.flatMap Frame.waits := by unfold Conn.waiting; rw [hst]; rfl
          rcases hi.running with h | ⟨q, h1, h2⟩
          · rw [hrun] at h; cases h
          · rw [hrun] at h1
            obtain ⟨rfl, h1'⟩ := List.cons.inj h1; replace h1 := h1'
            refine ⟨fun r => ?_, Or.inl h1, ?_, hi.below, hi.once, hi.right⟩
            · have hsum := hi.sum r
              have hrm := remove_cnt c.pending p h2 r
              rw [hrun, h1, cnt_cons, cnt_nil] at hsum
              unfold Conn.all at hsum
              rw [hw, cnt_append] at hsum
              show calls r l + cnt r (c.pending.eraseP _ ++ st.flatMap Frame.waits) = (if r < c.next then 1 else 0) + cnt r (st.flatMap Frame.runs)
              rw [h1, cnt_append, cnt_nil]
              omega
            · intro q hq
              have hq : q ∈ c.pending.eraseP _ ++ st.flatMap Frame.waits := hq
              refine hi.sent q ?_
              unfold Conn.all
              rw [hw]
              rcases List.mem_append.mp hq with hq | hq
              · exact List.mem_append_left _ (List.mem_of_mem_eraseP hq)
              · exact List.mem_append_right _ hq
        · cases hs
      | cancel r =>
        cases hs
        rw [List.append_nil]
        have hrun : c.running = st.flatMap Frame.runs := by unfold Conn.running; rw [hst]; rfl
        have hw : c.waiting = r :: st.flatMap Frame.waits := by unfold Conn.waiting; rw [hst]; rfl
        refine ⟨fun q => ?_, ?_, ?_, hi.below, hi.once, hi.right⟩
        · have hsum := hi.sum q
          unfold Conn.all at hsum
          rw [hw, cnt_append, cnt_cons, hrun] at hsum
          show calls q l + cnt q ((c.pending ++ [r]) ++ st.flatMap Frame.waits) = (if q < c.next then 1 else 0) + cnt q (st.flatMap Frame.runs)
          rw [cnt_append, cnt_append, cnt_cons, cnt_nil]
          omega
        · rcases hi.running with h | ⟨p, h1, h2⟩
          · exact Or.inl (hrun.symm.trans h)
          · exact Or.inr ⟨p, hrun.symm.trans h1, find_append h2⟩
        · intro q hq
          have hq : q ∈ (c.pending ++ [r]) ++ st.flatMap Frame.waits := hq
          refine hi.sent q ?_
          unfold Conn.all
          rw [hw]
          simp only [List.mem_append, List.mem_cons, List.not_mem_nil, or_false] at hq ⊢
          rcases hq with (hq | hq) | hq
          · exact Or.inl hq
          · exact Or.inr (Or.inl hq)
          · exact Or.inr (Or.inr hq)
      | filters m rest =>
        have hrun : c.running = st.flatMap Frame.runs := by unfold Conn.running; rw [hst]; rfl
        have hw : c.waiting = st.flatMap Frame.waits := by unfold Conn.waiting; rw [hst]; rfl
        have hi' : Inv { c with stack := st } l := by
          have := inv_congr (d := { c with stack := st }) hi rfl rfl hw.symm hrun.symm nilk
          rwa [List.append_nil] at this
        dsimp only at hs
        split at hs
        · cases hs
          rw [List.append_nil]
          exact hi'
        · have hs := Option.some.inj hs
          have := inv_filter hi' m rest
          rw [hs] at this
          exact this
  | poll now =>
    unfold Conn.step at hs
    dsimp only at hs
    split at hs
    · cases hs
      exact inv_congr hi rfl rfl rfl rfl nilk
    · split at hs
      · cases hs
      · cases hs
        exact inv_congr hi rfl rfl rfl rfl nilk
  | close =>
    cases hs
    exact inv_congr hi rfl rfl rfl rfl nilk

/-- What goes wrong. -/
theorem step_none (sort : List (Nat × Nat) → List (Nat × Nat)) {c : Conn} {l : List Effect} (hi : Inv c l) (e : Event)  :
    c.step sort e = none ↔ ∃ now, e = .poll now ∧ c.closed = false ∧ c.selecting = false ∧ ∃ p ∈ c.pending, p.deadline < now := by
  cases e with
  | send serial fn deadline =>
    constructor
    · intro h
      unfold Conn.step at h
      dsimp only at h
      cases fn with
      | false => split at h <;> cases h
      | true => split at h <;> cases h
    · rintro ⟨n, h, -⟩; cases h
  | recv m =>
    constructor
    · intro h
      unfold Conn.step at h
      dsimp only at h
      split at h
      · cases h
      · split at h <;> cases h
    · rintro ⟨n, h, -⟩; cases h
  | ret b =>
    constructor
    · intro h
      unfold Conn.step at h
      dsimp only at h
      cases hst : c.stack with
      | nil => rw [hst] at h; cases h
      | cons f st =>
        rw [hst] at h
        cases f with
        | reply p =>
          have hrun : c.running = p :: st.flatMap Frame.runs := by unfold Conn.running; rw [hst]; rfl
          rcases hi.running with h' | ⟨q, h1, h2⟩
          · rw [hrun] at h'; cases h'
          · rw [hrun] at h1
            obtain ⟨rfl, h1'⟩ := List.cons.inj h1; replace h1 := h1'
            dsimp only at h
            rw [if_pos (find_mem h2).1] at h
            cases h
        | cancel r => cases h
        | filters m rest =>
          dsimp only at h
          split at h <;> cases h
    · rintro ⟨n, h, -⟩; cases h
  | poll now =>
    constructor
    · intro h
      unfold Conn.step at h
      dsimp only at h
      split at h
      · cases h
      · rename_i hc
        split at h
        · rename_i ha
          obtain ⟨p, h1, h2⟩ := List.any_eq_true.mp ha
          simp only [Bool.or_eq_true, not_or, Bool.not_eq_true] at hc
          exact ⟨now, rfl, hc.1, hc.2, p, h1, by simpa using h2⟩
        · cases h
    · rintro ⟨n, h, h1, h2, p, h3, h4⟩
      cases h
      unfold Conn.step
      dsimp only
      rw [if_neg (by rw [h1, h2]; decide), if_pos (List.any_eq_true.mpr ⟨p, h3, by simpa using h4⟩)]
  | close =>
    constructor
    · intro h; cases h
    · rintro ⟨n, h, -⟩; cases h

/-! ### Whole histories -/

/-- No message is sent again from inside of the function that got its answer. -/
def Fine (sort : List (Nat × Nat) → List (Nat × Nat)) (c : Conn) : List Event → Prop
  | [] => True
  | e :: es => c.fine e ∧ ∀ d k, c.step sort e = some (d, k) → Fine sort d es

theorem run_inv (sort : List (Nat × Nat) → List (Nat × Nat)) : ∀ (es : List Event) (c : Conn) (l : List Effect), Inv c l →
    Fine sort c es → ∀ d k, c.run sort es = some (d, k) → Inv d (l ++ k) := by
  intro es
  induction es with
  | nil => intro c l hi _ d k h; cases h; rwa [List.append_nil]
  | cons e es ih =>
    intro c l hi hf d k h
    unfold Conn.run at h
    obtain ⟨⟨c1, l1⟩, h1, h2⟩ := Option.bind_eq_some_iff.mp h
    obtain ⟨⟨c2, l2⟩, h3, h4⟩ := Option.map_eq_some_iff.mp h2
    cases h4
    have := ih c1 (l ++ l1) (inv_step sort hi e hf.1 c1 l1 h1) (hf.2 c1 l1 h1) _ _ h3
    rwa [List.append_assoc] at this

end Wv.BusConn
