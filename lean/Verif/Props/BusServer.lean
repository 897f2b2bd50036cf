import Verif.Lemmas.BusServer
/-
C67: the message bus gives a name to who claimed it last, takes each message to where it belongs, with the true sender, and
answers each call once.
-/
namespace Props
open Wv Wv.Bus Spec.Bus

namespace Bus67

/-- Nobody asked for this name, or gave it back. -/
def Untouched (n : Bytes) (h : List Event) : Prop :=
  ∀ c m, Event.msg c m ∈ h → m.dest = bus → m.member = requestName ∨ m.member = releaseName → m.name ≠ n

theorem unique_owner {h : List Event} {c : Nat} (hp : Proper h) (hc : c ∈ here h) (hu : Untouched (unique c) h) :
    owner h (unique c) = some c := by
  induction h with
  | nil => simp [here, connects] at hc
  | cons x h ih =>
    have hu' : Untouched (unique c) h := fun d m hm => hu d m (List.mem_cons_of_mem _ hm)
    cases x with
    | connect =>
      have hp' : Proper h := hp
      unfold owner
      rw [here_connect hp'] at hc
      rcases List.mem_append.mp hc with hc | hc
      · have := here_le hc
        rw [if_neg (fun e => by have := unique_inj e; omega)]
        exact ih hp' hc hu'
      · have : c = connects h + 1 := by simpa using hc
        rw [if_pos (by rw [this]), this]
    | msg d m =>
      rw [here_other rfl (fun _ => by simp)] at hc
      unfold owner
      have hm := hu d m List.mem_cons_self
      rw [if_neg (fun x => hm x.1 (Or.inl x.2.1) x.2.2), if_neg (fun x => hm x.1 (Or.inr x.2.1) x.2.2)]
      exact ih hp.1 hc hu'
    | close d =>
      rw [here_other rfl (fun _ => by simp)] at hc
      exact ih hp.1 hc hu'
    | gone d =>
      rw [here_gone] at hc
      have hne : c ≠ d := fun e => by
        rw [e] at hc
        exact (List.Nodup.not_mem_erase (here_nodup h)) hc
      have ho := ih hp.1 ((List.mem_erase_of_ne hne).mp hc) hu'
      unfold owner
      rw [ho, if_neg (fun e => hne (Option.some.inj e))]

theorem proper_tail {x : Event} {h : List Event} (hp : Proper (x :: h)) : Proper h := by
  cases x <;> first | exact hp | exact hp.1

theorem releases_tail {x : Event} {h : List Event} (hp : ReleasesOk (x :: h)) : ReleasesOk h := by
  cases x <;> first | exact hp | exact hp.1

theorem proper_append {g h : List Event} (hp : Proper (g ++ h)) : Proper h := by
  induction g with
  | nil => exact hp
  | cons x g ih => exact ih (proper_tail hp)

theorem releases_append {g h : List Event} (hp : ReleasesOk (g ++ h)) : ReleasesOk h := by
  induction g with
  | nil => exact hp
  | cons x g ih => exact ih (releases_tail hp)

theorem out_run (e : Env) (h : List Event) (c : Nat) (m : Msg) (hp : Proper (.msg c m :: h)) (hr : ReleasesOk (.msg c m :: h)) :
    ∃ s, Server.run e (.msg c m :: h) = some (s, deliver h (out e h c m)) := by
  obtain ⟨s, l, hs, hi⟩ := run_inv e h hp.1 hr.1
  obtain ⟨t, h1, -⟩ := inv_msg hi e c m (fun y => hr.2 y)
  refine ⟨t, ?_⟩
  unfold Server.run
  rw [hs, Option.bind_some]
  exact h1

theorem other_run (e : Env) (x : Event) (h : List Event) (hx : ∀ c m, x ≠ .msg c m) (s : Server) (l : List (Nat × Msg))
    (hr : Server.run e (x :: h) = some (s, l)) : l = [] := by
  unfold Server.run at hr
  obtain ⟨⟨t, k⟩, h1, h2⟩ := Option.bind_eq_some_iff.mp hr
  cases x with
  | connect => cases h2; rfl
  | msg c m => exact absurd rfl (hx c m)
  | close c => cases h2; rfl
  | gone c => cases h2; rfl

/-- Who gets something is there. -/
theorem out_here {e : Env} {h : List Event} {c : Nat} {m : Msg} (hp : Proper (.msg c m :: h)) {d : Nat} {a : Msg}
    (hd : (d, a) ∈ out e h c m) : d ∈ here h := by
  have key : ∀ l : List (Nat × Msg), (∀ x ∈ l, x.1 ∈ here h) →
      ∀ x ∈ (if own h m then l.map fun (d, a) => (d, { a with serial := 1001 + answers h }) else l), x.1 ∈ here h := by
    intro l hl x hx
    split at hx
    · obtain ⟨y, hy, rfl⟩ := List.mem_map.mp hx
      exact hl y hy
    · exact hl x hx
  unfold out at hd
  split at hd
  · simp at hd
  · refine key _ ?_ _ hd
    intro x hx
    split at hx
    · simp only [List.mem_singleton] at hx; subst hx; exact hp.2
    · unfold route at hx
      split at hx
      · obtain ⟨y, hy, rfl⟩ := List.mem_map.mp hx
        exact hy
      · split at hx
        · rename_i ho
          simp only [List.mem_singleton] at hx; subst hx; exact owner_here hp.1 _ _ ho
        · simp only [List.mem_singleton] at hx; subst hx; exact hp.2

theorem out_nodup (e : Env) (h : List Event) (c : Nat) (m : Msg) : ((out e h c m).map (·.1)).Nodup := by
  have key : ∀ l : List (Nat × Msg), (l.map (·.1)).Nodup →
      ((if own h m then l.map fun (d, a) => (d, { a with serial := 1001 + answers h }) else l).map (·.1)).Nodup := by
    intro l hl
    split
    · rw [List.map_map]; exact hl
    · exact hl
  unfold out
  split
  · simp
  · refine key _ ?_
    split
    · simp
    · unfold route
      split
      · rw [List.map_map]
        have : ((fun x : Nat × Msg => x.1) ∘ fun d => (d, m)) = id := rfl
        rw [this, List.map_id]
        exact here_nodup h
      · split <;> simp

/-- Examples: three connections; the second one asks for the name "a". -/
def ask (n : Bytes) : Msg := { kind := .call, serial := 7, dest := bus, member := requestName, args := [.text n] }
def env : Env := { uid := fun _ => none, user := fun _ => none, cert := fun _ => none, finger := id }
def start : List Event := [.msg 2 (ask [ch 'a']), .connect, .connect, .connect]

end Bus67
open Bus67

/-- **C67 (routing).** Whatever happened before, when a message comes from a connection, the bus sends exactly what the
    specification says (`Spec.Bus.out`): to a name that has an owner, the message with the true sender, to the owner; to a name
    without owner, an error to who sent it; without destination, to every connection there is; to the bus itself, the answer to
    the caller. What was sent to broken connections is lost. This is for histories in which connections released only names that
    they had: see `C67_release_fails` for the others. -/
theorem C67_routing_partial (e : Env) (h : List Event) (c : Nat) (m : Msg) (hp : Proper (.msg c m :: h))
    (hr : ReleasesOk (.msg c m :: h)) : ∃ s, Server.run e (.msg c m :: h) = some (s, deliver h (out e h c m)) :=
  out_run e h c m hp hr

/-- Connection 1 sends a message to "a", connection 3 a broadcast; an unknown name; the owner of a name is asked for. -/
example : Proper (.msg 1 { kind := .call, serial := 5, dest := [ch 'a'] } :: start) ∧
    ReleasesOk (.msg 1 { kind := .call, serial := 5, dest := [ch 'a'] } :: start) ∧
    deliver start (out env start 1 { kind := .call, serial := 5, dest := [ch 'a'] }) =
      [(2, { kind := .call, serial := 5, dest := [ch 'a'], sender := str [':', '1', '.', '0'] })] ∧
    (deliver start (out env start 3 { kind := .signal, serial := 6 })).map (·.1) = [1, 2, 3] ∧
    (deliver start (out env start 3 { kind := .call, serial := 6, dest := [ch 'b'] })) =
      [(3, { kind := .err, serial := 1002, reply := 6, dest := str [':', '3', '.', '0'], error := noOwner })] ∧
    (deliver start (out env start 3 { kind := .call, serial := 6, dest := bus, member := getNameOwner, args := [.text [ch 'a']] })) =
      [(3, { kind := .ret, serial := 1002, reply := 6, args := [.text (str [':', '2', '.', '0'])] })] := by
  refine ⟨⟨⟨by trivial, by decide⟩, by decide⟩, ⟨⟨by trivial, by decide⟩, by decide⟩, ?_, ?_, ?_, ?_⟩ <;> decide +kernel

/-- **C67 (nothing else is sent).** Only when a message comes something is sent; nobody gets more than one message for it, nobody
    gets anything after it has gone, and everything that is sent to somebody is either the message itself, to which at most the
    sender was added, or was made by the bus. -/
theorem C67_nothing_else (e : Env) (x : Event) (h : List Event) (hp : Proper (x :: h)) (s : Server) (l : List (Nat × Msg))
    (hrun : Server.run e (x :: h) = some (s, l)) :
    ((∀ c m, x ≠ .msg c m) → l = []) ∧ (l.map (·.1)).Nodup ∧ (∀ c a, (c, a) ∈ l → c ∈ here h ∧ Event.close c ∉ h) ∧
      ∀ c m, x = .msg c m → ∀ d a, (d, a) ∈ l → a = m ∨ a = { m with sender := unique c } ∨ (d = c ∧ a.reply = m.serial) := by
  have hr : ReleasesOk (x :: h) := Classical.byContradiction fun hn => by rw [run_bad e _ hp hn] at hrun; cases hrun
  by_cases hx : ∀ c m, x ≠ .msg c m
  · have : l = [] := other_run e x h hx s l hrun
    subst this
    exact ⟨fun _ => rfl, by simp, fun c a hm => absurd hm (by simp), fun c m _ d a hm => absurd hm (by simp)⟩
  · cases x with
    | connect => exact absurd (fun _ _ => by simp) hx
    | close => exact absurd (fun _ _ => by simp) hx
    | gone => exact absurd (fun _ _ => by simp) hx
    | msg c m =>
      obtain ⟨t, ht⟩ := out_run e h c m hp hr
      rw [hrun] at ht
      have hl : l = deliver h (out e h c m) := (Prod.mk.inj (Option.some.inj ht)).2
      subst hl
      refine ⟨fun hx => absurd rfl (hx c m), (out_nodup e h c m).sublist (List.Sublist.map _ List.filter_sublist), ?_, ?_⟩
      · intro d a hm
        obtain ⟨h1, h2⟩ := List.mem_filter.mp hm
        exact ⟨out_here hp h1, by simpa using h2⟩
      · intro c' m' hx d a hm
        cases hx
        obtain ⟨hm, -⟩ := List.mem_filter.mp hm
        have hrep : (answer e h c m).reply = m.serial := by
          unfold answer
          dsimp only
          repeat' split
          all_goals rfl
        unfold out at hm
        by_cases hn : m.isNotice
        · rw [if_pos hn] at hm; simp at hm
        rw [if_neg hn] at hm
        dsimp only at hm
        by_cases hb : m.dest = bus
        · have : own h m = true := by simp [own, hb, hn]
          rw [if_pos hb, if_pos this, List.map_cons, List.map_nil, List.mem_singleton] at hm
          cases hm
          exact Or.inr (Or.inr ⟨rfl, hrep⟩)
        rw [if_neg hb] at hm
        unfold route at hm
        by_cases hz : m.dest = []
        · have : ¬ own h m = true := by simp [own, hb, hz]; intro _ hh; cases hh
          rw [if_pos hz, if_neg this] at hm
          obtain ⟨y, -, hy⟩ := List.mem_map.mp hm
          cases hy
          exact Or.inl rfl
        rw [if_neg hz] at hm
        cases ho : owner h m.dest with
        | some w =>
          have : ¬ own h m = true := by simp [own, hb, ho]
          rw [ho, if_neg this, List.mem_singleton] at hm
          cases hm
          exact Or.inr (Or.inl rfl)
        | none =>
          have : own h m = true := by simp [own, hb, hn, hz, ho]
          rw [ho, if_pos this, List.map_cons, List.map_nil, List.mem_singleton] at hm
          cases hm
          exact Or.inr (Or.inr ⟨rfl, rfl⟩)

example : Proper (.gone 2 :: .close 2 :: start) ∧ ReleasesOk (.gone 2 :: .close 2 :: start) ∧ here (.gone 2 :: .close 2 :: start) = [1, 3] := by
  exact ⟨⟨⟨⟨trivial, by decide⟩, by decide⟩, by decide, by decide⟩, ⟨trivial, by decide⟩, by decide⟩

/-- **C67 (calls are answered).** Who calls the bus gets one answer, which says which call it answers; nobody else gets anything. -/
theorem C67_answered_partial (e : Env) (h : List Event) (c : Nat) (m : Msg) (hp : Proper (.msg c m :: h))
    (hr : ReleasesOk (.msg c m :: h)) (hd : m.dest = bus) (hn : ¬ m.isNotice) (hc : Event.close c ∉ h) :
    ∃ s a, Server.run e (.msg c m :: h) = some (s, [(c, a)]) ∧ a.reply = m.serial ∧ a.dest = m.sender ∧
      (a.kind = .ret ∨ a.kind = .err) ∧ { a with serial := 0 } = answer e h c m := by
  obtain ⟨s, hs⟩ := out_run e h c m hp hr
  have ho : own h m = true := by simp [own, hd, hn]
  have hout : deliver h (out e h c m) = [(c, { answer e h c m with serial := 1001 + answers h })] := by
    unfold out
    rw [if_neg hn]
    dsimp only
    rw [if_pos hd, if_pos ho]
    unfold deliver
    simp [hc]
  rw [hout] at hs
  have h4 : (answer e h c m).reply = m.serial ∧ (answer e h c m).dest = m.sender ∧
      ((answer e h c m).kind = .ret ∨ (answer e h c m).kind = .err) ∧ (answer e h c m).serial = 0 := by
    unfold answer
    dsimp only
    repeat' split
    all_goals exact ⟨rfl, rfl, by first | exact Or.inl rfl | exact Or.inr rfl, rfl⟩
  refine ⟨s, _, hs, h4.1, h4.2.1, h4.2.2.1, ?_⟩
  have := h4.2.2.2
  cases ha : answer e h c m
  rw [ha] at this
  simp only at this
  rw [this]

/-- **C67 (answers find their way back).** A connection sends a call to a name; who has the name gets it and later answers to the
    sender it saw. The caller gets this answer, with the unique name of who has sent it, whatever happens in between, if the
    caller is still there and nobody else asked for the caller's unique name. -/
theorem C67_way_back_partial (e : Env) (g h : List Event) (c d : Nat) (m r : Msg)
    (hp : Proper (.msg d r :: g ++ .msg c m :: h)) (hr : ReleasesOk (.msg d r :: g ++ .msg c m :: h))
    (ho : owner h m.dest = some d) (hm : m.dest ≠ [] ∧ m.dest ≠ bus ∧ ¬ m.isNotice) (hrn : ¬ r.isNotice)
    (hu : Untouched (unique c) (g ++ .msg c m :: h)) (hc : Event.close c ∉ g ++ .msg c m :: h) (hd : Event.close d ∉ h) :
    ∃ m', (∃ s, Server.run e (.msg c m :: h) = some (s, [(d, m')])) ∧
      (r.dest = m'.sender → ∃ s, Server.run e (.msg d r :: g ++ .msg c m :: h) = some (s, [(c, { r with sender := unique d })])) := by
  refine ⟨{ m with sender := unique c }, ?_, ?_⟩
  · obtain ⟨s, hs⟩ := out_run e h c m (proper_append (g := .msg d r :: g) hp) (releases_append (g := .msg d r :: g) hr)
    refine ⟨s, hs.trans ?_⟩
    congr 2
    have : own h m = false := by simp [own, hm.2.1, ho]
    unfold out
    rw [if_neg hm.2.2]
    dsimp only
    rw [if_neg hm.2.1, this, if_neg (by decide)]
    unfold route
    rw [if_neg hm.1, ho]
    simp [deliver, hd]
  · intro hdest
    have hdest : r.dest = unique c := hdest
    have hcons : Event.msg d r :: g ++ .msg c m :: h = .msg d r :: (g ++ .msg c m :: h) := rfl
    rw [hcons] at hp hr ⊢
    obtain ⟨s, hs⟩ := out_run e (g ++ .msg c m :: h) d r hp hr
    refine ⟨s, hs.trans ?_⟩
    have hch : c ∈ here (g ++ .msg c m :: h) := by
      have h1 := proper_append hp.1
      have h2 := here_le h1.2
      refine mem_here h2.1 ?_ ?_
      · have : ∀ (l k : List Event), connects k ≤ connects (l ++ k) := by
          intro l k
          induction l with
          | nil => exact Nat.le_refl _
          | cons x l ih => exact Nat.le_trans ih (connects_le _ _)
        exact Nat.le_trans h2.2.1 (Nat.le_trans (connects_le _ _) (this _ _))
      · have : ∀ (k : List Event), Proper k → Event.gone c ∈ k → Event.close c ∈ k := by
          intro k
          induction k with
          | nil => intro _ hx; cases hx
          | cons x k ih =>
            intro hpk hx
            rcases List.mem_cons.mp hx with rfl | hx
            · exact List.mem_cons_of_mem _ hpk.2.2
            · exact List.mem_cons_of_mem _ (ih (proper_tail hpk) hx)
        exact fun hx => hc (this _ hp.1 hx)
    have how := unique_owner hp.1 hch hu
    have hnb : unique c ≠ bus := fun x => by
      have := congrArg List.head? x
      revert this
      unfold unique
      simp only [List.head?_cons]
      decide
    have hne : unique c ≠ [] := by unfold unique; simp
    congr 2
    have : own (g ++ .msg c m :: h) r = false := by simp [own, hdest, hnb, how]
    unfold out
    rw [if_neg hrn]
    dsimp only
    rw [hdest, if_neg hnb, this, if_neg (by decide)]
    unfold route
    rw [hdest, if_neg hne, how]
    simp [deliver]
    simpa using hc

/-- A call to "a" and the answer, with a connection that comes and one that goes in between. -/
example : ∃ g m r, Proper (.msg 2 r :: g ++ .msg 1 m :: start) ∧ ReleasesOk (.msg 2 r :: g ++ .msg 1 m :: start) ∧
    owner start m.dest = some 2 ∧ g = [.gone 3, .close 3, .connect] ∧ r.dest = unique 1 ∧
    Untouched (unique 1) (g ++ .msg 1 m :: start) ∧ Event.close 1 ∉ g ++ .msg 1 m :: start := by
  refine ⟨_, { kind := .call, serial := 5, dest := [ch 'a'] }, { kind := .ret, serial := 5, reply := 5, dest := unique 1 }, ?_, ?_,
    ?_, rfl, rfl, ?_, ?_⟩
  · exact ⟨⟨⟨⟨⟨trivial, by decide⟩, by decide⟩, by decide⟩, by decide, by decide⟩, by decide⟩
  · exact ⟨⟨⟨trivial, by decide⟩, by decide⟩, by decide⟩
  · decide +kernel
  · intro c m hm _ hx
    simp [start] at hm
    rcases hm with ⟨rfl, rfl⟩ | ⟨rfl, rfl⟩
    · revert hx; decide
    · decide +kernel
  · decide

/-- **C67 (who can stop the bus).** The bus keeps running exactly as long as connections release only names that they have. -/
theorem C67_stops_exactly (e : Env) (h : List Event) (hp : Proper h) : Server.run e h = none ↔ ¬ ReleasesOk h := by
  constructor
  · intro hn hr
    obtain ⟨s, l, hs, -⟩ := run_inv e h hp hr
    rw [hs] at hn; cases hn
  · exact run_bad e h hp

example : Proper start ∧ ReleasesOk start := ⟨⟨trivial, by decide⟩, trivial, by decide⟩

/-- **C67 fails.** Any connection can stop the bus: it releases a name that it does not have (a failed assertion). -/
theorem C67_release_fails : ∃ c m, Proper (.msg c m :: start) ∧ ∀ e, Server.run e (.msg c m :: start) = none := by
  have hp : Proper (.msg 1 { kind := .call, serial := 1, dest := bus, member := releaseName, args := [.text [ch 'a']] } :: start) :=
    ⟨⟨by trivial, by decide⟩, by decide⟩
  refine ⟨1, _, hp, fun e => (C67_stops_exactly e _ hp).mpr fun hr => ?_⟩
  have := hr.2 ⟨rfl, rfl⟩
  revert this
  decide +kernel

/-- **C67 fails.** A connection can take the unique name of another one and gets what is sent to that one from then on. -/
theorem C67_hijack_fails : ∃ h m, Proper (.msg 1 m :: h) ∧ m.dest = unique 2 ∧ 2 ∈ here h ∧ Event.close 2 ∉ h ∧
    ∀ e, ∃ s a, Server.run e (.msg 1 m :: h) = some (s, [(3, a)]) := by
  refine ⟨.msg 3 (ask (unique 2)) :: start, { kind := .call, serial := 1, dest := unique 2 },
    ⟨⟨⟨by trivial, by decide⟩, by decide⟩, by decide⟩, rfl, by decide, by decide, fun e => ?_⟩
  obtain ⟨s, hs⟩ := out_run e (.msg 3 (ask (unique 2)) :: start) 1 { kind := .call, serial := 1, dest := unique 2 }
    ⟨⟨⟨by trivial, by decide⟩, by decide⟩, by decide⟩ ⟨⟨⟨by trivial, by decide⟩, by decide⟩, by decide⟩
  refine ⟨s, { kind := .call, serial := 1, dest := unique 2, sender := unique 1 }, hs.trans ?_⟩
  congr 2

/-- **C67 fails.** The sender of a broadcast is not set: connection 3 sends one in the name of connection 1, and all get it so. -/
theorem C67_sender_fails : ∃ m, Proper (.msg 3 m :: start) ∧ m.sender = unique 1 ∧
    ∀ e, ∃ s, Server.run e (.msg 3 m :: start) = some (s, [(1, m), (2, m), (3, m)]) := by
  refine ⟨{ kind := .signal, serial := 1, sender := unique 1 }, ⟨⟨by trivial, by decide⟩, by decide⟩, rfl, fun e => ?_⟩
  obtain ⟨s, hs⟩ := out_run e start 3 { kind := .signal, serial := 1, sender := unique 1 } ⟨⟨by trivial, by decide⟩, by decide⟩
    ⟨⟨by trivial, by decide⟩, by decide⟩
  exact ⟨s, hs.trans (by congr 2)⟩

/-- **C67 fails.** A call to a connection that broke a moment ago gets neither delivered nor answered. -/
theorem C67_lost_fails : ∃ m, Proper (.msg 1 m :: .close 2 :: start) ∧ m.kind = .call ∧
    ∀ e, ∃ s, Server.run e (.msg 1 m :: .close 2 :: start) = some (s, []) := by
  refine ⟨{ kind := .call, serial := 1, dest := [ch 'a'] }, ⟨⟨⟨by trivial, by decide⟩, by decide⟩, by decide⟩, rfl, fun e => ?_⟩
  obtain ⟨s, hs⟩ := out_run e (.close 2 :: start) 1 { kind := .call, serial := 1, dest := [ch 'a'] }
    ⟨⟨⟨by trivial, by decide⟩, by decide⟩, by decide⟩ ⟨⟨by trivial, by decide⟩, by decide⟩
  exact ⟨s, hs.trans (by congr 2)⟩

end Props
