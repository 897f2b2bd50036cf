import Verif.Model.Resolver
import Verif.Props.Addr
/- C102: looking up names. -/
namespace Props
open Wv Wv.Resolver Spec.Addr Spec.Resolver

namespace Rsv

/-- What the system promises about a turn: the pipe of a child that has ended, or was never started, is readable (it is at its end). -/
def Sound (w : World) (t : Turn) : Prop := ∀ k, (k ∈ t.dead ∨ w.forked k = false) → t.ready k = true

def SoundOp (w : World) : Op → Prop
  | .find c => ∀ t ∈ c.turns, Sound w t
  | .clear _ => True

/-! ### The line -/

theorem tokens_word (p r acc : Text) (hs : ch ' ' ∉ p) (hn : ch '\n' ∉ p) : tokens acc (p ++ r) = tokens (p.reverse ++ acc) r := by
  induction p generalizing acc with
  | nil => rfl
  | cons c p ih =>
    simp only [List.mem_cons, not_or] at hs hn
    rw [List.cons_append, tokens, if_neg (by rintro (e | e); exact hs.1 e.symm; exact hn.1 e.symm), ih _ hs.2 hn.2]
    simp

theorem printable_ne (a : Addr) : Addr.printable a ≠ [] := by
  unfold Addr.printable
  intro h
  have := congrArg List.length h
  simp at this

theorem tokens_output (l : List Addr) : tokens [] (output l) = l.map Addr.printable := by
  induction l with
  | nil => rfl
  | cons a l ih =>
    have h1 : output (a :: l) = Addr.printable a ++ (ch ' ' :: output l) := by simp [output]
    rw [h1, tokens_word _ _ _ (Ip.printable_not a _ (by decide) (by decide)) (Ip.printable_not a _ (by decide) (by decide)), tokens, if_pos (Or.inl rfl)]
    rw [if_neg (by simpa using printable_ne a), ih]
    simp

theorem parse_output (l : List Addr) : (tokens [] (output l)).map Addr.parse = l := by
  rw [tokens_output, List.map_map]
  conv => rhs; rw [← List.map_id l]
  exact List.map_congr_left (fun a _ => (C38_roundtrip a [] (by intro c t e; cases e)).1)

theorem output_nil (l : List Addr) : output l = [] ↔ l = [] := by
  cases l with
  | nil => simp [output]
  | cons a l => simp [output]

theorem line_eq (w : World) (k : Nat) : (if w.forked k then ((w.answer k).map output).getD [] else []) = output (w.finds k) := by
  unfold World.finds
  split
  · cases w.answer k <;> rfl
  · rfl

/-! ### The table -/

theorem lookup_name (st : St) (n : Text) (h : Host) (e : lookup st n = some h) : h.name = n := by
  have := List.find?_some e
  simpa using this

theorem lookup_put_same (st : St) (n : Text) (g h : Host) (e : lookup st n = some g) (hn : h.name = n) : lookup (put st h) n = some h := by
  unfold lookup put at *
  generalize st.hosts = l at e
  induction l with
  | nil => simp at e
  | cons a l ih =>
    rw [List.find?_cons] at e
    simp only [List.map_cons, List.find?_cons]
    by_cases ha : a.name = n
    · simp [ha, hn]
    · simp only [ha, decide_false] at e
      simp only [hn, ha, if_false, decide_false]
      rw [hn] at ih
      exact ih e

theorem lookup_put_other (st : St) (n : Text) (h : Host) (hn : h.name ≠ n) : lookup (put st h) n = lookup st n := by
  unfold lookup put
  generalize st.hosts = l
  dsimp only
  induction l with
  | nil => rfl
  | cons a l ih =>
    rw [List.map_cons, List.find?_cons, List.find?_cons, ih]
    by_cases ha : a.name = h.name
    · have h2 : a.name ≠ n := by rw [ha]; exact hn
      simp [ha, hn]
    · simp [ha]

theorem remove_hosts (st : St) (h : Host) : (remove st h).hosts = st.hosts.filter fun g => g.name ≠ h.name := by
  unfold remove
  dsimp only
  split
  · split <;> rfl
  · rfl

theorem remove_starts (st : St) (h : Host) : (remove st h).starts = st.starts := by
  unfold remove
  dsimp only
  split
  · split <;> rfl
  · rfl

theorem lookup_remove_same (st : St) (h : Host) : lookup (remove st h) h.name = none := by
  unfold lookup
  rw [remove_hosts, List.find?_eq_none]
  intro g hg
  simp only [List.mem_filter, decide_eq_true_eq] at hg
  simpa using hg.2

theorem lookup_remove_other (st : St) (n : Text) (h : Host) (hn : h.name ≠ n) : lookup (remove st h) n = lookup st n := by
  unfold lookup
  rw [remove_hosts]
  generalize st.hosts = l
  induction l with
  | nil => rfl
  | cons a l ih =>
    rw [List.filter_cons]
    by_cases ha : a.name = h.name
    · have h2 : a.name ≠ n := by rw [ha]; exact hn
      simp only [ha, ne_eq, not_true, decide_false, Bool.false_eq_true, if_false]
      rw [ih, List.find?_cons]
      simp [h2]
    · simp only [ne_eq, ha, not_false_iff, decide_true, if_true, List.find?_cons]
      rw [ih]

/-! ### What is true of an entry -/

structure HostOk (w : World) (h : Host) : Prop where
  done : h.done = true → h.negative = false ∧ w.finds h.id ≠ [] ∧ h.addrs = w.finds h.id
  neg : h.negative = true → h.done = false ∧ w.finds h.id = []
  pend : h.done = false → h.negative = false → h.pid = if w.forked h.id then .child h.id else .minus
  pid : ∀ k, h.pid = .child k → k = h.id

structure Inv (w : World) (st : St) : Prop where
  ok : ∀ n h, lookup st n = some h → HostOk w h
  last : ∀ n h, lookup st n = some h → Last st.starts n h.id h.tried

theorem poll_frame (w : World) (t : Turn) (st : St) (pid : Pid) :
    (poll w t st pid).1.hosts = st.hosts ∧ (poll w t st pid).1.starts = st.starts ∧ (poll w t st pid).1.stray = st.stray := by
  cases pid with
  | zero => exact ⟨rfl, rfl, rfl⟩
  | minus =>
    simp only [poll]
    split
    · exact ⟨rfl, rfl, rfl⟩
    · split <;> exact ⟨rfl, rfl, rfl⟩
  | child k => simp only [poll]; split <;> exact ⟨rfl, rfl, rfl⟩

theorem waitEnd_frame (w : World) (st : St) (pid : Pid) :
    (waitEnd w st pid).1.hosts = st.hosts ∧ (waitEnd w st pid).1.starts = st.starts ∧ (waitEnd w st pid).1.stray = st.stray := by
  cases pid with
  | zero => exact ⟨rfl, rfl, rfl⟩
  | minus => simp only [waitEnd]; split <;> exact ⟨rfl, rfl, rfl⟩
  | child k => simp only [waitEnd]; split <;> exact ⟨rfl, rfl, rfl⟩

/-- Who is waited for keeps its number, or has ended. -/
theorem poll_pid (w : World) (t : Turn) (st : St) (id : Nat) (ht : Sound w t) (hr : t.ready id = false) :
    (poll w t st (if w.forked id then .child id else .minus)).2 = if w.forked id then .child id else .minus := by
  cases hf : w.forked id with
  | false => rw [ht id (Or.inr hf)] at hr; simp at hr
  | true =>
    simp only [if_true]
    simp only [poll]
    split
    · rename_i h; rw [ht id (Or.inl h.2)] at hr; simp at hr
    · rfl

/-- What becomes of a child's number. -/
theorem poll_child (w : World) (t : Turn) (st : St) (pid : Pid) (k : Nat) (h : (poll w t st pid).2 = .child k) : pid = .child k := by
  cases pid with
  | zero => simp [poll] at h
  | minus =>
    simp only [poll] at h
    split at h
    · simp at h
    · split at h <;> simp at h
  | child j =>
    simp only [poll] at h
    split at h
    · simp at h
    · exact h

theorem waitEnd_child (w : World) (st : St) (pid : Pid) (k : Nat) (h : (waitEnd w st pid).2 = .child k) : pid = .child k := by
  cases pid with
  | zero => simp [waitEnd] at h
  | minus => simp only [waitEnd] at h; split at h <;> simp at h
  | child j =>
    simp only [waitEnd] at h
    split at h
    · exact h
    · simp at h

theorem waitLoop_spec (w : World) (forever : Bool) (id : Nat) (ts : List Turn) (st : St) (ht : ∀ t ∈ ts, Sound w t) :
    ∀ o st' pid', waitLoop w forever id ts st (if w.forked id then .child id else .minus) = (o, st', pid') →
      st'.hosts = st.hosts ∧ st'.starts = st.starts ∧ st'.stray = st.stray ∧ o ≠ .dead ∧ (forever = true → o ≠ .timeout) ∧
        ((o = .block ∨ o = .timeout) → pid' = if w.forked id then .child id else .minus) ∧ (∀ k, pid' = .child k → k = id) := by
  have hk : ∀ k, (if w.forked id then Pid.child id else Pid.minus) = .child k → k = id := by
    intro k h; split at h
    · exact (Pid.child.injEq _ _ ▸ h).symm
    · simp at h
  induction ts generalizing st with
  | nil =>
    intro o st' pid' h
    simp only [waitLoop, Prod.mk.injEq] at h
    obtain ⟨rfl, rfl, rfl⟩ := h
    exact ⟨rfl, rfl, rfl, by simp, by simp, fun _ => rfl, hk⟩
  | cons t ts ih =>
    intro o st' pid' h
    obtain ⟨f1, f2, f3⟩ := poll_frame w t st (if w.forked id then .child id else .minus)
    unfold waitLoop at h
    dsimp only at h
    by_cases hr : t.ready id = true
    · rw [if_pos hr] at h
      simp only [Prod.mk.injEq] at h
      obtain ⟨rfl, rfl, rfl⟩ := h
      exact ⟨f1, f2, f3, by simp, by simp, by simp, fun k hp => hk k (poll_child w t st _ k hp)⟩
    · rw [if_neg hr] at h
      have hp := poll_pid w t st id (ht t (by simp)) (by simpa using hr)
      have hz : ¬ (poll w t st (if w.forked id then .child id else .minus)).2 = .zero := by rw [hp]; split <;> simp
      rw [if_neg hz] at h
      split at h
      · rename_i hf
        simp only [Prod.mk.injEq] at h
        obtain ⟨rfl, rfl, rfl⟩ := h
        refine ⟨f1, f2, f3, by simp, fun e => by simp [e] at hf, fun _ => hp, fun k e => hk k (by rw [← hp]; exact e)⟩
      · rw [hp] at h
        obtain ⟨a, b, c, d⟩ := ih (poll w t st _).1 (fun t' h' => ht t' (by simp [h'])) o st' pid' h
        exact ⟨a.trans f1, b.trans f2, c.trans f3, d⟩

/-- What a call says, given the entry afterwards. -/
structure Says (c : Call) (h : Host) (r : Ret) : Prop where
  done : h.done = true → ∃ n : Int, r.code = some n ∧ 0 < n ∧ (c.list = true → n = h.addrs.length) ∧ r.addr = h.addrs.head? ∧
    r.addrs = if c.list then h.addrs else []
  neg : h.negative = true → r = ⟨some 0, none, []⟩
  pend : h.done = false → h.negative = false → (r = ⟨none, none, []⟩ ∨ (c.forever = false ∧ r = ⟨some (-1), none, []⟩))

theorem await_spec (w : World) (c : Call) (st : St) (h : Host) (ht : ∀ t ∈ c.turns, Sound w t) (hl : lookup st c.name = some h) (hd : h.done = false)
    (hn : h.negative = false) (ok : HostOk w h) :
    ∃ h', lookup (await w c st h).2 c.name = some h' ∧ HostOk w h' ∧ Says c h' (await w c st h).1 ∧ h'.id = h.id ∧ h'.tried = h.tried ∧
      (∀ m, m ≠ c.name → lookup (await w c st h).2 m = lookup st m) ∧ (await w c st h).2.starts = st.starts ∧ (await w c st h).2.stray = st.stray := by
  have hname := lookup_name st c.name h hl
  have hp := ok.pend hd hn
  unfold await
  rw [hp]
  cases hw : waitLoop w c.forever h.id c.turns st (if w.forked h.id then .child h.id else .minus) with
  | mk o q =>
    obtain ⟨st', pid'⟩ := q
    obtain ⟨e1, e2, e3, e4, e5, e6, e7⟩ := waitLoop_spec w c.forever h.id c.turns st ht o st' pid' hw
    have hl' : ∀ m, lookup st' m = lookup st m := fun m => by unfold lookup; rw [e1]
    have fin : ∀ (st'' : St) (h' : Host), st''.hosts = st.hosts → st''.starts = st.starts → st''.stray = st.stray → h'.name = h.name →
        lookup (put st'' h') c.name = some h' ∧ (∀ m, m ≠ c.name → lookup (put st'' h') m = lookup st m) ∧ (put st'' h').starts = st.starts ∧
          (put st'' h').stray = st.stray := by
      intro st'' h' q1 q2 q3 q4
      have hl'' : ∀ m, lookup st'' m = lookup st m := fun m => by unfold lookup; rw [q1]
      refine ⟨lookup_put_same st'' c.name h h' (by rw [hl'', hl]) (by rw [q4, hname]), fun m hm => ?_, q2, q3⟩
      rw [lookup_put_other st'' m h' (by rw [q4, hname]; exact fun e => hm e.symm), hl'']
    cases o with
    | dead => exact absurd rfl e4
    | block =>
      obtain ⟨a, b, d, d'⟩ := fin st' { h with pid := pid' } e1 e2 e3 rfl
      refine ⟨_, a, ⟨fun x => by simp [hd] at x, fun x => by simp [hn] at x, fun _ _ => e6 (Or.inl rfl), e7⟩,
        ⟨fun x => by simp [hd] at x, fun x => by simp [hn] at x, fun _ _ => Or.inl rfl⟩, rfl, rfl, b, d, d'⟩
    | timeout =>
      obtain ⟨a, b, d, d'⟩ := fin st' { h with pid := pid' } e1 e2 e3 rfl
      refine ⟨_, a, ⟨fun x => by simp [hd] at x, fun x => by simp [hn] at x, fun _ _ => e6 (Or.inr rfl), e7⟩,
        ⟨fun x => by simp [hd] at x, fun x => by simp [hn] at x, fun _ _ => Or.inr ⟨?_, rfl⟩⟩, rfl, rfl, b, d, d'⟩
      cases hf : c.forever with
      | false => rfl
      | true => exact absurd rfl (e5 hf)
    | ready =>
      obtain ⟨g1, g2, g3⟩ := waitEnd_frame w st' pid'
      have hk : ∀ k, (waitEnd w st' pid').2 = .child k → k = h.id := fun k hh => e7 k (waitEnd_child w st' pid' k hh)
      dsimp only
      rw [line_eq]
      by_cases hf : w.finds h.id = []
      · rw [if_neg (by rw [ne_eq, output_nil]; exact fun x => x hf)]
        obtain ⟨a, b, d, d'⟩ := fin (waitEnd w st' pid').1 { h with pid := (waitEnd w st' pid').2, negative := true } (g1.trans e1) (g2.trans e2) (g3.trans e3) rfl
        exact ⟨_, a, ⟨fun x => by simp [hd] at x, fun _ => ⟨hd, hf⟩, fun _ x => by simp at x, hk⟩,
          ⟨fun x => by simp [hd] at x, fun _ => rfl, fun _ x => by simp at x⟩, rfl, rfl, b, d, d'⟩
      · rw [if_pos (by rw [ne_eq, output_nil]; exact hf), parse_output]
        obtain ⟨a, b, d, d'⟩ := fin (waitEnd w st' pid').1 { h with pid := (waitEnd w st' pid').2, done := true, addrs := w.finds h.id }
          (g1.trans e1) (g2.trans e2) (g3.trans e3) rfl
        refine ⟨_, a, ⟨fun _ => ⟨hn, hf, rfl⟩, fun x => by simp [hn] at x, fun x => by simp at x, hk⟩,
          ⟨fun _ => ⟨_, rfl, ?_, fun _ => rfl, rfl, rfl⟩, fun x => by simp [hn] at x, fun x => by simp at x⟩, rfl, rfl, b, d, d'⟩
        have := List.length_pos_iff.mpr hf
        omega

theorem last_append (l : List Lookup) (n : Text) (t : Int) : Last (l ++ [⟨n, t⟩]) n l.length t := by
  refine ⟨by simp, fun j s hj e => ?_⟩
  have : (l ++ [⟨n, t⟩])[j]? = none := by
    rw [List.getElem?_eq_none_iff]; simp; omega
  rw [this] at e; simp at e

theorem last_other (l : List Lookup) (n m : Text) (t t' : Int) (k : Nat) (h : Last l n k t) (hm : m ≠ n) : Last (l ++ [⟨m, t'⟩]) n k t := by
  have hk : k < l.length := by
    have := h.1
    rcases Nat.lt_or_ge k l.length with x | x
    · exact x
    · rw [List.getElem?_eq_none_iff.mpr x] at this; simp at this
  refine ⟨by rw [List.getElem?_append_left hk]; exact h.1, fun j s hj e => ?_⟩
  rcases Nat.lt_or_ge j l.length with x | x
  · rw [List.getElem?_append_left x] at e; exact h.2 j s hj e
  · rw [List.getElem?_append_right x] at e
    cases hx : j - l.length with
    | zero => rw [hx] at e; simp at e; rw [← e]; exact hm
    | succ i => rw [hx] at e; simp at e

theorem start_spec (w : World) (c : Call) (st : St) (ht : ∀ t ∈ c.turns, Sound w t) (hl : lookup st c.name = none) :
    ∃ h', lookup (start w c st).2 c.name = some h' ∧ HostOk w h' ∧ Says c h' (start w c st).1 ∧ h'.id = st.starts.length ∧ h'.tried = c.now ∧
      (∀ m, m ≠ c.name → lookup (start w c st).2 m = lookup st m) ∧ (start w c st).2.starts = st.starts ++ [⟨c.name, c.now⟩] ∧
      (start w c st).2.stray = st.stray := by
  unfold start
  dsimp only
  have hl2 : ∀ m (h : Host), h.name = c.name → lookup { st with hosts := st.hosts ++ [h], starts := st.starts ++ [⟨c.name, c.now⟩] } m =
      if m = c.name then some h else lookup st m := by
    intro m h hh
    unfold lookup at *
    dsimp only
    rw [List.find?_append]
    split
    · rename_i e
      rw [e, hl]
      simp [hh]
    · rename_i e
      have : ([h].find? fun g => g.name = m) = none := by simp [hh]; exact fun x => e x.symm
      rw [this]; simp
  obtain ⟨h', a1, a2, a3, a4, a5, a6, a7, a8⟩ := await_spec w c
    { st with hosts := st.hosts ++ [⟨c.name, st.starts.length, [], false, false, if w.forked st.starts.length then .child st.starts.length else .minus, c.now⟩],
              starts := st.starts ++ [⟨c.name, c.now⟩] }
    ⟨c.name, st.starts.length, [], false, false, if w.forked st.starts.length then .child st.starts.length else .minus, c.now⟩ ht
    (by rw [hl2 c.name _ rfl, if_pos rfl]) rfl rfl
    ⟨fun x => by simp at x, fun x => by simp at x, fun _ _ => rfl, fun k e => by
      dsimp only at e
      split at e
      · exact (Pid.child.injEq _ _ ▸ e).symm
      · simp at e⟩
  exact ⟨h', a1, a2, a3, a4, a5, fun m hm => by rw [a6 m hm, hl2 m _ rfl, if_neg hm], a7, a8⟩

/-- All about one call. -/
theorem find_spec (w : World) (c : Call) (st : St) (ht : ∀ t ∈ c.turns, Sound w t) (inv : Inv w st) :
    ∃ h', lookup (find w c st).2 c.name = some h' ∧ Inv w (find w c st).2 ∧ Says c h' (find w c st).1 ∧
      (c.now ≤ h'.tried + 300 ∧ (h'.done = false → c.now ≤ h'.tried + 60)) ∧
      (∀ m, m ≠ c.name → lookup (find w c st).2 m = lookup st m) ∧
      (((find w c st).2.starts = st.starts ∧ ∃ h, lookup st c.name = some h ∧ h'.id = h.id ∧ h'.tried = h.tried ∧
          (h.done = true → h' = h) ∧ (h.negative = true → h' = h)) ∨
        ((find w c st).2.starts = st.starts ++ [⟨c.name, c.now⟩] ∧ h'.id = st.starts.length ∧ h'.tried = c.now ∧
          ∀ h, lookup st c.name = some h → h.tried + 60 < c.now ∧ (h.done = true → h.tried + 300 < c.now))) := by
  have build : ∀ (st' : St) (h' : Host), HostOk w h' → lookup st' c.name = some h' → (∀ m, m ≠ c.name → lookup st' m = lookup st m) →
      Last st'.starts c.name h'.id h'.tried → (∀ n k t, n ≠ c.name → Last st.starts n k t → Last st'.starts n k t) → Inv w st' := by
    intro st' h' q1 q2 q3 q4 q5
    constructor
    · intro n h e
      by_cases hn : n = c.name
      · rw [hn, q2] at e; rw [← Option.some.inj e]; exact q1
      · rw [q3 n hn] at e; exact inv.ok n h e
    · intro n h e
      by_cases hn : n = c.name
      · rw [hn, q2] at e; rw [← Option.some.inj e, hn]; exact q4
      · rw [q3 n hn] at e; exact q5 n _ _ hn (inv.last n h e)
  unfold find
  cases hl : lookup st c.name with
  | none =>
    dsimp only
    obtain ⟨h', a1, a2, a3, a4, a5, a6, a7, _⟩ := start_spec w c st ht hl
    refine ⟨h', a1, build _ h' a2 a1 a6 ?_ ?_, a3, ⟨by omega, fun _ => by omega⟩, a6, Or.inr ⟨a7, a4, a5, fun h e => by simp at e⟩⟩
    · rw [a7, a4, a5]; exact last_append _ _ _
    · intro n k t hn hL; rw [a7]; exact last_other _ _ _ _ _ _ hL (fun e => hn e.symm)
  | some h =>
    have hname := lookup_name st c.name h hl
    dsimp only
    by_cases hx : expired h c.now = true
    · rw [if_pos hx]
      obtain ⟨h', a1, a2, a3, a4, a5, a6, a7, _⟩ := start_spec w c (remove st h) ht (by rw [← hname]; exact lookup_remove_same st h)
      have a6' : ∀ m, m ≠ c.name → lookup (start w c (remove st h)).2 m = lookup st m := fun m hm => by
        rw [a6 m hm, lookup_remove_other st m h (by rw [hname]; exact fun e => hm e.symm)]
      rw [remove_starts] at a4 a7
      refine ⟨h', a1, build _ h' a2 a1 a6' ?_ ?_, a3, ⟨by omega, fun _ => by omega⟩, a6', Or.inr ⟨a7, a4, a5, fun g e => ?_⟩⟩
      · rw [a7, a4, a5]; exact last_append _ _ _
      · intro n k t hn hL; rw [a7]; exact last_other _ _ _ _ _ _ hL (fun e => hn e.symm)
      · simp only [Option.some.injEq] at e
        subst e
        unfold expired at hx
        cases hd : h.done with
        | true => simp [hd] at hx; exact ⟨by omega, fun _ => by omega⟩
        | false => simp [hd] at hx; exact ⟨by omega, fun x => by simp at x⟩
    · rw [if_neg hx]
      have ok := inv.ok c.name h hl
      have hin : c.now ≤ h.tried + 300 ∧ (h.done = false → c.now ≤ h.tried + 60) := by
        unfold expired at hx
        cases hd : h.done with
        | true => simp [hd] at hx; exact ⟨by omega, fun x => by simp at x⟩
        | false => simp [hd] at hx; exact ⟨by omega, fun _ => by omega⟩
      cases hd : h.done with
      | true =>
        rw [if_pos rfl]
        obtain ⟨b1, b2, b3⟩ := ok.done hd
        refine ⟨h, hl, inv, ⟨fun _ => ⟨_, rfl, ?_, fun e => by simp [e], rfl, rfl⟩, fun x => by simp [b1] at x, fun x => by simp [hd] at x⟩,
          hin, fun _ _ => rfl, Or.inl ⟨rfl, h, rfl, rfl, rfl, fun _ => rfl, fun _ => rfl⟩⟩
        split
        · have := List.length_pos_iff.mpr b2
          rw [b3]; omega
        · omega
      | false =>
        simp only [Bool.false_eq_true, if_false]
        cases hneg : h.negative with
        | true =>
          rw [if_pos rfl]
          exact ⟨h, hl, inv, ⟨fun x => by simp [hd] at x, fun _ => rfl, fun _ x => by simp [hneg] at x⟩, hin, fun _ _ => rfl,
            Or.inl ⟨rfl, h, rfl, rfl, rfl, fun _ => rfl, fun _ => rfl⟩⟩
        | false =>
          simp only [Bool.false_eq_true, if_false]
          obtain ⟨h', a1, a2, a3, a4, a5, a6, a7, _⟩ := await_spec w c st h ht hl hd hneg ok
          refine ⟨h', a1, build _ h' a2 a1 a6 ?_ ?_, a3, ⟨by rw [a5]; exact hin.1, fun _ => by rw [a5]; exact hin.2 hd⟩, a6,
            Or.inl ⟨a7, h, rfl, a4, a5, fun x => by simp [hd] at x, fun x => by simp [hneg] at x⟩⟩
          · rw [a7, a4, a5]; exact inv.last c.name h hl
          · intro n k t _ hL; rw [a7]; exact hL

theorem clear_inv (w : World) (n : Text) (st : St) (inv : Inv w st) : Inv w (clear n st) ∧ lookup (clear n st) n = none ∧
    (∀ m, m ≠ n → lookup (clear n st) m = lookup st m) ∧ (clear n st).starts = st.starts := by
  unfold clear
  cases hl : lookup st n with
  | none => exact ⟨inv, hl, fun _ _ => rfl, rfl⟩
  | some h =>
    have hname := lookup_name st n h hl
    dsimp only
    have hs : lookup (remove st h) n = none := by rw [← hname]; exact lookup_remove_same st h
    have ho : ∀ m, m ≠ n → lookup (remove st h) m = lookup st m := fun m hm => lookup_remove_other st m h (by rw [hname]; exact fun e => hm e.symm)
    refine ⟨⟨?_, ?_⟩, hs, ho, remove_starts st h⟩
    · intro m g e
      by_cases hm : m = n
      · rw [hm, hs] at e; simp at e
      · rw [ho m hm] at e; exact inv.ok m g e
    · intro m g e
      rw [remove_starts]
      by_cases hm : m = n
      · rw [hm, hs] at e; simp at e
      · rw [ho m hm] at e; exact inv.last m g e

theorem step_inv (w : World) (st : St) (o : Op) (ho : SoundOp w o) (inv : Inv w st) : Inv w (step w st o) := by
  cases o with
  | find c => obtain ⟨_, _, i, _⟩ := find_spec w c st ho inv; exact i
  | clear n => exact (clear_inv w n st inv).1

theorem run_inv (w : World) (ops : List Op) (st : St) (ho : ∀ o ∈ ops, SoundOp w o) (inv : Inv w st) : Inv w (run w st ops) := by
  induction ops generalizing st with
  | nil => exact inv
  | cons o ops ih => exact ih (step w st o) (fun x hx => ho x (by simp [hx])) (step_inv w st o (ho o (by simp)) inv)

theorem inv_new (w : World) : Inv w St.new := ⟨fun n h e => by simp [lookup, St.new] at e, fun n h e => by simp [lookup, St.new] at e⟩

theorem run_new (w : World) (ops : List Op) (ho : ∀ o ∈ ops, SoundOp w o) : Inv w (run w St.new ops) := run_inv w ops _ ho (inv_new w)

/-- Calls about a name that come soon enough leave the entry what it is. -/
theorem keep (w : World) (n : Text) (ops : List Op) : ∀ (st : St) (h : Host), Inv w st → lookup st n = some h → (∀ o ∈ ops, SoundOp w o) →
    (∀ o ∈ ops, o ≠ .clear n) → (∀ c, Op.find c ∈ ops → c.name = n → c.now ≤ h.tried + (if h.done then 300 else 60)) →
    ∃ h', lookup (run w st ops) n = some h' ∧ Inv w (run w st ops) ∧ h'.id = h.id ∧ h'.tried = h.tried ∧ (h.done = true → h' = h) ∧
      (h.negative = true → h' = h) := by
  induction ops with
  | nil => intro st h inv hl _ _ _; exact ⟨h, hl, inv, rfl, rfl, fun _ => rfl, fun _ => rfl⟩
  | cons o ops ih =>
    intro st h inv hl ho hc ht
    have key : ∃ g, lookup (step w st o) n = some g ∧ g.id = h.id ∧ g.tried = h.tried ∧ (h.done = true → g = h) ∧ (h.negative = true → g = h) := by
      cases o with
      | clear m =>
        have hm : n ≠ m := fun e => hc (.clear m) (by simp) (by rw [e])
        exact ⟨h, by rw [step, (clear_inv w m st inv).2.2.1 n hm, hl], rfl, rfl, fun _ => rfl, fun _ => rfl⟩
      | find c =>
        obtain ⟨g, g1, g2, g3, g4, g5, g6⟩ := find_spec w c st (ho (.find c) (by simp)) inv
        by_cases hn : c.name = n
        · subst hn
          rcases g6 with ⟨_, h0, e0, e1, e2, e3, e4⟩ | ⟨_, _, _, e3⟩
          · rw [hl] at e0
            rw [← Option.some.inj e0] at e1 e2 e3 e4
            exact ⟨g, g1, e1, e2, e3, e4⟩
          · have hlim := ht c (by simp) rfl
            obtain ⟨x1, x2⟩ := e3 h hl
            cases hd : h.done with
            | true => have := x2 hd; rw [hd] at hlim; simp at hlim; omega
            | false => rw [hd] at hlim; simp at hlim; omega
        · exact ⟨h, by rw [step, g5 n (fun e => hn e.symm), hl], rfl, rfl, fun _ => rfl, fun _ => rfl⟩
    obtain ⟨g, k1, k2, k3, k4, k5⟩ := key
    have inv' := step_inv w st o (ho o (by simp)) inv
    obtain ⟨h', l1, l0, l2, l3, l4, l5⟩ := ih (step w st o) g inv' k1 (fun x hx => ho x (by simp [hx])) (fun x hx => hc x (by simp [hx])) (by
      intro c hc' hn
      have := ht c (by simp [hc']) hn
      rw [k3]
      cases hd : h.done with
      | true => rw [k4 hd, hd]; rw [hd] at this; exact this
      | false => rw [hd] at this; simp only [Bool.false_eq_true, if_false] at this; split <;> omega)
    refine ⟨h', l1, l0, l2.trans k2, l3.trans k3, fun x => ?_, fun x => ?_⟩
    · have e := k4 x; rw [e] at l4; exact l4 x
    · have e := k5 x; rw [e] at l5; exact l5 x

theorem last_unique (l : List Lookup) (n : Text) (k k' : Nat) (t t' : Int) (h : Last l n k t) (h' : Last l n k' t') : k = k' ∧ t = t' := by
  have : k = k' := by
    rcases Nat.lt_trichotomy k k' with x | x | x
    · exact absurd rfl (h.2 k' _ x h'.1)
    · exact x
    · exact absurd rfl (h'.2 k _ x h.1)
  subst this
  have := h.1.symm.trans h'.1
  simp only [Option.some.injEq, Lookup.mk.injEq, true_and] at this
  exact ⟨rfl, this⟩

/-- What is known from the result. -/
theorem says_cases (w : World) (c : Call) (h : Host) (r : Ret) (n : Int) (ok : HostOk w h) (s : Says c h r) (e : r.code = some n) :
    (0 < n ∧ h.done = true) ∨ (n = 0 ∧ h.negative = true) ∨ (n = -1 ∧ h.done = false ∧ h.negative = false ∧ c.forever = false) := by
  cases hd : h.done with
  | true =>
    obtain ⟨m, q1, q2, _⟩ := s.done hd
    rw [e] at q1
    exact Or.inl ⟨by rw [Option.some.inj q1]; exact q2, rfl⟩
  | false =>
    cases hn : h.negative with
    | true =>
      have := s.neg hn
      rw [this] at e
      exact Or.inr (Or.inl ⟨(Option.some.inj e).symm, rfl⟩)
    | false =>
      rcases s.pend hd hn with q | ⟨f, q⟩
      · rw [q] at e; simp at e
      · rw [q] at e; exact Or.inr (Or.inr ⟨(Option.some.inj e).symm, rfl, rfl, f⟩)

/-! ### The children -/

structure Kids (st : St) : Prop where
  names : st.hosts.Pairwise fun a b => a.name ≠ b.name
  nodup : st.reaped.Nodup
  stray : st.stray = []
  lt : ∀ k ∈ st.reaped, k < st.starts.length
  all : ∀ k < st.starts.length, k ∉ st.reaped → ∃ h ∈ st.hosts, h.pid = .child k
  pid : ∀ h ∈ st.hosts, ∀ k, h.pid = .child k → k ∉ st.reaped ∧ ∃ t, st.starts[k]? = some ⟨h.name, t⟩

def reap (st : St) (k : Nat) : St := { st with reaped := k :: st.reaped }

theorem lt_of_getElem? {α : Type} (l : List α) (k : Nat) (a : α) (h : l[k]? = some a) : k < l.length := by
  rcases Nat.lt_or_ge k l.length with x | x
  · exact x
  · rw [List.getElem?_eq_none_iff.mpr x] at h; simp at h

theorem same_host (st : St) (kd : Kids st) (g h : Host) (hg : g ∈ st.hosts) (hh : h ∈ st.hosts) (e : g.name = h.name) : g = h := by
  have key : ∀ (l : List Host), l.Pairwise (fun a b => a.name ≠ b.name) → ∀ g ∈ l, ∀ h ∈ l, g.name = h.name → g = h := by
    intro l
    induction l with
    | nil => intro _ g hg; simp at hg
    | cons a l ih =>
      intro hp g hg h hh e
      rw [List.pairwise_cons] at hp
      rcases List.mem_cons.mp hg with x | x <;> rcases List.mem_cons.mp hh with y | y
      · rw [x, y]
      · rw [x] at e; exact absurd e (hp.1 h y)
      · rw [y] at e; exact absurd e.symm (hp.1 g x)
      · exact ih hp.2 g x h y e
  exact key st.hosts kd.names g hg h hh e

theorem same_pid (st : St) (kd : Kids st) (g h : Host) (hg : g ∈ st.hosts) (hh : h ∈ st.hosts) (k : Nat) (e1 : g.pid = .child k) (e2 : h.pid = .child k) :
    g = h := by
  obtain ⟨_, t1, q1⟩ := kd.pid g hg k e1
  obtain ⟨_, t2, q2⟩ := kd.pid h hh k e2
  rw [q1] at q2
  simp only [Option.some.injEq, Lookup.mk.injEq] at q2
  exact same_host st kd g h hg hh q2.1

theorem put_names (st : St) (h' : Host) (hp : st.hosts.Pairwise fun a b => a.name ≠ b.name) :
    (put st h').hosts.Pairwise fun a b => a.name ≠ b.name := by
  unfold put
  rw [List.pairwise_map]
  refine hp.imp ?_
  intro a b hab
  by_cases ha : a.name = h'.name <;> by_cases hb : b.name = h'.name
  · exact absurd (ha.trans hb.symm) hab
  · simp [ha, hb]; exact fun e => hb e.symm
  · simp [ha, hb]
  · simp [ha, hb]; exact hab

theorem mem_put (st : St) (g h h' : Host) (hh : h ∈ st.hosts) (hn : h'.name = h.name) : g ∈ (put st h').hosts ↔ g = h' ∨ (g ∈ st.hosts ∧ g.name ≠ h'.name) := by
  unfold put
  rw [List.mem_map]
  constructor
  · rintro ⟨a, ha, e⟩
    split at e
    · exact Or.inl e.symm
    · rename_i hx; subst e; exact Or.inr ⟨ha, hx⟩
  · rintro (rfl | ⟨a, b⟩)
    · exact ⟨h, hh, by simp [hn]⟩
    · exact ⟨g, a, by simp [b]⟩

/-- The entry changes, not its child. -/
theorem kids_put (st : St) (h h' : Host) (kd : Kids st) (hh : h ∈ st.hosts) (hn : h'.name = h.name) (hp : h'.pid = h.pid) : Kids (put st h') := by
  refine ⟨put_names st h' kd.names, kd.nodup, kd.stray, kd.lt, ?_, ?_⟩
  · intro k hk hr
    obtain ⟨g, g1, g2⟩ := kd.all k hk hr
    by_cases e : g.name = h.name
    · have := same_host st kd g h g1 hh e
      exact ⟨h', (mem_put st h' h h' hh hn).mpr (Or.inl rfl), by rw [hp, ← this]; exact g2⟩
    · exact ⟨g, (mem_put st g h h' hh hn).mpr (Or.inr ⟨g1, by rw [hn]; exact e⟩), g2⟩
  · intro g hg k e
    rcases (mem_put st g h h' hh hn).mp hg with rfl | ⟨a, _⟩
    · rw [hn]; exact kd.pid h hh k (by rw [← hp]; exact e)
    · exact kd.pid g a k e

/-- The child of the entry was waited for. -/
theorem kids_reap (st : St) (h h' : Host) (k : Nat) (kd : Kids st) (hh : h ∈ st.hosts) (hk : h.pid = .child k) (hn : h'.name = h.name) (hp : h'.pid = .zero) :
    Kids (put (reap st k) h') := by
  obtain ⟨p1, t, p2⟩ := kd.pid h hh k hk
  refine ⟨put_names (reap st k) h' kd.names, List.nodup_cons.mpr ⟨p1, kd.nodup⟩, kd.stray, ?_, ?_, ?_⟩
  · intro j hj
    rcases List.mem_cons.mp hj with rfl | hj
    · exact lt_of_getElem? _ _ _ p2
    · exact kd.lt j hj
  · intro j hj hr
    have hr' : j ≠ k ∧ j ∉ st.reaped := by simpa [put, reap] using hr
    obtain ⟨g, g1, g2⟩ := kd.all j hj hr'.2
    refine ⟨g, (mem_put (reap st k) g h h' hh hn).mpr (Or.inr ⟨g1, fun e => ?_⟩), g2⟩
    have := same_host st kd g h g1 hh (by rw [e, hn])
    rw [this, hk] at g2
    exact hr'.1 (Pid.child.inj g2).symm
  · intro g hg j e
    rcases (mem_put (reap st k) g h h' hh hn).mp hg with rfl | ⟨a, b⟩
    · rw [hp] at e; simp at e
    · obtain ⟨q1, q2⟩ := kd.pid g a j e
      refine ⟨?_, q2⟩
      intro hm
      rcases List.mem_cons.mp hm with rfl | hm
      · exact b (by rw [same_pid st kd g h a hh j e hk, hn])
      · exact q1 hm

theorem waitLoop_child (w : World) (forever : Bool) (id k : Nat) (ts : List Turn) (st : St) (hk : k ∉ st.reaped) (o : Wait) (st' : St) (pid' : Pid)
    (hnd : o ≠ .dead) (h : waitLoop w forever id ts st (.child k) = (o, st', pid')) :
    (st' = st ∧ pid' = .child k) ∨ (st' = reap st k ∧ pid' = .zero) := by
  induction ts with
  | nil =>
    simp only [waitLoop, Prod.mk.injEq] at h
    exact Or.inl ⟨h.2.1.symm, h.2.2.symm⟩
  | cons t ts ih =>
    have hp : poll w t st (.child k) = (st, .child k) ∨ poll w t st (.child k) = (reap st k, .zero) := by
      simp only [poll]
      split
      · exact Or.inr rfl
      · exact Or.inl rfl
    unfold waitLoop at h
    rcases hp with hp | hp
    · rw [hp] at h
      simp only [reduceCtorEq, if_false] at h
      split at h
      · simp only [Prod.mk.injEq] at h; exact Or.inl ⟨h.2.1.symm, h.2.2.symm⟩
      · split at h
        · simp only [Prod.mk.injEq] at h; exact Or.inl ⟨h.2.1.symm, h.2.2.symm⟩
        · exact ih h
    · rw [hp] at h
      simp only [if_true] at h
      split at h
      · simp only [Prod.mk.injEq] at h; exact Or.inr ⟨h.2.1.symm, h.2.2.symm⟩
      · simp only [Prod.mk.injEq] at h; exact absurd h.1.symm hnd

theorem await_kids (w : World) (c : Call) (st : St) (h : Host) (hf : ∀ k, w.forked k = true) (ht : ∀ t ∈ c.turns, Sound w t) (kd : Kids st)
    (hh : h ∈ st.hosts) (hd : h.done = false) (hn : h.negative = false) (ok : HostOk w h) : Kids (await w c st h).2 := by
  have hp : h.pid = .child h.id := by rw [ok.pend hd hn, if_pos (hf h.id)]
  have hr := (kd.pid h hh h.id hp).1
  have hw' : ∀ o st' pid', waitLoop w c.forever h.id c.turns st (.child h.id) = (o, st', pid') → o ≠ .dead := by
    intro o st' pid' e
    have := waitLoop_spec w c.forever h.id c.turns st ht o st' pid'
    rw [if_pos (hf h.id)] at this
    exact (this e).2.2.2.1
  unfold await
  rw [hp]
  cases hw : waitLoop w c.forever h.id c.turns st (.child h.id) with
  | mk o q =>
    obtain ⟨st', pid'⟩ := q
    have hnd := hw' o st' pid' hw
    have hc := waitLoop_child w c.forever h.id h.id c.turns st hr o st' pid' hnd hw
    have fin : ∀ (h' : Host), h'.name = h.name → h'.pid = pid' → Kids (put st' h') := by
      intro h' e1 e2
      rcases hc with ⟨rfl, c2⟩ | ⟨rfl, c2⟩
      · exact kids_put st' h h' kd hh e1 (by rw [e2, c2, hp])
      · exact kids_reap st h h' h.id kd hh hp e1 (by rw [e2, c2])
    have fin2 : ∀ (h' : Host), h'.name = h.name → h'.pid = (waitEnd w st' pid').2 → Kids (put (waitEnd w st' pid').1 h') := by
      intro h' e1 e2
      rcases hc with ⟨rfl, rfl⟩ | ⟨rfl, rfl⟩
      · simp only [waitEnd, hr, if_false] at e2 ⊢
        exact kids_reap st' h h' h.id kd hh hp e1 e2
      · exact kids_reap st h h' h.id kd hh hp e1 e2
    cases o with
    | dead => exact absurd rfl hnd
    | block => exact fin _ rfl rfl
    | timeout => exact fin _ rfl rfl
    | ready =>
      dsimp only
      generalize (if w.forked h.id then ((w.answer h.id).map output).getD [] else []) = line
      split
      · exact fin2 _ rfl rfl
      · exact fin2 _ rfl rfl

theorem remove_kids (st : St) (h : Host) (kd : Kids st) (hh : h ∈ st.hosts) : Kids (remove st h) := by
  have hnames : (st.hosts.filter fun g => g.name ≠ h.name).Pairwise fun a b => a.name ≠ b.name := kd.names.filter _
  have hmem : ∀ g, g ∈ (st.hosts.filter fun g => g.name ≠ h.name) ↔ g ∈ st.hosts ∧ g.name ≠ h.name := by
    intro g; rw [List.mem_filter]; simp
  unfold remove
  dsimp only
  cases hp : h.pid with
  | child k =>
    obtain ⟨p1, t, p2⟩ := kd.pid h hh k hp
    dsimp only
    rw [if_neg p1]
    refine ⟨hnames, List.nodup_cons.mpr ⟨p1, kd.nodup⟩, kd.stray, ?_, ?_, ?_⟩
    · intro j hj
      rcases List.mem_cons.mp hj with rfl | hj
      · exact lt_of_getElem? _ _ _ p2
      · exact kd.lt j hj
    · intro j hj hr
      have hr' : j ≠ k ∧ j ∉ st.reaped := by simpa using hr
      obtain ⟨g, g1, g2⟩ := kd.all j hj hr'.2
      refine ⟨g, (hmem g).mpr ⟨g1, fun e => ?_⟩, g2⟩
      rw [same_host st kd g h g1 hh e, hp] at g2
      exact hr'.1 (Pid.child.inj g2).symm
    · intro g hg j e
      obtain ⟨a, b⟩ := (hmem g).mp hg
      obtain ⟨q1, q2⟩ := kd.pid g a j e
      refine ⟨?_, q2⟩
      intro hm
      rcases List.mem_cons.mp hm with rfl | hm
      · exact b (by rw [same_pid st kd g h a hh j e hp])
      · exact q1 hm
  | zero =>
    refine ⟨hnames, kd.nodup, kd.stray, kd.lt, ?_, fun g hg j e => kd.pid g ((hmem g).mp hg).1 j e⟩
    intro j hj hr
    obtain ⟨g, g1, g2⟩ := kd.all j hj hr
    refine ⟨g, (hmem g).mpr ⟨g1, fun e => ?_⟩, g2⟩
    rw [same_host st kd g h g1 hh e, hp] at g2
    simp at g2
  | minus =>
    refine ⟨hnames, kd.nodup, kd.stray, kd.lt, ?_, fun g hg j e => kd.pid g ((hmem g).mp hg).1 j e⟩
    intro j hj hr
    obtain ⟨g, g1, g2⟩ := kd.all j hj hr
    refine ⟨g, (hmem g).mpr ⟨g1, fun e => ?_⟩, g2⟩
    rw [same_host st kd g h g1 hh e, hp] at g2
    simp at g2

theorem lookup_mem (st : St) (n : Text) (h : Host) (e : lookup st n = some h) : h ∈ st.hosts := List.mem_of_find?_eq_some e

theorem start_kids (w : World) (c : Call) (st : St) (hf : ∀ k, w.forked k = true) (ht : ∀ t ∈ c.turns, Sound w t) (kd : Kids st)
    (hl : lookup st c.name = none) : Kids (start w c st).2 := by
  unfold start
  dsimp only
  rw [if_pos (hf _)]
  refine await_kids w c _ _ hf ht ?_ (by simp) rfl rfl ⟨fun x => by simp at x, fun x => by simp at x, fun _ _ => by simp [hf], fun k e => by
    simp only [Pid.child.injEq] at e; exact e.symm⟩
  have hnew : ∀ g ∈ st.hosts, g.name ≠ c.name := by
    intro g hg e
    unfold lookup at hl
    rw [List.find?_eq_none] at hl
    exact hl g hg (by simp [e])
  refine ⟨?_, kd.nodup, kd.stray, ?_, ?_, ?_⟩
  · dsimp only
    rw [List.pairwise_append]
    exact ⟨kd.names, by simp, fun a ha b hb => by simp only [List.mem_singleton] at hb; rw [hb]; exact hnew a ha⟩
  · intro k hk
    have := kd.lt k hk
    simp only [List.length_append, List.length_singleton]; omega
  · intro k hk hr
    simp only [List.length_append, List.length_singleton] at hk
    by_cases e : k = st.starts.length
    · exact ⟨_, List.mem_append_right _ (List.mem_singleton.mpr rfl), by rw [e]⟩
    · obtain ⟨g, g1, g2⟩ := kd.all k (by omega) hr
      exact ⟨g, by simp [g1], g2⟩
  · intro g hg k e
    dsimp only at hg ⊢
    rcases List.mem_append.mp hg with hg | hg
    · obtain ⟨q1, t, q2⟩ := kd.pid g hg k e
      exact ⟨q1, t, by rw [List.getElem?_append_left (lt_of_getElem? _ _ _ q2)]; exact q2⟩
    · simp only [List.mem_singleton] at hg
      subst hg
      simp only [Pid.child.injEq] at e
      subst e
      exact ⟨fun hm => Nat.lt_irrefl _ (kd.lt _ hm), c.now, by simp⟩

theorem find_kids (w : World) (c : Call) (st : St) (hf : ∀ k, w.forked k = true) (ht : ∀ t ∈ c.turns, Sound w t) (inv : Inv w st) (kd : Kids st) :
    Kids (find w c st).2 := by
  unfold find
  cases hl : lookup st c.name with
  | none => exact start_kids w c st hf ht kd hl
  | some h =>
    have hh := lookup_mem st c.name h hl
    have hname := lookup_name st c.name h hl
    dsimp only
    split
    · exact start_kids w c (remove st h) hf ht (remove_kids st h kd hh) (by rw [← hname]; exact lookup_remove_same st h)
    · split
      · exact kd
      · split
        · exact kd
        · rename_i hd hn
          exact await_kids w c st h hf ht kd hh (by simpa using hd) (by simpa using hn) (inv.ok c.name h hl)

theorem run_kids (w : World) (hf : ∀ k, w.forked k = true) (ops : List Op) (st : St) (ho : ∀ o ∈ ops, SoundOp w o) (inv : Inv w st) (kd : Kids st) :
    Kids (run w st ops) := by
  induction ops generalizing st with
  | nil => exact kd
  | cons o ops ih =>
    refine ih (step w st o) (fun x hx => ho x (by simp [hx])) (step_inv w st o (ho o (by simp)) inv) ?_
    cases o with
    | find c => exact find_kids w c st hf (ho (.find c) (by simp)) inv kd
    | clear n =>
      show Kids (clear n st)
      unfold clear
      cases hl : lookup st n with
      | none => exact kd
      | some h => exact remove_kids st h kd (lookup_mem st n h hl)

theorem fini_kids : ∀ (l : List Host) (st : St), st.hosts = l → Kids st → Kids (l.foldl remove st) ∧ (l.foldl remove st).hosts = [] ∧
    (l.foldl remove st).starts = st.starts
  | [], st, e, kd => ⟨kd, e, rfl⟩
  | h :: l, st, e, kd => by
    have hk := remove_kids st h kd (by rw [e]; simp)
    have hl : (remove st h).hosts = l := by
      rw [remove_hosts, e, List.filter_cons]
      simp only [ne_eq, not_true, decide_false, Bool.false_eq_true, if_false]
      rw [List.filter_eq_self]
      intro g hg
      have := kd.names
      rw [e, List.pairwise_cons] at this
      simpa using fun e' => this.1 g hg e'.symm
    obtain ⟨a, b, d⟩ := fini_kids l (remove st h) hl hk
    exact ⟨a, b, d.trans (remove_starts st h)⟩

end Rsv

open Rsv

/-- C102: addresses come from the last lookup of that name, started no more than five minutes ago, and are all it found, in its order. -/
theorem C102_found (w : World) (ops : List Op) (ho : ∀ o ∈ ops, SoundOp w o) (c : Call) (hc : SoundOp w (.find c)) (n : Int)
    (h : (find w c (run w St.new ops)).1.code = some n) (hn : 0 < n) :
    ∃ k t, Last (find w c (run w St.new ops)).2.starts c.name k t ∧ c.now ≤ t + 300 ∧ w.finds k ≠ [] ∧
      (find w c (run w St.new ops)).1.addr = (w.finds k).head? ∧
      (c.list = true → n = (w.finds k).length ∧ (find w c (run w St.new ops)).1.addrs = w.finds k) := by
  obtain ⟨g, g1, g2, g3, g4, _, _⟩ := find_spec w c _ hc (run_new w ops ho)
  have ok := g2.ok _ g g1
  refine ⟨g.id, g.tried, g2.last _ g g1, g4.1, ?_⟩
  rcases says_cases w c g _ n ok g3 h with ⟨_, q⟩ | ⟨q, _⟩ | ⟨q, _⟩
  · obtain ⟨_, a1, a2⟩ := ok.done q
    obtain ⟨m, b1, b2, b3, b4, b5⟩ := g3.done q
    rw [h] at b1
    refine ⟨a1, by rw [b4, a2], fun e => ⟨by rw [Option.some.inj b1, b3 e, a2], by rw [b5, if_pos e, a2]⟩⟩
  · omega
  · omega

/-- C102: "not found" is what the last lookup of that name came to, started no more than a minute ago. -/
theorem C102_notfound (w : World) (ops : List Op) (ho : ∀ o ∈ ops, SoundOp w o) (c : Call) (hc : SoundOp w (.find c))
    (h : (find w c (run w St.new ops)).1.code = some 0) :
    ∃ k t, Last (find w c (run w St.new ops)).2.starts c.name k t ∧ c.now ≤ t + 60 ∧ w.finds k = [] := by
  obtain ⟨g, g1, g2, g3, g4, _, _⟩ := find_spec w c _ hc (run_new w ops ho)
  have ok := g2.ok _ g g1
  rcases says_cases w c g _ 0 ok g3 h with ⟨q, _⟩ | ⟨_, q⟩ | ⟨q, _⟩
  · omega
  · exact ⟨g.id, g.tried, g2.last _ g g1, g4.2 (ok.neg q).1, (ok.neg q).2⟩
  · omega

/-- C102: the only other result is -1, if a limit of time was given. -/
theorem C102_timeout (w : World) (ops : List Op) (ho : ∀ o ∈ ops, SoundOp w o) (c : Call) (hc : SoundOp w (.find c)) (n : Int)
    (h : (find w c (run w St.new ops)).1.code = some n) (hn : n < 0) : n = -1 ∧ c.forever = false := by
  obtain ⟨g, g1, g2, g3, g4, _, _⟩ := find_spec w c _ hc (run_new w ops ho)
  rcases says_cases w c g _ n (g2.ok _ g g1) g3 h with ⟨q, _⟩ | ⟨q, _⟩ | ⟨q, _, _, q'⟩
  · omega
  · omega
  · exact ⟨q, q'⟩

/-- C102: while a name was last looked up no more than a minute ago, and is not cleared, no call looks it up again. -/
theorem C102_once (w : World) (ops : List Op) (ho : ∀ o ∈ ops, SoundOp w o) (c : Call) (hc : SoundOp w (.find c)) (k : Nat) (t : Int)
    (hl : Last (find w c (run w St.new ops)).2.starts c.name k t) (more : List Op) (hm : ∀ o ∈ more, SoundOp w o) (hcl : ∀ o ∈ more, o ≠ .clear c.name)
    (ht : ∀ c', Op.find c' ∈ more → c'.name = c.name → c'.now ≤ t + 60) :
    Last (run w (find w c (run w St.new ops)).2 more).starts c.name k t := by
  obtain ⟨g, g1, g2, g3, g4, _, _⟩ := find_spec w c _ hc (run_new w ops ho)
  obtain ⟨rfl, rfl⟩ := last_unique _ _ _ _ _ _ hl (g2.last _ g g1)
  obtain ⟨h', l1, l0, l2, l3, _⟩ := keep w c.name more _ g g2 g1 hm hcl (fun c' a b => by have := ht c' a b; split <;> omega)
  have := l0.last _ h' l1
  rw [l2, l3] at this
  exact this

/-- C102: once addresses were found, calls within five minutes of the lookup give them again, without another one; once a name was not found, calls
    within a minute say so again. -/
theorem C102_cached (w : World) (ops : List Op) (ho : ∀ o ∈ ops, SoundOp w o) (c : Call) (hc : SoundOp w (.find c)) (k : Nat) (t : Int)
    (hl : Last (find w c (run w St.new ops)).2.starts c.name k t) (more : List Op) (hm : ∀ o ∈ more, SoundOp w o) (hcl : ∀ o ∈ more, o ≠ .clear c.name)
    (n : Int) (h : (find w c (run w St.new ops)).1.code = some n) (hn : 0 ≤ n)
    (ht : ∀ c', Op.find c' ∈ more → c'.name = c.name → c'.now ≤ t + (if 0 < n then 300 else 60))
    (c' : Call) (hc' : SoundOp w (.find c')) (hname : c'.name = c.name) (hnow : c'.now ≤ t + (if 0 < n then 300 else 60)) :
    let st := run w (find w c (run w St.new ops)).2 more
    (find w c' st).2.starts = st.starts ∧ (find w c' st).1.addr = (find w c (run w St.new ops)).1.addr ∧
      (n = 0 → (find w c' st).1.code = some 0) ∧ (0 < n → ∃ n', (find w c' st).1.code = some n' ∧ 0 < n') ∧
      (c.list = true → c'.list = true → (find w c' st).1.addrs = (find w c (run w St.new ops)).1.addrs ∧ (find w c' st).1.code = some n) := by
  obtain ⟨g, g1, g2, g3, g4, _, _⟩ := find_spec w c _ hc (run_new w ops ho)
  obtain ⟨rfl, rfl⟩ := last_unique _ _ _ _ _ _ hl (g2.last _ g g1)
  have ok := g2.ok _ g g1
  have hcase := says_cases w c g _ n ok g3 h
  have hlim : ∀ x : Int, x ≤ g.tried + (if 0 < n then 300 else 60) → x ≤ g.tried + (if g.done then 300 else 60) := by
    intro x hx
    rcases hcase with ⟨q, q'⟩ | ⟨q, q'⟩ | ⟨q, _⟩
    · rw [q', if_pos rfl]; rw [if_pos q] at hx; exact hx
    · rw [(ok.neg q').1, if_neg (by simp)]; rw [if_neg (by omega)] at hx; exact hx
    · omega
  have hsame : ∀ h', (g.done = true → h' = g) → (g.negative = true → h' = g) → h' = g := by
    intro h' a b
    rcases hcase with ⟨_, q⟩ | ⟨_, q⟩ | ⟨q, _⟩
    · exact a q
    · exact b q
    · omega
  obtain ⟨h', l1, l0, l2, l3, l4, l5⟩ := keep w c.name more _ g g2 g1 hm hcl (fun c' a b => hlim _ (ht c' a b))
  obtain rfl := hsame h' l4 l5
  dsimp only
  generalize run w (find w c (run w St.new ops)).2 more = st at l1 l0
  obtain ⟨f, f1, f2, f3, f4, _, f6⟩ := find_spec w c' st hc' l0
  rw [hname] at f1 f6
  rcases f6 with ⟨e1, h0, e0, _, _, e4, e5⟩ | ⟨_, _, _, e3⟩
  · rw [l1] at e0
    rw [← Option.some.inj e0] at e4 e5
    obtain rfl := hsame f e4 e5
    refine ⟨e1, ?_⟩
    rcases hcase with ⟨q, q'⟩ | ⟨q, q'⟩ | ⟨q, _⟩
    · obtain ⟨m, b1, b2, b3, b4, b5⟩ := g3.done q'
      obtain ⟨m', d1, d2, d3, d4, d5⟩ := f3.done q'
      refine ⟨by rw [b4, d4], fun x => by omega, fun _ => ⟨m', d1, d2⟩, fun x y => ⟨by rw [b5, d5, if_pos x, if_pos y], ?_⟩⟩
      rw [d1, d3 y, ← b3 x, ← b1, h]
    · have b := g3.neg q'
      have d := f3.neg q'
      refine ⟨by rw [b, d], fun _ => by rw [d], fun x => by omega, fun _ _ => ⟨by rw [b, d], by rw [d, q]⟩⟩
    · omega
  · have hx := hlim _ hnow
    obtain ⟨x1, x2⟩ := e3 h' l1
    cases hd : h'.done with
    | true => have := x2 hd; rw [hd] at hx; simp at hx; omega
    | false => rw [hd] at hx; simp at hx; omega

/-- C102: after a name is cleared, what is said about it comes from lookups started later. -/
theorem C102_clear (w : World) (ops : List Op) (ho : ∀ o ∈ ops, SoundOp w o) (name : List Byte) (more : List Op) (hm : ∀ o ∈ more, SoundOp w o) (c : Call)
    (hc : SoundOp w (.find c)) (hn : c.name = name) (k : Nat) (t : Int)
    (hl : Last (find w c (run w (clear name (run w St.new ops)) more)).2.starts name k t) : (run w St.new ops).starts.length ≤ k := by
  have key : ∀ (more : List Op) (st : St), (∀ o ∈ more, SoundOp w o) → Inv w st → (run w St.new ops).starts.length ≤ st.starts.length →
      (∀ h, lookup st name = some h → (run w St.new ops).starts.length ≤ h.id) →
      ∀ h, lookup (run w st more) name = some h → (run w St.new ops).starts.length ≤ h.id := by
    intro more
    induction more with
    | nil => intro st _ _ _ h; exact h
    | cons o more ih =>
      intro st hm inv hlen hh
      refine ih (step w st o) (fun x hx => hm x (by simp [hx])) (step_inv w st o (hm o (by simp)) inv) ?_ ?_
      · cases o with
        | clear m => rw [step, (clear_inv w m st inv).2.2.2]; exact hlen
        | find c =>
          obtain ⟨g, _, _, _, _, _, g6⟩ := find_spec w c st (hm (.find c) (by simp)) inv
          rcases g6 with ⟨e, _⟩ | ⟨e, _⟩
          · rw [step, e]; exact hlen
          · rw [step, e]; simp; omega
      · intro h hl
        cases o with
        | clear m =>
          rw [step] at hl
          by_cases e : name = m
          · rw [e, (clear_inv w m st inv).2.1] at hl; simp at hl
          · rw [(clear_inv w m st inv).2.2.1 name e] at hl; exact hh h hl
        | find c =>
          obtain ⟨g, g1, _, _, _, g5, g6⟩ := find_spec w c st (hm (.find c) (by simp)) inv
          rw [step] at hl
          by_cases e : c.name = name
          · subst e
            rw [g1] at hl
            obtain rfl := Option.some.inj hl
            rcases g6 with ⟨_, h0, e0, e1, _⟩ | ⟨_, e1, _⟩
            · rw [e1]; exact hh h0 e0
            · rw [e1]; exact hlen
          · rw [g5 name (fun x => e x.symm)] at hl; exact hh h hl
  have inv := run_new w ops ho
  obtain ⟨i1, i2, _, i4⟩ := clear_inv w name _ inv
  have hk := key (more ++ [.find c]) (clear name (run w St.new ops))
    (fun o ho => by rcases List.mem_append.mp ho with x | x; exact hm o x; simp only [List.mem_singleton] at x; rw [x]; exact hc)
    i1 (by rw [i4]; exact Nat.le_refl _) (fun h e => by rw [i2] at e; simp at e)
  have hr : run w (clear name (run w St.new ops)) (more ++ [.find c]) = (find w c (run w (clear name (run w St.new ops)) more)).2 := by
    simp [run, step]
  rw [hr] at hk
  obtain ⟨g, g1, g2, _⟩ := find_spec w c (run w (clear name (run w St.new ops)) more) hc (run_inv w more _ hm i1)
  rw [hn] at g1
  obtain ⟨rfl, _⟩ := last_unique _ _ _ _ _ _ hl (g2.last _ g g1)
  exact hk g g1

/-- C102: if `post_select` says that a name is ready and the entry is no more than a minute old, a call comes to an end at once. -/
theorem C102_ready (w : World) (ops : List Op) (ho : ∀ o ∈ ops, SoundOp w o) (t : Turn) (c : Call) (hc : SoundOp w (.find c)) (ts : List Turn)
    (hts : c.turns = t :: ts) (hp : postSelect t c.name (run w St.new ops) = true) (k : Nat) (time : Int)
    (hl : Last (run w St.new ops).starts c.name k time) (hnow : c.now ≤ time + 60) :
    ∃ n, (find w c (run w St.new ops)).1.code = some n ∧ 0 ≤ n := by
  have inv := run_new w ops ho
  generalize run w St.new ops = st at *
  unfold postSelect at hp
  unfold find
  cases he : lookup st c.name with
  | none => rw [he] at hp; simp at hp
  | some h =>
    rw [he] at hp
    dsimp only at hp ⊢
    obtain ⟨rfl, rfl⟩ := last_unique _ _ _ _ _ _ hl (inv.last _ h he)
    rw [if_neg (by unfold expired; cases h.done <;> simp <;> omega)]
    split
    · refine ⟨_, rfl, ?_⟩
      split <;> omega
    · split
      · exact ⟨0, rfl, by omega⟩
      · rename_i hd hn
        have hr : t.ready h.id = true := by simpa [hd, hn] using hp
        unfold await
        rw [hts, waitLoop]
        simp only [hr, if_true]
        generalize (if w.forked h.id then ((w.answer h.id).map output).getD [] else []) = line
        split
        · exact ⟨_, rfl, by omega⟩
        · exact ⟨0, rfl, by omega⟩

/-- C102: if every process can be started, each is waited for exactly once, and none is killed after that. -/
theorem C102_children_partial (w : World) (hf : ∀ k, w.forked k = true) (ops : List Op) (ho : ∀ o ∈ ops, SoundOp w o) :
    let st := fini (run w St.new ops)
    st.reaped.Nodup ∧ (∀ k, k ∈ st.reaped ↔ k < (run w St.new ops).starts.length) ∧ st.stray = [] := by
  have kd := run_kids w hf ops St.new ho (inv_new w) ⟨by simp [St.new], by simp [St.new], rfl, by simp [St.new], by simp [St.new], by simp [St.new]⟩
  obtain ⟨a, b, d⟩ := fini_kids _ _ rfl kd
  dsimp only
  unfold fini
  refine ⟨a.nodup, fun k => ⟨fun h => ?_, fun h => ?_⟩, a.stray⟩
  · rw [← d]; exact a.lt k h
  · rw [← d] at h
    apply Classical.byContradiction
    intro hk
    obtain ⟨g, g1, _⟩ := a.all k h hk
    rw [b] at g1; simp at g1

namespace Rsv

def wOk : World := ⟨fun _ => true, fun k => if k = 1 then none else some [⟨10, 0, 0, 1⟩, ⟨10, 0, 0, 2⟩]⟩
def wBad : World := ⟨fun k => k ≠ 1, fun _ => some [⟨10, 0, 0, 1⟩]⟩

def soon : Turn := ⟨[], fun _ => false⟩
def there : Turn := ⟨[], fun _ => true⟩
/-- The pipe of a process that was never started is at its end. -/
def onlyBad : Turn := ⟨[], fun k => k = 1⟩

def ask (name : Byte) (now : Int) (list : Bool) (t : Turn) : Call := ⟨[name], false, list, now, [t]⟩

end Rsv

/-- The turns of the examples keep to what the system promises. -/
example : Sound wOk soon ∧ Sound wOk there ∧ Sound wBad onlyBad ∧ Sound wBad there :=
  ⟨fun k h => by rcases h with h | h <;> simp [soon, wOk] at h, fun _ _ => rfl,
   fun k h => by rcases h with h | h <;> simp [onlyBad, wBad] at h ⊢; exact h, fun _ _ => rfl⟩

/-- A name that is found after a while, one that is not, and a new lookup after five minutes. -/
example :
    let st1 := run wOk St.new [.find (ask 97 0 true soon)]
    let st2 := run wOk st1 [.find (ask 97 1 true there), .find (ask 98 2 true there)]
    (find wOk (ask 97 0 true soon) St.new).1.code = some (-1) ∧ postSelect there [97] st1 = true ∧
      (find wOk (ask 97 1 true there) st1).1.code = some 2 ∧ (find wOk (ask 97 1 true there) st1).1.addrs = [⟨10, 0, 0, 1⟩, ⟨10, 0, 0, 2⟩] ∧
      (find wOk (ask 98 62 true there) st2).1.code = some 0 ∧ (find wOk (ask 98 62 true there) st2).2.starts.length = 2 ∧
      (find wOk (ask 98 63 true there) st2).1.code = some 2 ∧ (find wOk (ask 97 300 true there) st2).2.starts.length = 2 ∧
      (find wOk (ask 97 301 true there) st2).2.starts.length = 3 ∧ (fini st2).reaped = [1, 0] := by
  refine ⟨?_, ?_, ?_, ?_, ?_, ?_, ?_, ?_, ?_, ?_⟩ <;> decide +kernel

/-- C102: and once a call had a result, `post_select` says that the name is ready. -/
theorem C102_ready_known (w : World) (ops : List Op) (ho : ∀ o ∈ ops, SoundOp w o) (c : Call) (hc : SoundOp w (.find c)) (n : Int)
    (h : (find w c (run w St.new ops)).1.code = some n) (hn : 0 ≤ n) (t : Turn) : postSelect t c.name (find w c (run w St.new ops)).2 = true := by
  obtain ⟨g, g1, g2, g3, g4, _, _⟩ := find_spec w c _ hc (run_new w ops ho)
  unfold postSelect
  rw [g1]
  rcases says_cases w c g _ n (g2.ok _ g g1) g3 h with ⟨_, q⟩ | ⟨_, q⟩ | ⟨q, _⟩
  · simp [q]
  · simp [q]
  · omega

example : postSelect ⟨[], fun _ => false⟩ [97] (find wOk (ask 97 0 false there) St.new).2 = true ∧ (find wOk (ask 97 0 false there) St.new).1.code = some 2 := by
  refine ⟨?_, ?_⟩ <;> decide +kernel

/-- C102: without a list, the number of addresses is right the first time only; after that it is 1. -/
theorem C102_count_fails :
    (find wOk (ask 97 0 false there) St.new).1.code = some 2 ∧
      (find wOk (ask 97 1 false there) (run wOk St.new [.find (ask 97 0 false there)])).1.code = some 1 := by
  refine ⟨?_, ?_⟩ <;> decide +kernel

/-- C102: if a process cannot be started, the call waits for that of another name instead; that one is then killed although it was waited for, when its
    number may belong to any process. -/
theorem C102_children_fails :
    let st := run wBad St.new [.find (ask 97 0 false onlyBad), .find (ask 98 0 false onlyBad), .find (ask 97 1 false there)]
    st.reaped = [0] ∧ (clear [97] st).stray = [0] := by
  refine ⟨?_, ?_⟩ <;> decide +kernel

end Props
