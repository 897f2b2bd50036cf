import Verif.Model.Retry
/- C88: a generator that reconnects. -/
namespace Props
open Wv Wv.Retry
open Spec.Retry (Op Ans Inner Ev ask down made released failures connected callbacks)

namespace Rtr
variable {σ : Type}

theorem offline_eq (op : Op) : offline op = down op := by
  have he : ∀ k : Key, Key.eq k [] = decide (k = []) := by
    intro k; cases k with
    | nil => rfl
    | cons a k => simp [Key.eq, Key.compareto]
  cases op with
  | get k => simp [offline, down, he]
  | «exists» k => simp [offline, down, he]
  | _ => rfl

/-- Operations that are passed on only to a generator that is all right. -/
def Plain : Op → Prop
  | .setv _ => False
  | .flush => False
  | .recursive _ => False
  | _ => True

theorem call_plain (M : Inner σ) (i : Int) (s : St σ) (w : World σ) (op : Op) (h : Plain op) :
    call M i s w op = (disconnect M i (middle M (reconnect M i s w) op).1 w.t2, (middle M (reconnect M i s w) op).2) := by
  cases op <;> first | rfl | exact absurd h (by simp [Plain])

end Rtr
open Rtr

variable {σ : Type}

/-- C88: a connection that is all right is used, and kept as long as it is all right. -/
theorem C88_connected (M : Inner σ) (i : Int) (s : St σ) (w : World σ) (op : Op) (hp : Plain op) (g : σ) (hg : s.inner = some g) (hok : M.ok g = true) :
    (call M i s w op).2 = (ask M g op).2 ∧
    (M.ok (ask M g op).1 = true → (call M i s w op).1.inner = some (ask M g op).1 ∧ (call M i s w op).1.log = s.log) ∧
    (M.ok (ask M g op).1 = false → (call M i s w op).1.inner = none ∧ (call M i s w op).1.log = s.log ++ [.lost w.t2, .release] ∧
      (call M i s w op).1.next = w.t2 + i) := by
  rw [call_plain M i s w op hp]
  have e1 : reconnect M i s w = s := by unfold reconnect; rw [hg]
  have e2 : middle M s op = ({ s with inner := some (ask M g op).1 }, (ask M g op).2) := by
    unfold middle; rw [hg]; simp only [if_pos hok]
  rw [e1, e2]
  refine ⟨rfl, ?_, ?_⟩
  · intro h; unfold disconnect; simp only [if_pos h]; exact ⟨trivial, trivial⟩
  · intro h; unfold disconnect; simp only [h, Bool.false_eq_true, if_false]; exact ⟨trivial, trivial, trivial⟩

/-- C88: without a connection nothing is tried before its time; the root is there and empty, and nothing else. -/
theorem C88_waiting (M : Inner σ) (i : Int) (s : St σ) (w : World σ) (op : Op) (hi : s.inner = none) (ht : w.t1 < s.next) :
    call M i s w op = (s, down op) := by
  have e1 : reconnect M i s w = s := by unfold reconnect; rw [hi]; simp only [if_pos ht]
  have e3 : disconnect M i s w.t2 = s := by unfold disconnect; rw [hi]
  by_cases hp : Plain op
  · have e2 : middle M s op = (s, down op) := by unfold middle; rw [hi, offline_eq]
    rw [call_plain M i s w op hp, e1, e2]
    simp only [e3]
  · cases op with
    | setv l => simp only [call]; rw [hi]; rfl
    | flush => rfl
    | recursive k => simp only [call, e1]; rw [hi, e3]; rfl
    | _ => exact absurd trivial hp

/-- C88: when it is time, one attempt is made, and if it gives a generator that is all right, the call goes to it. -/
theorem C88_attempt (M : Inner σ) (i : Int) (s : St σ) (w : World σ) (op : Op) (hp : Plain op) (hi : s.inner = none) (ht : s.next ≤ w.t1) :
    (∀ g, w.made = some g → M.ok g = true → (call M i s w op).2 = (ask M g op).2 ∧
      (M.ok (ask M g op).1 = true → (call M i s w op).1.inner = some (ask M g op).1 ∧
        (call M i s w op).1.log = s.log ++ [.attempt w.t1 true true, .callback]) ∧
      (M.ok (ask M g op).1 = false →
        (call M i s w op).1 = ⟨none, w.t2 + i, s.log ++ [.attempt w.t1 true true, .callback, .lost w.t2, .release]⟩)) ∧
    (∀ g, w.made = some g → M.ok g = false → 
      call M i s w op = (⟨none, s.next + i, s.log ++ [.attempt w.t1 true false, .release]⟩, down op)) ∧
    (w.made = none → call M i s w op = (⟨none, s.next, s.log ++ [.attempt w.t1 false false]⟩, down op)) := by
  rw [call_plain M i s w op hp]
  have hlt : ¬ w.t1 < s.next := by omega
  refine ⟨?_, ?_, ?_⟩
  · intro g hg hok
    have e1 : reconnect M i s w = { s with inner := some g, log := s.log ++ [.attempt w.t1 true true, .callback] } := by
      unfold reconnect; rw [hi]; simp only [if_neg hlt, hg, if_pos hok]
    rw [e1]
    unfold middle
    simp only [if_pos hok]
    refine ⟨trivial, ?_, ?_⟩
    · intro h; unfold disconnect; simp only [if_pos h]; exact ⟨trivial, trivial⟩
    · intro h; unfold disconnect; simp only [h, Bool.false_eq_true, if_false, List.append_assoc]; rfl
  · intro g hg hok
    have e1 : reconnect M i s w = { s with next := s.next + i, log := s.log ++ [.attempt w.t1 true false, .release] } := by
      unfold reconnect; rw [hi]; simp only [if_neg hlt, hg, hok, Bool.false_eq_true, if_false]
    rw [e1]
    unfold middle disconnect
    simp only [hi, offline_eq]
  · intro hg
    have e1 : reconnect M i s w = { s with log := s.log ++ [.attempt w.t1 false false] } := by
      unfold reconnect; rw [hi]; simp only [if_neg hlt, hg]
    rw [e1]
    unfold middle disconnect
    simp only [hi, offline_eq]

/-- C88: a connection that went bad by itself is not asked, and given up. -/
theorem C88_lost (M : Inner σ) (i : Int) (s : St σ) (w : World σ) (op : Op) (hp : Plain op) (g : σ) (hg : s.inner = some g) (hok : M.ok g = false) :
    call M i s w op = (⟨none, w.t2 + i, s.log ++ [.lost w.t2, .release]⟩, down op) := by
  rw [call_plain M i s w op hp]
  have e1 : reconnect M i s w = s := by unfold reconnect; rw [hg]
  have e2 : middle M s op = (s, down op) := by unfold middle; rw [hg]; simp only [hok, Bool.false_eq_true, if_false, offline_eq]
  rw [e1, e2]
  unfold disconnect
  simp only [hg, hok, Bool.false_eq_true, if_false]

/-! ### Histories -/

namespace Rtr

/-- The clock does not go back. -/
def Clock : Int → List (Step σ) → Prop
  | _, [] => True
  | now, .call w _ :: l => now ≤ w.t1 ∧ w.t1 ≤ w.t2 ∧ Clock w.t2 l
  | now, .change _ :: l => Clock now l

/-- The log up to each attempt: what was made is known, and the attempt is late enough. -/
def Paced (start i : Int) (l : List Ev) : Prop :=
  ∀ pre post t m g, l = pre ++ Ev.attempt t m g :: post →
    start + failures pre * i ≤ t ∧ ∀ d, Ev.lost d ∈ pre → d + i ≤ t

structure Inv (start i now : Int) (s : St σ) : Prop where
  paced : Paced start i s.log
  next : start + failures s.log * i ≤ s.next
  lost : ∀ d, Ev.lost d ∈ s.log → d + i ≤ s.next
  conn : s.inner ≠ none → s.next ≤ now
  refs : made s.log = released s.log + (if s.inner.isSome then 1 else 0)
  told : connected s.log = callbacks s.log

theorem paced_append (start i : Int) (l : List Ev) (h : Paced start i l) (x : Ev)
    (hx : ∀ t m g, x = .attempt t m g → start + failures l * i ≤ t ∧ ∀ d, Ev.lost d ∈ l → d + i ≤ t) : Paced start i (l ++ [x]) := by
  intro pre post t m g e
  rcases List.eq_nil_or_concat post with rfl | ⟨p', y, rfl⟩
  · obtain ⟨e1, e2⟩ := List.append_inj' e rfl
    subst e1
    exact hx t m g (by simpa using e2)
  · rw [List.concat_eq_append, ← List.cons_append, ← List.append_assoc] at e
    obtain ⟨e1, _⟩ := List.append_inj' e rfl
    exact h pre p' t m g e1

theorem fail_append (l k : List Ev) : failures (l ++ k) = failures l + failures k := by simp [failures]
theorem made_append (l k : List Ev) : made (l ++ k) = made l + made k := by simp [made]
theorem rel_append (l k : List Ev) : released (l ++ k) = released l + released k := by simp [released]
theorem conn_append (l k : List Ev) : connected (l ++ k) = connected l + connected k := by simp [connected]
theorem cb_append (l k : List Ev) : callbacks (l ++ k) = callbacks l + callbacks k := by simp [callbacks]

theorem inv_mono {start i now now' : Int} {s : St σ} (h : Inv start i now s) (hn : now ≤ now') : Inv start i now' s :=
  ⟨h.paced, h.next, h.lost, fun x => Int.le_trans (h.conn x) hn, h.refs, h.told⟩

theorem inv_inner {start i now : Int} {s : St σ} (h : Inv start i now s) (o : Option σ) (ho : o.isSome = s.inner.isSome) :
    Inv start i now { s with inner := o } := by
  refine ⟨h.paced, h.next, h.lost, ?_, ?_, h.told⟩
  · intro hne; apply h.conn
    cases o with
    | none => exact absurd rfl hne
    | some g => intro e; rw [e] at ho; simp at ho
  · simp only [ho]; exact h.refs

theorem inv_reconnect (M : Inner σ) {start i now : Int} (hi : 0 ≤ i) {s : St σ} (h : Inv start i now s) (w : World σ) (hw : now ≤ w.t1) :
    Inv start i w.t1 (reconnect M i s w) := by
  have h := inv_mono h hw
  unfold reconnect
  cases hn : s.inner with
  | some g => exact h
  | none =>
    simp only
    by_cases ht : w.t1 < s.next
    · rw [if_pos ht]; exact h
    · rw [if_neg ht]
      have hp : ∀ m g, Paced start i (s.log ++ [.attempt w.t1 m g]) := fun m g => paced_append start i _ h.paced _ (by
        intro t m' g' e
        injection e with e1 _ _
        subst e1
        exact ⟨by have := h.next; omega, fun d hd => by have := h.lost d hd; omega⟩)
      have hp2 : ∀ m g x, (∀ t m' g', x ≠ Ev.attempt t m' g') → Paced start i (s.log ++ [.attempt w.t1 m g, x]) := by
        intro m g x hx
        have := paced_append start i _ (hp m g) x (fun t m' g' e => absurd e (hx t m' g'))
        simpa using this
      have hr := h.refs
      rw [hn] at hr
      cases hm : w.made with
      | none =>
        simp only
        refine ⟨hp _ _, ?_, ?_, fun e => absurd rfl e, ?_, ?_⟩
        · simp only [fail_append]; exact h.next
        · intro d hd; simp at hd; exact h.lost d hd
        · simp only [made_append, rel_append, hn]; simpa [made, released] using hr
        · simp only [conn_append, cb_append]; simpa [connected, callbacks] using h.told
      | some g =>
        simp only
        by_cases hok : M.ok g = true
        · rw [if_pos hok]
          refine ⟨hp2 _ _ _ (by simp), ?_, ?_, fun _ => by simp only; omega, ?_, ?_⟩
          · simp only [fail_append]; exact h.next
          · intro d hd; simp at hd; exact h.lost d hd
          · simp only [made_append, rel_append]; simp [made, released] at hr ⊢; omega
          · simp only [conn_append, cb_append]; have := h.told; simp [connected, callbacks] at this ⊢; omega
        · rw [if_neg hok]
          refine ⟨hp2 _ _ _ (by simp), ?_, ?_, ?_, ?_, ?_⟩
          · simp only [fail_append]
            have e : failures [Ev.attempt w.t1 true false, Ev.release] = 1 := rfl
            rw [e]
            have := h.next
            have : ((failures s.log + 1 : Nat) : Int) * i = (failures s.log : Int) * i + i := by
              rw [Int.natCast_add, Int.add_mul]; simp
            omega
          · intro d hd; simp at hd; have := h.lost d hd; simp only; omega
          · intro e; exact absurd rfl e
          · simp only [made_append, rel_append, hn]; simp [made, released] at hr ⊢; omega
          · simp only [conn_append, cb_append]; have := h.told; simp [connected, callbacks] at this ⊢; omega

theorem inv_disconnect (M : Inner σ) {start i now : Int} (hi : 0 ≤ i) {s : St σ} (h : Inv start i now s) (t : Int) (ht : now ≤ t) :
    Inv start i t (disconnect M i s t) := by
  have h := inv_mono h ht
  unfold disconnect
  cases hn : s.inner with
  | none => exact h
  | some g =>
    simp only
    by_cases hok : M.ok g = true
    · rw [if_pos hok]; exact h
    · rw [if_neg hok]
      have hc := h.conn (by rw [hn]; simp)
      have hr := h.refs
      rw [hn] at hr
      refine ⟨?_, ?_, ?_, fun e => absurd rfl e, ?_, ?_⟩
      · have h1 := paced_append start i _ h.paced (.lost t) (by simp)
        have h2 := paced_append start i _ h1 .release (by simp)
        simpa using h2
      · simp only [fail_append]
        have e : failures [Ev.lost t, Ev.release] = 1 := rfl
        rw [e]
        have := h.next
        have : ((failures s.log + 1 : Nat) : Int) * i = (failures s.log : Int) * i + i := by
          rw [Int.natCast_add, Int.add_mul]; simp
        omega
      · intro d hd
        simp at hd
        simp only
        rcases hd with hd | rfl
        · have := h.lost d hd; omega
        · omega
      · simp only [made_append, rel_append]; simp [made, released] at hr ⊢; omega
      · simp only [conn_append, cb_append]; have := h.told; simp [connected, callbacks] at this ⊢; omega

theorem inv_middle (M : Inner σ) {start i now : Int} {s : St σ} (h : Inv start i now s) (op : Op) : Inv start i now (middle M s op).1 := by
  unfold middle
  cases hn : s.inner with
  | none => exact h
  | some g =>
    simp only
    split
    · exact inv_inner h _ (by rw [hn]; rfl)
    · exact h

theorem inv_call (M : Inner σ) {start i now : Int} (hi : 0 ≤ i) {s : St σ} (h : Inv start i now s) (w : World σ) (op : Op) (h1 : now ≤ w.t1)
    (h2 : w.t1 ≤ w.t2) : Inv start i w.t2 (call M i s w op).1 := by
  by_cases hp : Plain op
  · rw [call_plain M i s w op hp]
    exact inv_disconnect M hi (inv_middle M (inv_reconnect M hi h w h1) op) _ h2
  · cases op with
    | setv l =>
      simp only [call]
      cases hn : s.inner with
      | none => exact inv_mono h (by omega)
      | some g => exact inv_inner (inv_mono h (by omega)) _ (by rw [hn]; rfl)
    | flush => exact inv_mono h (by omega)
    | recursive k => exact inv_disconnect M hi (inv_reconnect M hi h w h1) _ h2
    | _ => exact absurd trivial hp

theorem inv_run (M : Inner σ) {start i : Int} (hi : 0 ≤ i) : ∀ (l : List (Step σ)) (now : Int) (s : St σ), Inv start i now s → Clock now l →
    ∃ now', Inv start i now' (run M i s l)
  | [], now, s, h, _ => ⟨now, h⟩
  | .call w op :: l, now, s, h, hc => inv_run M hi l w.t2 _ (inv_call M hi h w op hc.1 hc.2.1) hc.2.2
  | .change f :: l, now, s, h, hc => inv_run M hi l now _ (inv_inner h _ (by simp)) hc

theorem inv_new (M : Inner σ) {i t0 : Int} (hi : 0 ≤ i) (w : World σ) (ht : t0 ≤ w.t1) : Inv t0 i w.t1 (new M i t0 w) := by
  refine inv_reconnect M hi (now := t0) ⟨?_, ?_, ?_, ?_, rfl, rfl⟩ w ht
  · intro pre post t m g e; simp at e
  · simp [failures]
  · intro d hd; simp at hd
  · intro e; exact absurd rfl e

end Rtr

/-- C88: in every history, an attempt is made no earlier than the interval after every loss before it, and there are no more failures before
    it than intervals since the beginning. -/
theorem C88_pace_partial (M : Inner σ) (i t0 : Int) (hi : 0 ≤ i) (w : World σ) (l : List (Step σ)) (ht : t0 ≤ w.t1) (hc : Clock w.t1 l)
    (pre post : List Ev) (t : Int) (m g : Bool) (h : (run M i (new M i t0 w) l).log = pre ++ .attempt t m g :: post) :
    (∀ d, Ev.lost d ∈ pre → d + i ≤ t) ∧ failures pre * i ≤ t - t0 := by
  obtain ⟨_, hv⟩ := inv_run M hi l _ _ (inv_new M hi w ht) hc
  obtain ⟨h1, h2⟩ := hv.paced pre post t m g h
  exact ⟨h2, by omega⟩

/-- C88: in every history, every generator that was made is given back once, the last of them at the end, and the callback is called once
    for every connection. -/
theorem C88_refs (M : Inner σ) (i t0 : Int) (hi : 0 ≤ i) (w : World σ) (l : List (Step σ)) (ht : t0 ≤ w.t1) (hc : Clock w.t1 l) :
    made (destroy (run M i (new M i t0 w) l)) = released (destroy (run M i (new M i t0 w) l)) ∧
    connected (run M i (new M i t0 w) l).log = callbacks (run M i (new M i t0 w) l).log := by
  obtain ⟨_, hv⟩ := inv_run M hi l _ _ (inv_new M hi w ht) hc
  refine ⟨?_, hv.told⟩
  have hr := hv.refs
  unfold destroy
  cases hn : (run M i (new M i t0 w) l).inner with
  | none => rw [hn] at hr; simpa using hr
  | some g =>
    rw [hn] at hr
    simp only [made_append, rel_append]
    simp [made, released] at hr ⊢; omega

namespace Rtr

/-- A generator that is all right or not; nothing is in it. -/
def toy : Inner Bool where
  gen := { get := fun _ _ => none, «exists» := fun _ _ => false, haschildren := fun _ _ => false, iterator := fun _ _ => none, set := fun g _ _ => g,
           setv := fun _ _ => false, commit := id, refresh := fun g => (g, true), prefetch := fun g _ _ => g, flush := fun _ => false }
  ok := id
  recursive := fun _ _ => some []

end Rtr

example : Clock 0 [Step.call (⟨0, some true, 1⟩ : World Bool) .isok, .change (fun _ => false), .call ⟨7, none, 9⟩ .commit, .call ⟨5009, some true, 5010⟩ .isok] ∧
    (run toy 5000 (new toy 5000 0 ⟨0, none, 0⟩) [Step.call (⟨0, some true, 1⟩ : World Bool) .isok, .change (fun _ => false), .call ⟨7, none, 9⟩ .commit,
      .call ⟨5009, some true, 5010⟩ .isok]).log =
    [.attempt 0 false false, .attempt 0 true true, .callback, .lost 9, .release, .attempt 5009 true true, .callback] :=
  ⟨by simp [Clock], by decide +kernel⟩

-- the cases of a call: waiting, connected, lost, an attempt
example : (⟨none, 10, []⟩ : St Bool).inner = none ∧ (3 : Int) < 10 ∧ call toy 5000 ⟨none, 10, []⟩ ⟨3, some true, 4⟩ (.get []) = (⟨none, 10, []⟩, .val (some [])) :=
  ⟨rfl, by decide, C88_waiting toy 5000 ⟨none, 10, []⟩ ⟨3, some true, 4⟩ (.get []) rfl (by decide)⟩
example : Plain (.refresh) ∧ toy.ok true = true ∧ (call toy 5000 ⟨some true, 0, []⟩ ⟨3, none, 4⟩ .refresh).2 = .bool true := ⟨trivial, rfl, rfl⟩
example : toy.ok false = false ∧ call toy 5000 ⟨some false, 0, []⟩ ⟨3, none, 4⟩ .refresh = (⟨none, 5004, [.lost 4, .release]⟩, .bool false) :=
  ⟨rfl, C88_lost toy 5000 ⟨some false, 0, []⟩ ⟨3, none, 4⟩ .refresh trivial false rfl rfl⟩

/-- C88: the time between two attempts may be shorter than the interval, even zero: after a long time without calls the attempts that were
    not made are made up for. -/
theorem C88_spacing_fails : (run toy 5000 (new toy 5000 0 ⟨0, some false, 0⟩) [.call (⟨20000, some false, 20000⟩ : World Bool) .isok,
    .call ⟨20000, some false, 20000⟩ .isok]).log =
    [.attempt 0 true false, .release, .attempt 20000 true false, .release, .attempt 20000 true false, .release] := by decide +kernel

/-- C88: and if nothing at all can be made, there is an attempt in every call. -/
theorem C88_null_fails (M : Inner σ) (i : Int) (s : St σ) (w : World σ) (hi : s.inner = none) (ht : s.next ≤ w.t1) (hm : w.made = none) :
    call M i s w .isok = (⟨none, s.next, s.log ++ [.attempt w.t1 false false]⟩, .bool false) := by
  rw [call_plain M i s w .isok trivial]
  have e1 : reconnect M i s w = { s with log := s.log ++ [.attempt w.t1 false false] } := by
    unfold reconnect; rw [hi]; simp only [if_neg (show ¬ w.t1 < s.next by omega), hm]
  rw [e1]
  unfold middle disconnect
  simp only [hi]
  rfl

/-- C88: setting several values at once does not connect, and is lost without a connection; flushing never reaches the inner generator. -/
theorem C88_setv_fails (M : Inner σ) (i : Int) (s : St σ) (w : World σ) (l : List (Key × Option TempGen.Value)) :
    (s.inner = none → (call M i s w (.setv l)).1 = s) ∧ (∀ g, s.inner = some g → (call M i s w (.setv l)).1.inner = some (M.gen.setv g l)) ∧
    (call M i s w .flush).1 = s := by
  refine ⟨?_, ?_, rfl⟩
  · intro h; simp only [call]; rw [h]
  · intro g h; simp only [call]; rw [h]

/-- C88: a recursive iterator is asked for even if the connection is not all right. -/
theorem C88_recursive (M : Inner σ) (i : Int) (s : St σ) (w : World σ) (k : Key) (g : σ) (h : s.inner = some g) :
    (call M i s w (.recursive k)).2 = .iter (M.recursive g k) ∧
    (M.ok g = true → (call M i s w (.recursive k)).1 = s) ∧
    (M.ok g = false → (call M i s w (.recursive k)).1 = ⟨none, w.t2 + i, s.log ++ [.lost w.t2, .release]⟩) := by
  have e1 : reconnect M i s w = s := by unfold reconnect; rw [h]
  simp only [call, e1]
  rw [h]
  refine ⟨rfl, ?_, ?_⟩
  · intro hok; unfold disconnect; rw [h]; simp only [if_pos hok]
  · intro hok; unfold disconnect; rw [h]; simp only [hok, Bool.false_eq_true, if_false]

end Props
