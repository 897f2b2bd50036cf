import Verif.Model.Datagram
/-
C105: datagram sockets.
-/
namespace Props
open Wv Wv.Datagram Spec.Datagram
open Spec.Addr (Addr)

namespace DgP

def total (l : List Data) : Nat := (l.map List.length).sum

structure UInv (acc : List Data) (c : Unix) : Prop where
  out : c.outbuf = []
  del : c.delayed = false
  all : c.sent ++ c.bufs = acc
  size : c.bufsize = total c.bufs
  full : ∀ d ∈ c.bufs, d ≠ []
  low : 10 ≤ c.backoff
  high : c.backoff ≤ 1000
  alarms : ∀ a ∈ c.alarms, 20 ≤ a ∧ a ≤ 2000

theorem new_inv : UInv [] Unix.new where
  out := rfl
  del := rfl
  all := rfl
  size := rfl
  full := by intro d hd; simp [Unix.new] at hd
  low := by decide
  high := by decide
  alarms := by intro a ha; simp [Unix.new] at ha

theorem once_inv {acc : List Data} {c : Unix} (h : UInv acc c) (n : Nat) (w : W) : c.flushOnce n w = c := by
  unfold Unix.flushOnce
  rw [h.out]
  rfl

theorem outs_inv {acc : List Data} {c : Unix} (h : UInv acc c) (o : List (Nat × W)) : o.foldl (fun c x => c.flushOnce x.1 x.2) c = c := by
  induction o with
  | nil => rfl
  | cons x o ih => rw [List.foldl_cons, once_inv h]; exact ih

theorem fd_cases (c : Unix) (d : Data) (w : W) :
    (∃ b o, (c.fdWrite d w) = ({ c with open_ := b, outbuf := o }, 0) ∧ (c.open_ = false → b = false) ∧ (c.outbuf = [] → o = []) ∧ (c.open_ = true → d ≠ [] → w ≠ .taken)) ∨
    (c.fdWrite d w = ({ c with sent := c.sent ++ [d] }, d.length) ∧ c.open_ = true ∧ d ≠ [] ∧ w = .taken) := by
  unfold Unix.fdWrite
  split
  · rename_i h
    refine Or.inl ⟨c.open_, c.outbuf, rfl, id, id, fun h1 h2 => ?_⟩
    simp [h1, h2] at h
  · rename_i h
    simp only [Bool.or_eq_true, List.isEmpty_iff, Bool.not_eq_true', not_or, Bool.not_eq_false] at h
    cases w with
    | taken => exact Or.inr ⟨rfl, h.2, h.1, rfl⟩
    | again => exact Or.inl ⟨c.open_, c.outbuf, rfl, id, id, fun _ _ q => by simp at q⟩
    | fail e => exact Or.inl ⟨false, [], rfl, fun _ => rfl, fun _ => rfl, fun _ _ q => by simp at q⟩

theorem uwrite_inv {acc : List Data} {c : Unix} (h : UInv acc c) (d : Data) (hd : d ≠ []) (w : W) :
    UInv (acc ++ [d]) (c.uwrite d w).1 ∧ (c.uwrite d w).2 = d.length := by
  have hl : 0 < d.length := List.length_pos_iff.mpr hd
  have keep : ∀ b o, o = [] → UInv (acc ++ [d]) { c with open_ := b, outbuf := o, bufs := c.bufs ++ [d], bufsize := c.bufsize + d.length } := fun b o ho =>
    ⟨ho, h.del, by show c.sent ++ (c.bufs ++ [d]) = _; rw [← List.append_assoc, h.all], by simp [total, h.size], by
      intro x hx
      rcases List.mem_append.mp hx with q | q
      · exact h.full x q
      · rw [List.mem_singleton] at q; rw [q]; exact hd, h.low, h.high, h.alarms⟩
  unfold Unix.uwrite
  split
  · rename_i he
    have he : c.bufs = [] := by simpa using he
    rcases fd_cases c d w with ⟨b, o, q, _, q2, _⟩ | ⟨q, _⟩
    · rw [q]
      dsimp only
      rw [if_pos hl]
      exact ⟨keep b o (q2 h.out), rfl⟩
    · rw [q]
      dsimp only
      rw [if_neg (Nat.lt_irrefl _)]
      refine ⟨⟨h.out, h.del, ?_, h.size, h.full, h.low, h.high, h.alarms⟩, rfl⟩
      show (c.sent ++ [d]) ++ c.bufs = _
      have := h.all
      rw [he] at this ⊢
      simp only [List.append_nil] at this ⊢
      rw [this]
  · dsimp only
    rw [if_pos hl]
    exact ⟨keep c.open_ c.outbuf h.out, rfl⟩

theorem write_inv {acc : List Data} {c : Unix} (h : UInv acc c) (d : Data) (w : W) (n : Nat) (w2 : W) :
    let r := c.write d w n w2
    ((c.open_ = false ∨ d = []) → r = (c, 0)) ∧ (c.open_ = true → d ≠ [] → UInv (acc ++ [d]) r.1 ∧ r.2 = d.length ∧ r.1 = (c.uwrite d w).1) := by
  unfold Unix.write
  refine ⟨fun q => ?_, fun ho hd => ?_⟩
  · rcases q with q | q <;> simp [q]
  · obtain ⟨u1, u2⟩ := uwrite_inv h d hd w
    have hd' : d.isEmpty = false := by cases d <;> simp_all
    simp only [ho, hd', Bool.not_true, Bool.or_self, Bool.false_eq_true, if_false, h.del, h.out, Bool.not_false, List.isEmpty_nil, Bool.and_self, if_true, u2, List.drop_length,
      List.append_nil]
    have e : ({ (c.uwrite d w).1 with outbuf := (c.uwrite d w).1.outbuf } : Unix).flushOnce n w2 = (c.uwrite d w).1 := once_inv u1 n w2
    rw [if_neg (by rw [u1.del]; simp)]
    rw [e]
    exact ⟨u1, trivial, rfl⟩

/-- The loop of `post_select`: all that is taken is sent, in order, and the rest stays. -/
theorem bufs_inv {acc : List Data} (l : List Data) : ∀ (c : Unix) (ws : List W), UInv acc c → c.bufs = l →
    UInv acc (c.flushBufs l ws) ∧
    (c.open_ = true → (c.flushBufs l ws).bufs = l.drop (ws.takeWhile (· = .taken)).length ∧
      (c.flushBufs l ws).sent = c.sent ++ l.take (ws.takeWhile (· = .taken)).length) ∧
    (c.open_ = false → (c.flushBufs l ws).sent = c.sent ∧ (c.flushBufs l ws).open_ = false) ∧
    ((c.flushBufs l ws).bufs ≠ [] → ∃ a, (c.flushBufs l ws).alarms = c.alarms ++ [a]) := by
  induction l with
  | nil =>
    intro c ws h hb
    simp only [Unix.flushBufs]
    refine ⟨h, fun _ => by simp [hb], fun q => ⟨trivial, q⟩, fun q => absurd hb q⟩
  | cons d l ih =>
    intro c ws h hb
    have hd : d ≠ [] := h.full d (by rw [hb]; simp)
    have hl : 0 < d.length := List.length_pos_iff.mpr hd
    have stop : ∀ b o, o = [] → UInv acc { c with open_ := b, outbuf := o, alarms := c.alarms ++ [c.backoff * 2], backoff := if c.backoff * 2 > 1000 then 1000 else c.backoff * 2 } := by
      intro b o ho
      have h1 := h.low
      have h2 := h.high
      refine ⟨ho, h.del, h.all, h.size, h.full, ?_, ?_, ?_⟩
      · dsimp only
        split <;> omega
      · dsimp only
        split <;> omega
      · intro a ha
        rcases List.mem_append.mp ha with q | q
        · exact h.alarms a q
        · rw [List.mem_singleton] at q; omega
    simp only [Unix.flushBufs]
    rcases fd_cases c d (ws.headD .again) with ⟨b, o, q, qb, qo, qt⟩ | ⟨q, q1, q2, q3⟩
    · rw [q]
      dsimp only
      rw [if_pos hl]
      refine ⟨stop b o (qo h.out), fun ho => ?_, fun ho => ⟨rfl, qb ho⟩, fun _ => ⟨_, rfl⟩⟩
      have hw := qt ho hd
      have e : ws.takeWhile (· = .taken) = [] := by
        cases ws with
        | nil => rfl
        | cons w ws => exact List.takeWhile_cons_of_neg (by simpa using hw)
      rw [e]
      exact ⟨hb, by simp⟩
    · rw [q]
      dsimp only
      rw [if_neg (Nat.lt_irrefl _)]
      cases ws with
      | nil => simp at q3
      | cons w ws =>
        simp only [List.headD_cons] at q3
        subst q3
        have inv : UInv acc { c with sent := c.sent ++ [d], bufsize := c.bufsize - d.length, bufs := l, backoff := 10 } := by
          refine ⟨h.out, h.del, ?_, ?_, fun x hx => h.full x (by rw [hb]; simp [hx]), Nat.le_refl 10, (by decide : 10 ≤ 1000), h.alarms⟩
          · rw [← h.all, hb]; simp
          · show c.bufsize - d.length = total l
            rw [h.size, hb]; simp [total]
        obtain ⟨i1, i2, i3, i4⟩ := ih _ ws inv rfl
        refine ⟨i1, fun _ => ?_, fun ho => by rw [ho] at q1; simp at q1, i4⟩
        obtain ⟨j1, j2⟩ := i2 q1
        rw [List.takeWhile_cons_of_pos (by simp)]
        simp only [List.length_cons, List.drop_succ_cons, List.take_succ_cons]
        exact ⟨j1, by rw [List.tail_cons]; rw [j2]; simp⟩

theorem step_inv {s : Unix × List Data} (h : UInv s.2 s.1) (o : UOp) : UInv (Unix.step s o).2 (Unix.step s o).1 := by
  cases o with
  | write d w n w2 =>
    obtain ⟨w1, w3⟩ := write_inv h d w n w2
    simp only [Unix.step]
    by_cases q : s.1.open_ = false ∨ d = []
    · rw [w1 q]; exact h
    · simp only [not_or, Bool.not_eq_false] at q
      obtain ⟨a, b, _⟩ := w3 q.1 q.2
      have : d.length ≠ 0 := by have := List.length_pos_iff.mpr q.2; omega
      rw [b, if_neg this, List.take_length]
      exact a
  | select o b ws =>
    simp only [Unix.step, Unix.postSelect]
    rw [outs_inv h]
    split
    · exact (bufs_inv _ _ ws h rfl).1
    · exact h
  | flush o =>
    simp only [Unix.step, Unix.flush]
    rw [outs_inv h]; exact h
  | close o =>
    simp only [Unix.step, Unix.close, Unix.flush]
    split
    · rw [outs_inv h]; exact ⟨h.out, h.del, h.all, h.size, h.full, h.low, h.high, h.alarms⟩
    · exact h

theorem run_inv (ops : List UOp) : ∀ s : Unix × List Data, UInv s.2 s.1 → UInv (ops.foldl Unix.step s).2 (ops.foldl Unix.step s).1 := by
  induction ops with
  | nil => intro s h; exact h
  | cons o ops ih => intro s h; exact ih _ (step_inv h o)

theorem unix_inv (ops : List UOp) : UInv (Unix.new.run ops).2 (Unix.new.run ops).1 := run_inv ops (Unix.new, []) new_inv

/-! UDP -/

def bytes (l : List (Peer × Data)) : Data := l.flatMap (·.2)

theorem bytes_append (l m : List (Peer × Data)) : bytes (l ++ m) = bytes l ++ bytes m := by simp [bytes]

abbrev zero (p : Peer) : Prop := p.1 = ⟨0, 0, 0, 0⟩

structure PInv (acc : Data) (c : Udp) : Prop where
  all : c.open_ = true → bytes c.sent ++ c.outbuf = acc
  pre : bytes c.sent <+: acc

theorem udp_cases (c : Udp) (d : Data) (s : S) (ho : c.open_ = true) (hz : ¬ zero c.remaddr) (hd : d ≠ []) :
    (s = .sent ∧ c.uwrite d s = ({ c with sent := c.sent ++ [(c.remaddr, d)] }, d.length)) ∨
    (s = .fail 13 ∧ c.uwrite d s = ({ c with open_ := false, outbuf := [] }, 0)) ∨ ((∃ e, s = .fail e ∧ e ≠ 13) ∧ c.uwrite d s = (c, 0)) := by
  have hd' : d.isEmpty = false := by cases d <;> simp_all
  unfold Udp.uwrite
  simp only [ho, hd', Bool.not_true, Bool.or_self, Bool.false_eq_true, if_false, if_neg hz]
  cases s with
  | sent => exact Or.inl ⟨rfl, rfl⟩
  | fail e =>
    by_cases h : e = 13
    · exact Or.inr (Or.inl ⟨by rw [h], by simp [h]⟩)
    · exact Or.inr (Or.inr ⟨⟨e, rfl, h⟩, by simp [h]⟩)

theorem udp_once {acc : Data} {c : Udp} (h : PInv acc c) (n : Nat) (s : S) (hz : ¬ zero c.remaddr) :
    PInv acc (c.flushOnce n s) ∧ (c.flushOnce n s).remaddr = c.remaddr ∧ (s ≠ .fail 13 → (c.flushOnce n s).open_ = c.open_) := by
  unfold Udp.flushOnce
  cases hb : c.outbuf with
  | nil => simp only [List.isEmpty_nil, if_true]; exact ⟨h, trivial, fun _ => trivial⟩
  | cons b l =>
    simp only [List.isEmpty_cons, Bool.false_eq_true, if_false]
    cases ho : c.open_ with
    | false => simp only [Bool.not_false, if_true]; exact ⟨⟨fun q => by simp [ho] at q, h.pre⟩, trivial, fun _ => trivial⟩
    | true =>
      simp only [Bool.not_true, Bool.false_eq_true, if_false]
      have ha : (b :: l).take (n + 1) ≠ [] := by simp
      have all := h.all ho
      rcases udp_cases c _ s ho hz ha with ⟨e, q⟩ | ⟨e, q⟩ | ⟨⟨_, e, e'⟩, q⟩
      · rw [q]
        simp only [ho, if_true]
        refine ⟨⟨fun _ => ?_, ?_⟩, trivial, fun _ => ?_⟩
        · dsimp only
          rw [bytes_append, ← all, hb, List.append_assoc]
          congr 1
          simp only [bytes, List.flatMap_cons, List.flatMap_nil, List.append_nil]
          rw [List.length_take]
          rcases Nat.le_total (n + 1) (b :: l).length with q | q
          · rw [Nat.min_eq_left q]; exact List.take_append_drop _ _
          · rw [Nat.min_eq_right q, List.drop_length, List.take_of_length_le q, List.append_nil]
        · dsimp only
          rw [bytes_append, ← all, hb]
          simp only [bytes, List.flatMap_cons, List.flatMap_nil, List.append_nil]
          exact List.prefix_append_right_inj _ |>.mpr (List.take_prefix _ _)
        · trivial
      · rw [q]
        simp only [Bool.false_eq_true, if_false]
        exact ⟨⟨fun q => by simp at q, h.pre⟩, trivial, fun q => absurd e q⟩
      · rw [q]
        simp only [ho, if_true, List.drop_zero]
        exact ⟨⟨fun _ => by rw [← hb]; exact all, h.pre⟩, trivial, fun _ => trivial⟩

theorem udp_outs (o : List (Nat × S)) : ∀ {acc : Data} {c : Udp}, PInv acc c → ¬ zero c.remaddr →
    PInv acc (o.foldl (fun c x => c.flushOnce x.1 x.2) c) ∧ (o.foldl (fun c x => c.flushOnce x.1 x.2) c).remaddr = c.remaddr := by
  induction o with
  | nil => intro acc c h _; exact ⟨h, rfl⟩
  | cons x o ih =>
    intro acc c h hz
    obtain ⟨h1, h2, _⟩ := udp_once h x.1 x.2 hz
    obtain ⟨h3, h4⟩ := ih h1 (by rw [h2]; exact hz)
    exact ⟨h3, h4.trans h2⟩

theorem udp_write {acc : Data} {c : Udp} (h : PInv acc c) (d : Data) (s : S) (n : Nat) (s2 : S) (hz : ¬ zero c.remaddr) :
    PInv (acc ++ d.take (c.write d s n s2).2) (c.write d s n s2).1 ∧ (c.write d s n s2).1.remaddr = c.remaddr := by
  unfold Udp.write
  cases ho : c.open_ with
  | false => simpa using h
  | true =>
    by_cases hd : d = []
    · simpa [hd] using h
    · have hd' : d.isEmpty = false := by cases d <;> simp_all
      simp only [hd', Bool.not_true, Bool.or_self, Bool.false_eq_true, if_false, List.take_length]
      have all := h.all ho
      cases hb : c.outbuf with
      | cons b l =>
        simp only [List.isEmpty_cons, Bool.false_eq_true, if_false, List.drop_zero]
        have inv : PInv (acc ++ d) { c with outbuf := c.outbuf ++ d } :=
          ⟨fun _ => by show bytes c.sent ++ (c.outbuf ++ d) = _; rw [← List.append_assoc, all], h.pre.trans (List.prefix_append _ _)⟩
        obtain ⟨i1, i2, _⟩ := udp_once inv n s2 hz
        exact ⟨i1, i2⟩
      | nil =>
        simp only [List.isEmpty_nil, if_true]
        rw [hb, List.append_nil] at all
        rcases udp_cases c d s ho hz hd with ⟨e, q⟩ | ⟨e, q⟩ | ⟨_, q⟩
        · rw [q]
          have inv : PInv (acc ++ d) { c with sent := c.sent ++ [(c.remaddr, d)], outbuf := c.outbuf ++ d.drop d.length } := by
            have : bytes (c.sent ++ [(c.remaddr, d)]) = acc ++ d := by rw [bytes_append, all]; simp [bytes]
            exact ⟨fun _ => by dsimp only; rw [this, hb]; simp, by dsimp only; rw [this]; exact List.prefix_refl _⟩
          obtain ⟨i1, i2, _⟩ := udp_once inv n s2 hz
          exact ⟨i1, i2⟩
        · rw [q]
          have inv : PInv (acc ++ d) { c with open_ := false, outbuf := [] ++ d.drop 0 } := ⟨fun q => by simp at q, h.pre.trans (List.prefix_append _ _)⟩
          obtain ⟨i1, i2, _⟩ := udp_once inv n s2 hz
          exact ⟨i1, i2⟩
        · rw [q]
          have inv : PInv (acc ++ d) { c with outbuf := c.outbuf ++ d.drop 0 } :=
            ⟨fun _ => by dsimp only; rw [hb, all]; simp, h.pre.trans (List.prefix_append _ _)⟩
          obtain ⟨i1, i2, _⟩ := udp_once inv n s2 hz
          exact ⟨i1, i2⟩

/-- The peers that a call names. -/
def named : Op → List Peer
  | .read (some p) => [p]
  | .setdest p => [p]
  | _ => []

theorem udp_step {s : Udp × Data} (h : PInv s.2 s.1) (hz : ¬ zero s.1.remaddr) (o : Op) (ho : ∀ p ∈ named o, ¬ zero p) :
    PInv (Udp.step s o).2 (Udp.step s o).1 ∧ ¬ zero (Udp.step s o).1.remaddr := by
  cases o with
  | write d a n b =>
    obtain ⟨h1, h2⟩ := udp_write h d a n b hz
    exact ⟨h1, by show ¬ zero (Udp.write _ _ _ _ _).1.remaddr; rw [h2]; exact hz⟩
  | flush o =>
    obtain ⟨h1, h2⟩ := udp_outs o h hz
    exact ⟨h1, by exact fun q => hz (by rw [← h2]; exact q)⟩
  | read r =>
    simp only [Udp.step, Udp.uread]
    split
    · exact ⟨h, hz⟩
    · cases r with
      | none => exact ⟨h, hz⟩
      | some p => exact ⟨⟨h.all, h.pre⟩, ho p (by simp [named])⟩
  | setdest p => exact ⟨⟨h.all, h.pre⟩, ho p (by simp [named])⟩
  | close o =>
    obtain ⟨h1, h2⟩ := udp_outs o h hz
    exact ⟨⟨fun q => by simp [Udp.step] at q, h1.pre⟩, by exact fun q => hz (by rw [← h2]; exact q)⟩

theorem udp_run (ops : List Op) : ∀ s : Udp × Data, PInv s.2 s.1 → ¬ zero s.1.remaddr → (∀ o ∈ ops, ∀ p ∈ named o, ¬ zero p) →
    PInv (ops.foldl Udp.step s).2 (ops.foldl Udp.step s).1 := by
  induction ops with
  | nil => intro s h _ _; exact h
  | cons o ops ih =>
    intro s h hz ho
    obtain ⟨h1, h2⟩ := udp_step h hz o (ho o (by simp))
    exact ih _ h1 h2 (fun o' q => ho o' (by simp [q]))

/-- The answers that a call gets. -/
def answers : Op → List S
  | .write _ a _ b => [a, b]
  | .flush o => o.map (·.2)
  | .close o => o.map (·.2)
  | _ => []

/-- What the user did, in the words of the specification. -/
def act : Op → Act
  | .write d _ _ _ => .write d
  | .read (some p) => .came p
  | .setdest p => .setdest p
  | _ => .nothing

theorem outs_nil (o : List (Nat × S)) (c : Udp) (h : c.outbuf = []) : o.foldl (fun c x => c.flushOnce x.1 x.2) c = c := by
  induction o with
  | nil => rfl
  | cons x o ih =>
    have : c.flushOnce x.1 x.2 = c := by unfold Udp.flushOnce; rw [h]; rfl
    rw [List.foldl_cons, this]; exact ih

theorem udp_good (ops : List Op) : ∀ (c : Udp) (acc : Data), c.open_ = true → c.outbuf = [] → (∀ o ∈ ops, ∀ s ∈ answers o, s = .sent) → (∀ o ∈ ops, ∀ l, o ≠ .close l) →
    let r := (ops.foldl Udp.step (c, acc)).1
    r.open_ = true ∧ r.outbuf = [] ∧ r.sent = c.sent ++ expected c.remaddr (ops.map act) ∧ r.remaddr = peer c.remaddr (ops.map act) := by
  induction ops with
  | nil => intro c acc h1 h2 _ _; exact ⟨h1, h2, by simp [expected], rfl⟩
  | cons o ops ih =>
    intro c acc h1 h2 h3 h4
    have h3' : ∀ o' ∈ ops, ∀ s ∈ answers o', s = .sent := fun o' q => h3 o' (by simp [q])
    have h4' : ∀ o' ∈ ops, ∀ l, o' ≠ .close l := fun o' q => h4 o' (by simp [q])
    simp only [List.foldl_cons, List.map_cons]
    cases o with
    | write d a n b =>
      have ha : a = .sent := h3 (.write d a n b) (by simp) a (by simp [answers])
      subst ha
      have key : (c.write d .sent n b).1 = { c with sent := c.sent ++ if zero c.remaddr ∨ d = [] then [] else [(c.remaddr, d)] } := by
        unfold Udp.write
        by_cases hd : d = []
        · simp [hd]
        · have hd' : d.isEmpty = false := by cases d <;> simp_all
          simp only [h1, hd', Bool.not_true, Bool.or_self, Bool.false_eq_true, if_false, h2, List.isEmpty_nil, if_true, hd, or_false]
          by_cases hz : zero c.remaddr
          · have : c.uwrite d .sent = (c, d.length) := by unfold Udp.uwrite; simp only [h1, hd', Bool.not_true, Bool.or_self, Bool.false_eq_true, if_false]; rw [if_pos hz]
            rw [this, if_pos hz]
            unfold Udp.flushOnce
            simp [h2, h1]
          · rcases udp_cases c d .sent h1 hz hd with ⟨e, q⟩ | ⟨e, q⟩ | ⟨⟨_, e, _⟩, q⟩
            · rw [q, if_neg hz]
              unfold Udp.flushOnce
              simp [h2, h1]
            · simp at e
            · simp at e
      simp only [Udp.step, key]
      obtain ⟨i1, i2, i3, i4⟩ := ih { c with sent := c.sent ++ if zero c.remaddr ∨ d = [] then [] else [(c.remaddr, d)] } (acc ++ d.take (c.write d .sent n b).2) h1 h2 h3' h4'
      exact ⟨i1, i2, by rw [i3]; simp only [act, expected, List.append_assoc], i4⟩
    | flush o =>
      simp only [Udp.step, outs_nil o c h2]
      exact ih c acc h1 h2 h3' h4'
    | read r =>
      cases r with
      | none =>
        simp only [Udp.step, Udp.uread, h1, Bool.not_true, Bool.false_eq_true, if_false]
        exact ih c acc h1 h2 h3' h4'
      | some p =>
        simp only [Udp.step, Udp.uread, h1, Bool.not_true, Bool.false_eq_true, if_false]
        exact ih ⟨true, p, c.outbuf, c.sent⟩ acc rfl h2 h3' h4'
    | setdest p => exact ih { c with remaddr := p } acc h1 h2 h3' h4'
    | close o => exact absurd rfl (h4 (.close o) (by simp) o)

theorem once_open (c : Udp) (n : Nat) (s : S) (hs : s ≠ .fail 13) : (c.flushOnce n s).open_ = c.open_ := by
  unfold Udp.flushOnce Udp.uwrite
  cases s with
  | sent => repeat' split <;> first | rfl | assumption | simp_all
  | fail e =>
    have : e ≠ 13 := fun q => hs (by rw [q])
    repeat' split <;> first | rfl | assumption | simp_all

theorem outs_open (o : List (Nat × S)) : ∀ c : Udp, (∀ x ∈ o, x.2 ≠ .fail 13) → (o.foldl (fun c x => c.flushOnce x.1 x.2) c).open_ = c.open_ := by
  induction o with
  | nil => intro c _; rfl
  | cons x o ih =>
    intro c h
    rw [List.foldl_cons, ih _ (fun y q => h y (by simp [q])), once_open c x.1 x.2 (h x (by simp))]

theorem uwrite_open (c : Udp) (d : Data) (s : S) (hs : s ≠ .fail 13) : (c.uwrite d s).1.open_ = c.open_ := by
  unfold Udp.uwrite
  split
  · rfl
  · split
    · rfl
    · cases s with
      | sent => rfl
      | fail e =>
        have : e ≠ 13 := fun q => hs (by rw [q])
        simp [this]

theorem write_open (c : Udp) (d : Data) (s : S) (n : Nat) (s2 : S) (h1 : s ≠ .fail 13) (h2 : s2 ≠ .fail 13) : (c.write d s n s2).1.open_ = c.open_ := by
  unfold Udp.write
  split
  · rfl
  · dsimp only
    rw [once_open _ _ _ h2]
    split
    · exact uwrite_open c d s h1
    · rfl

end DgP

open DgP

/-- C105: on a Unix datagram socket, whatever the system takes and refuses, and whenever: each write that was taken is a datagram of its own; those sent and those that wait are all of
    them, in the order in which they were written. The size is that of those that wait. -/
theorem C105_unix (ops : List UOp) : let r := Unix.new.run ops
    r.1.sent ++ r.1.bufs = r.2 ∧ r.1.bufsize = (r.1.bufs.map List.length).sum ∧ (∀ d ∈ r.2, d ≠ []) := by
  have h := unix_inv ops
  refine ⟨h.all, h.size, ?_⟩
  have key : ∀ (ops : List UOp) (s : Unix × List Data), (∀ d ∈ s.2, d ≠ []) → ∀ d ∈ (ops.foldl Unix.step s).2, d ≠ [] := by
    intro ops
    induction ops with
    | nil => intro s h; exact h
    | cons o ops ih =>
      intro s h
      refine ih _ ?_
      cases o with
      | write d w n w2 =>
        simp only [Unix.step]
        split
        · exact h
        · rename_i hn
          intro x hx
          rcases List.mem_append.mp hx with q | q
          · exact h x q
          · rw [List.mem_singleton] at q
            subst q
            have : d ≠ [] := by rintro rfl; simp [Unix.write] at hn
            intro e
            rcases List.take_eq_nil_iff.mp e with q | q
            · exact hn q
            · exact this q
      | select o b ws => exact h
      | flush o => exact h
      | close o => exact h
  exact key ops _ (by simp)

/-- C105: which writes are taken: all that are not empty, until it is closed or failed. -/
theorem C105_unix_taken (ops : List UOp) (d : Data) (w : W) (n : Nat) (w2 : W) : let c := (Unix.new.run ops).1
    (c.open_ = true → d ≠ [] → (c.write d w n w2).2 = d.length) ∧ (c.open_ = false → c.write d w n w2 = (c, 0)) := by
  obtain ⟨h1, h2⟩ := write_inv (unix_inv ops) d w n w2
  exact ⟨fun a b => (h2 a b).2.1, fun a => h1 (Or.inl a)⟩

/-- C105: a turn in which the socket is ready sends those that wait, as far as the system takes them one after the other. If some still wait, an alarm is set for the next attempt: between 20
    milliseconds and two seconds. -/
theorem C105_unix_turn (ops : List UOp) (o : List (Nat × W)) (ws : List W) : let c := (Unix.new.run ops).1
    let r := c.postSelect o true ws
    let k := (ws.takeWhile (· = .taken)).length
    (c.open_ = true → r.sent = c.sent ++ c.bufs.take k ∧ r.bufs = c.bufs.drop k) ∧ (c.open_ = false → r.sent = c.sent ∧ r.open_ = false) ∧
    (r.bufs ≠ [] → ∃ a, r.alarms = c.alarms ++ [a] ∧ 20 ≤ a ∧ a ≤ 2000) := by
  have h := unix_inv ops
  dsimp only
  obtain ⟨b1, b2, b3, b4⟩ := bufs_inv _ _ ws h rfl
  simp only [Unix.postSelect, outs_inv h, if_true]
  refine ⟨fun q => ⟨(b2 q).2, (b2 q).1⟩, b3, fun q => ?_⟩
  obtain ⟨a, ha⟩ := b4 q
  exact ⟨a, ha, b1.alarms a (by rw [ha]; simp)⟩

/-- C105: and while some wait, `select` asks when it can write, or wakes up at the alarm. -/
theorem C105_unix_wakes (c : Unix) (hb : c.bufs ≠ []) (remaining timeout : Int) :
    (remaining ≤ 0 → (c.preSelect remaining timeout).1 = true) ∧
    (0 < remaining → 0 ≤ timeout → (c.preSelect remaining timeout).2 = min timeout remaining) ∧ (0 < remaining → timeout < 0 → (c.preSelect remaining timeout).2 = remaining) := by
  have hb' : c.bufs.isEmpty = false := by cases h : c.bufs <;> simp_all
  unfold Unix.preSelect
  simp only [hb', Bool.false_eq_true, if_false]
  refine ⟨fun h => by simp [h], fun h h2 => ?_, fun h h2 => ?_⟩
  · rw [if_neg (by omega)]
    dsimp only
    split <;> omega
  · rw [if_neg (by omega)]
    dsimp only
    rw [if_pos (Or.inl h2)]

example : let r := Unix.new.run [.write [1] .again 0 .again, .write [2, 3] .taken 0 .again, .select [] true [.taken, .again]]
    r.1.sent = [[1]] ∧ r.1.bufs = [[2, 3]] ∧ r.1.bufsize = 2 ∧ r.1.open_ = true ∧ r.1.alarms = [20] := by decide +kernel

/-- C105: `flush` says that all was written although datagrams wait, and `close` loses them. -/
theorem C105_unix_close_fails : let r := Unix.new.run [.write [1] .again 0 .again]
    (r.1.flush [(0, .taken)]).2 = true ∧ r.1.bufs = [[1]] ∧ (∀ ops, ((r.1.close [(0, .taken)]).run ops).1.sent = []) := by
  refine ⟨by decide +kernel, by decide +kernel, ?_⟩
  have hc : ∀ (ops : List UOp) (s : Unix × List Data), s.1.open_ = false → s.1.sent = [] → (ops.foldl Unix.step s).1.sent = [] := by
    have once : ∀ (c : Unix) (n : Nat) (w : W), c.open_ = false → (c.flushOnce n w).open_ = false ∧ (c.flushOnce n w).sent = c.sent := by
      intro c n w h
      unfold Unix.flushOnce
      split
      · exact ⟨h, rfl⟩
      · simp [h]
    have outs : ∀ (o : List (Nat × W)) (c : Unix), c.open_ = false → (o.foldl (fun c x => c.flushOnce x.1 x.2) c).open_ = false ∧
        (o.foldl (fun c x => c.flushOnce x.1 x.2) c).sent = c.sent := by
      intro o
      induction o with
      | nil => intro c h; exact ⟨h, rfl⟩
      | cons x o ih =>
        intro c h
        obtain ⟨a, b⟩ := once c x.1 x.2 h
        obtain ⟨a', b'⟩ := ih _ a
        exact ⟨a', b'.trans b⟩
    have bufs : ∀ (l : List Data) (c : Unix) (ws : List W), c.open_ = false → (c.flushBufs l ws).open_ = false ∧ (c.flushBufs l ws).sent = c.sent := by
      intro l
      induction l with
      | nil => intro c ws h; exact ⟨h, rfl⟩
      | cons d l ih =>
        intro c ws h
        have e : c.fdWrite d (ws.headD .again) = (c, 0) := by unfold Unix.fdWrite; simp [h]
        simp only [Unix.flushBufs, e]
        split
        · exact ⟨h, rfl⟩
        · exact ih _ _ h
    intro ops
    induction ops with
    | nil => intro s _ h; exact h
    | cons o ops ih =>
      intro s h1 h2
      refine ih _ ?_ ?_
      · cases o with
        | write d w n w2 => simp [Unix.step, Unix.write, h1]
        | select o b ws =>
          simp only [Unix.step, Unix.postSelect]
          split
          · exact (bufs _ _ _ (outs o s.1 h1).1).1
          · exact (outs o s.1 h1).1
        | flush o => exact (outs o s.1 h1).1
        | close o => simp [Unix.step, Unix.close, h1]
      · cases o with
        | write d w n w2 => simp [Unix.step, Unix.write, h1, h2]
        | select o b ws =>
          simp only [Unix.step, Unix.postSelect]
          split
          · rw [(bufs _ _ _ (outs o s.1 h1).1).2, (outs o s.1 h1).2, h2]
          · rw [(outs o s.1 h1).2, h2]
        | flush o => simp only [Unix.step, Unix.flush]; rw [(outs o s.1 h1).2, h2]
        | close o => simp [Unix.step, Unix.close, h1, h2]
  intro ops
  exact hc ops _ rfl rfl

/-- C105: with `delay_output`, two writes are one datagram. -/
theorem C105_unix_delay_fails : let r := Unix.run { Unix.new with delayed := true } [.write [1] .taken 0 .taken, .write [2] .taken 0 .taken, .flush [(1, .taken)]]
    r.1.sent = [[1, 2]] := by decide +kernel

namespace DgP

/-- All bytes that were taken are sent, or wait in the order in which they came. -/
def Whole (s : Unix × List Data) : Prop := s.1.open_ = true → s.1.sent.flatten ++ s.1.bufs.flatten ++ s.1.outbuf = s.2.flatten

theorem fd_whole (c : Unix) (d : Data) (w : W) : (c.fdWrite d w).1.open_ = true →
    c.open_ = true ∧ (c.fdWrite d w).1.bufs = c.bufs ∧ (c.fdWrite d w).1.outbuf = c.outbuf ∧ (c.fdWrite d w).1.sent.flatten = c.sent.flatten ++ d.take (c.fdWrite d w).2 ∧
    ((c.fdWrite d w).2 = 0 ∨ (c.fdWrite d w).2 = d.length) := by
  unfold Unix.fdWrite
  split
  · intro h; exact ⟨h, rfl, rfl, by simp, Or.inl rfl⟩
  · rename_i hx
    have ho : c.open_ = true := by simp at hx; exact hx.2
    cases w with
    | taken => intro _; exact ⟨ho, rfl, rfl, by simp, Or.inr rfl⟩
    | again => intro h; exact ⟨ho, rfl, rfl, by simp, Or.inl rfl⟩
    | fail e => intro h; cases h

theorem uw_whole (c : Unix) (d : Data) (w : W) (h : (c.uwrite d w).1.open_ = true) : c.open_ = true ∧ (c.uwrite d w).1.outbuf = c.outbuf ∧ (c.uwrite d w).2 = d.length ∧
    (c.uwrite d w).1.sent.flatten ++ (c.uwrite d w).1.bufs.flatten = c.sent.flatten ++ c.bufs.flatten ++ d := by
  unfold Unix.uwrite at h ⊢
  by_cases hb : c.bufs.isEmpty = true
  · have hb' : c.bufs = [] := by simpa using hb
    simp only [hb, if_true] at h ⊢
    by_cases hl : (c.fdWrite d w).2 < d.length
    · rw [if_pos hl] at h ⊢
      obtain ⟨h1, h2, h3, h4, h5⟩ := fd_whole c d w h
      have h0 : (c.fdWrite d w).2 = 0 := by rcases h5 with h | h <;> omega
      refine ⟨h1, h3, rfl, ?_⟩
      simp [h2, h4, h0, hb']
    · rw [if_neg hl] at h ⊢
      obtain ⟨h1, h2, h3, h4, h5⟩ := fd_whole c d w h
      refine ⟨h1, h3, rfl, ?_⟩
      dsimp only
      rw [h2, h4, hb', List.take_of_length_le (by omega)]
      simp
  · rw [if_neg hb] at h ⊢
    by_cases hl : 0 < d.length
    · rw [if_pos hl] at h ⊢
      exact ⟨h, by simp⟩
    · have hd : d = [] := by cases d <;> simp_all
      subst hd
      simpa using h

theorem once_whole (acc : List Data) (c : Unix) (n : Nat) (w : W) (h : Whole (c, acc)) : Whole (c.flushOnce n w, acc) := by
  unfold Unix.flushOnce
  split
  · exact h
  · split
    · rename_i hx
      intro ho
      simp_all
    · dsimp only
      split
      · rename_i ho
        intro _
        obtain ⟨h1, h2, h3, h4⟩ := uw_whole c _ w ho
        have := h h1
        simp only at this ⊢
        rw [h3, h4, ← this]
        simp only [List.append_assoc, List.length_take]
        congr 2
        rcases Nat.le_total (n + 1) c.outbuf.length with q | q
        · rw [Nat.min_eq_left q, List.take_append_drop]
        · rw [Nat.min_eq_right q, List.take_of_length_le q, List.drop_length, List.append_nil]
      · rename_i ho
        intro q
        exact absurd q ho

theorem outs_whole (acc : List Data) (o : List (Nat × W)) : ∀ c : Unix, Whole (c, acc) → Whole (o.foldl (fun c x => c.flushOnce x.1 x.2) c, acc) := by
  induction o with
  | nil => intro c h; exact h
  | cons x o ih => intro c h; exact ih _ (once_whole acc c x.1 x.2 h)

theorem bufs_whole (acc : List Data) : ∀ (l : List Data) (c : Unix) (ws : List W), c.bufs = l → Whole (c, acc) → Whole (c.flushBufs l ws, acc)
  | [], c, ws, _, h => h
  | d :: l, c, ws, hl, h => by
    unfold Unix.flushBufs
    dsimp only
    split
    · rename_i hx
      intro ho
      obtain ⟨h1, h2, h3, h4, h5⟩ := fd_whole c d _ ho
      have h0 : (c.fdWrite d (ws.headD .again)).2 = 0 := by rcases h5 with q | q <;> omega
      have := h h1
      simp only [h2, h3, h4, h0] at this ⊢
      simpa using this
    · rename_i hx
      refine bufs_whole acc l _ ws.tail rfl ?_
      intro ho
      obtain ⟨h1, h2, h3, h4, h5⟩ := fd_whole c d _ ho
      have := h h1
      simp only [h3, h4] at this ⊢
      rw [List.take_of_length_le (by omega), ← this, hl]
      simp

theorem step_whole (s : Unix × List Data) (o : UOp) (h : Whole s) : Whole (Unix.step s o) := by
  cases o with
  | write d w n w2 =>
    simp only [Unix.step]
    unfold Unix.write
    by_cases hx : (!s.1.open_ || d.isEmpty) = true
    · simp only [hx, if_true]; exact h
    · have ho : s.1.open_ = true := by simp at hx; exact hx.1
      have hd : d.length ≠ 0 := by simp at hx; simpa using hx.2
      simp only [hx, Bool.false_eq_true, if_false, hd, List.take_length]
      obtain ⟨r, hr⟩ : ∃ r, r = (if (!s.1.delayed && s.1.outbuf.isEmpty) = true then s.1.uwrite d w else (s.1, 0)) := ⟨_, rfl⟩
      rw [← hr]
      have key : Whole ({ r.1 with outbuf := r.1.outbuf ++ d.drop r.2 }, s.2 ++ [d]) := by
        by_cases hc : (!s.1.delayed && s.1.outbuf.isEmpty) = true
        · rw [if_pos hc] at hr
          subst hr
          intro hq
          obtain ⟨h1, h2, h3, h4⟩ := uw_whole s.1 d w hq
          have he : s.1.outbuf = [] := by simp at hc; exact hc.2
          have := h h1
          simp only [he, List.append_nil] at this
          simp only [h2, h3, h4, he, this, List.drop_length]
          simp
        · rw [if_neg hc] at hr
          subst hr
          intro hq
          have := h ho
          simp only [List.drop_zero, List.flatten_append, ← this]
          simp
      by_cases hdl : r.1.delayed = true
      · rw [if_pos hdl]; exact key
      · rw [if_neg hdl]; exact once_whole _ _ n w2 key
  | select o b ws =>
    simp only [Unix.step, Unix.postSelect]
    have := outs_whole s.2 o s.1 h
    split
    · exact bufs_whole _ _ _ ws rfl this
    · exact this
  | flush o => exact outs_whole s.2 o s.1 h
  | close o =>
    simp only [Unix.step, Unix.close]
    split
    · intro q; cases q
    · exact h

end DgP

/-- C105: with or without `delay_output`, whatever the system answers: as long as the socket is open, the bytes sent, then those of the datagrams that wait, then those not yet made
    a datagram are exactly the bytes written, in order. `flush` says that all is done when there are none of the last kind. -/
theorem C105_unix_bytes (delayed : Bool) (ops : List UOp) : let r := Unix.run { Unix.new with delayed := delayed } ops
    (r.1.open_ = true → r.1.sent.flatten ++ r.1.bufs.flatten ++ r.1.outbuf = r.2.flatten) ∧
    ∀ o, (r.1.flush o).2 = true ↔ (r.1.flush o).1.outbuf = [] := by
  have key : ∀ (ops : List UOp) (s : Unix × List Data), DgP.Whole s → DgP.Whole (ops.foldl Unix.step s) := by
    intro ops
    induction ops with
    | nil => intro s h; exact h
    | cons o ops ih => intro s h; exact ih _ (DgP.step_whole s o h)
  refine ⟨key ops _ (fun _ => rfl), fun o => ?_⟩
  unfold Unix.flush
  simp

/-- A delayed run that ends open, with bytes of all three kinds. -/
example : let r := Unix.run { Unix.new with delayed := true } [.write [1] .taken 0 .taken, .flush [(0, .taken)], .write [2, 3] .taken 0 .taken, .flush [(0, .again)]]
    (r.1.open_, r.1.sent, r.1.bufs, r.1.outbuf, r.2) = (true, [[1]], [[2]], [3], [[1], [2, 3]]) := by decide +kernel

/-- C105: on a UDP socket, as long as the system takes everything: each write is one datagram with exactly these bytes, to the peer heard of last, or set; and `src` is that peer. -/
theorem C105_udp_partial (p : Peer) (ops : List Op) (ha : ∀ o ∈ ops, ∀ s ∈ answers o, s = .sent) (hc : ∀ o ∈ ops, ∀ l, o ≠ .close l) :
    let r := ((Udp.new p).run ops).1
    r.sent = expected p (ops.map act) ∧ r.src = peer p (ops.map act) ∧ r.open_ = true := by
  obtain ⟨h1, _, h3, h4⟩ := udp_good ops (Udp.new p) [] rfl rfl ha hc
  exact ⟨by rw [show expected p (ops.map act) = (Udp.new p).sent ++ expected (Udp.new p).remaddr (ops.map act) from rfl]; exact h3, h4, h1⟩

namespace DgP
def pa : Peer := (⟨10, 0, 0, 1⟩, 53)
def pb : Peer := (⟨10, 0, 0, 2⟩, 53)
end DgP

example : ((Udp.new pa).run [.write [1] .sent 0 .sent, .read (some pb), .write [2, 3] .sent 0 .sent]).1.sent = [(pa, [1]), (pb, [2, 3])] := by decide +kernel

/-- C105: whatever the system answers: the bytes that are sent are those that were written, in order, none twice, and as long as it is open none is missing; if no peer is 0.0.0.0. -/
theorem C105_udp_bytes (p : Peer) (hp : p.1 ≠ ⟨0, 0, 0, 0⟩) (ops : List Op) (ho : ∀ o ∈ ops, ∀ q ∈ named o, q.1 ≠ ⟨0, 0, 0, 0⟩) :
    let r := (Udp.new p).run ops
    (r.1.sent.flatMap (·.2)) <+: r.2 ∧ (r.1.open_ = true → r.1.sent.flatMap (·.2) ++ r.1.outbuf = r.2) := by
  have h := udp_run ops (Udp.new p, []) ⟨fun _ => rfl, List.prefix_refl _⟩ hp ho
  exact ⟨h.pre, h.all⟩

/-- C105: errors of the network do not close it, except "permission denied". -/
theorem C105_udp_errors (p : Peer) (ops : List Op) (ha : ∀ o ∈ ops, .fail 13 ∉ answers o) (hc : ∀ o ∈ ops, ∀ l, o ≠ .close l) : ((Udp.new p).run ops).1.open_ = true := by
  have key : ∀ (ops : List Op) (s : Udp × Data), s.1.open_ = true → (∀ o ∈ ops, .fail 13 ∉ answers o) → (∀ o ∈ ops, ∀ l, o ≠ .close l) → (ops.foldl Udp.step s).1.open_ = true := by
    intro ops
    induction ops with
    | nil => intro s h _ _; exact h
    | cons o ops ih =>
      intro s h h1 h2
      refine ih _ ?_ (fun o' q => h1 o' (by simp [q])) (fun o' q => h2 o' (by simp [q]))
      have hn := h1 o (by simp)
      cases o with
      | write d a n b =>
        simp only [answers, List.mem_cons, List.not_mem_nil, or_false, not_or] at hn
        simp only [Udp.step]
        rw [write_open _ _ _ _ _ (Ne.symm hn.1) (Ne.symm hn.2)]; exact h
      | flush o =>
        simp only [answers, List.mem_map, not_exists, not_and] at hn
        simp only [Udp.step]
        rw [outs_open o _ (fun x hx => hn x hx)]; exact h
      | read r =>
        simp only [Udp.step, Udp.uread]
        split
        · exact h
        · split <;> exact h
      | setdest p => exact h
      | close o => exact absurd rfl (h2 (.close o) (by simp) o)
  exact key ops _ rfl ha hc

example : let r := (Udp.new pa).run [.write [1] (.fail 111) 0 (.fail 111), .flush [(0, .sent)], .write [2] (.fail 13) 0 .sent]
    r.1.sent = [(pa, [1])] ∧ r.1.open_ = false := by decide +kernel

/-- C105: if the system refuses a datagram, here with "connection refused", it is kept; the next write is appended to it, both are sent as one, and to whoever was heard of in between. -/
theorem C105_udp_merge_fails : let r := (Udp.new pa).run [.write [1] (.fail 111) 0 (.fail 111), .read (some pb), .write [2] .sent 1 .sent]
    r.1.sent = [(pb, [1, 2])] := by decide +kernel

end Props
