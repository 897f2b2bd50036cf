import Verif.Lemmas.Stream
/-
C29, C30, C31: buffered streams.
-/
namespace Props
open Wv Wv.Stream Spec.Stream

namespace Str

/-- The state without its reading side. -/
def blank (s : St) : St := { s with inbuf := [], io := [] }

/-- `Rel` but for the reading side. -/
def RelW (P : Prop) (s s' : St) (x : List Byte) : Prop := Rel P (blank s) (blank s') x

theorem toW {P : Prop} {s s' : St} {x : List Byte} (h : Rel P s s' x) : RelW P s s' x :=
  ⟨h.dead, h.shut, h.err, h.live, h.pre, h.ext, rfl, rfl, h.cbk, h.reg⟩

theorem isok_blank (s : St) : isok (blank s) = isok s := rfl

theorem replay_append (l m : List Ev) : ∀ q, replay (l ++ m) q = (replay l q).bind (replay m) := by
  induction l with
  | nil => intro q; rfl
  | cons e l ih =>
    intro q
    cases e with
    | produced b => exact ih _
    | unread b => exact ih _
    | returned b =>
      show (if _ then _ else _) = Option.bind (if _ then _ else _) _
      by_cases hb : b.isPrefixOf q = true
      · rw [if_pos hb, if_pos hb]; exact ih _
      · rw [if_neg hb, if_neg hb]; rfl

theorem produced_append (l m : List Ev) : produced (l ++ m) = produced l ++ produced m := by
  induction l with
  | nil => rfl
  | cons e l ih => cases e <;> simp [produced, ih]

theorem returned_append (l m : List Ev) : returned (l ++ m) = returned l ++ returned m := by
  induction l with
  | nil => rfl
  | cons e l ih => cases e <;> simp [returned, ih]

section
variable {P : Prop} {dev : Nat → Ans} {rec : Call → St → St × Nat}

theorem uread_spec (h : Good P rec) (n : Nat) (s : St) : RelW P s (uread dev rec n s).1 [] ∧ (uread dev rec n s).1.inbuf = s.inbuf ∧
    (uread dev rec n s).1.io = s.io ++ [.produced (uread dev rec n s).2] ∧ (uread dev rec n s).2.length ≤ n := by
  unfold uread
  simp only []
  have r := (h.acts (dev s.tick).acts { s with tick := s.tick + 1, io := s.io ++ [.produced ((dev s.tick).data.take n)] }).1
  refine ⟨?_, r.inb, r.io, List.length_take_le _ _⟩
  exact (toW r).after rfl rfl rfl rfl rfl rfl rfl rfl rfl rfl

/-- What a reading call does: `p` comes from the device, `d` goes to the caller. -/
structure Reads (P : Prop) (s s' : St) (p d : List Byte) : Prop where
  rel : RelW P s s' []
  data : d ++ s'.inbuf = s.inbuf ++ p
  prod : produced s'.io = produced s.io ++ p
  ret : returned s'.io = returned s.io ++ d
  queue : replay s.io [] = some s.inbuf → replay s'.io [] = some s'.inbuf

theorem reads_refl (s : St) : Reads P s s [] [] := ⟨Rel.refl _, by simp, by simp, by simp, fun h => h⟩

/-- First something comes from the device, then something goes to the caller. -/
theorem reads_trans {s s' s'' : St} {p p' d : List Byte} (h : Reads P s s' p []) (g : Reads P s' s'' p' d) : Reads P s s'' (p ++ p') d where
  rel := h.rel.trans1 g.rel
  data := by
    have h1 := h.data
    simp only [List.nil_append] at h1
    rw [g.data, h1, List.append_assoc]
  prod := by rw [g.prod, h.prod, List.append_assoc]
  ret := by rw [g.ret, h.ret, List.append_nil]
  queue q := g.queue (h.queue q)

theorem reads_after {s s' s'' : St} {p d : List Byte} (h : Reads P s s' p d) (g : RelW P s' s'' []) (hi : s''.inbuf = s'.inbuf) (ho : s''.io = s'.io) :
    Reads P s s'' p d where
  rel := h.rel.trans1 g
  data := by rw [hi]; exact h.data
  prod := by rw [ho]; exact h.prod
  ret := by rw [ho]; exact h.ret
  queue q := by rw [hi, ho]; exact h.queue q

/-- Bytes from the device are put in the buffer. -/
theorem fill_reads (h : Good P rec) (n : Nat) (s : St) :
    Reads P s { (uread dev rec n s).1 with inbuf := (uread dev rec n s).1.inbuf ++ (uread dev rec n s).2 } (uread dev rec n s).2 [] := by
  obtain ⟨u1, u2, u3, u4⟩ := uread_spec (dev := dev) h n s
  refine ⟨Rel.before u1 rfl rfl rfl rfl rfl rfl rfl rfl rfl rfl, by simp [u2], ?_, ?_, ?_⟩
  · show produced (uread dev rec n s).1.io = _
    rw [u3, produced_append]; simp [produced]
  · show returned (uread dev rec n s).1.io = _
    rw [u3, returned_append]; simp [returned]
  · intro q
    show replay (uread dev rec n s).1.io [] = some ((uread dev rec n s).1.inbuf ++ _)
    rw [u3, replay_append, q, u2]; rfl

/-- Bytes from the buffer are given to the caller. -/
theorem take_reads (s s' : St) (d : List Byte) (hd : s.inbuf = d ++ s'.inbuf) (hio : s'.io = s.io ++ [.returned d]) (hr : RelW P s s' []) : Reads P s s' [] d where
  rel := hr
  data := by rw [hd]; simp
  prod := by rw [hio, produced_append]; simp [produced]
  ret := by rw [hio, returned_append]; simp [returned]
  queue q := by
    rw [hio, replay_append, q, hd]
    show (if _ then _ else _) = _
    rw [if_pos (List.isPrefixOf_iff_prefix.mpr (List.prefix_append _ _))]
    simp [replay]

theorem same_reads (s s' : St) (h : RelW P s s' []) (hi : s'.inbuf = s.inbuf) (ho : s'.io = s.io) : Reads P s s' [] [] :=
  reads_after (reads_refl s) h hi ho

theorem autoclose_reads (h : Good P rec) {s s' : St} {p d : List Byte} (hr : Reads P s s' p d) : Reads P s (rec .autoclose s').1 p d := by
  have := (h.autoclose s').1
  exact reads_after hr (toW this) this.inb this.io

theorem read_reads (h : Good P rec) (n : Nat) (s : St) :
    ∃ p, Reads P s (Stream.read dev rec n s).1 p (Stream.read dev rec n s).2 ∧ (Stream.read dev rec n s).2.length ≤ n := by
  unfold Stream.read
  simp only []
  obtain ⟨p0, h0⟩ : ∃ p0, Reads P s (if s.inbuf.length < s.queueMin then
      { (uread dev rec (s.queueMin - s.inbuf.length) s).1 with
        inbuf := (uread dev rec (s.queueMin - s.inbuf.length) s).1.inbuf ++ (uread dev rec (s.queueMin - s.inbuf.length) s).2 } else s) p0 [] := by
    by_cases hq : s.inbuf.length < s.queueMin
    · rw [if_pos hq]; exact ⟨_, fill_reads h _ s⟩
    · rw [if_neg hq]; exact ⟨[], reads_refl s⟩
  generalize (if s.inbuf.length < s.queueMin then
      { (uread dev rec (s.queueMin - s.inbuf.length) s).1 with
        inbuf := (uread dev rec (s.queueMin - s.inbuf.length) s).1.inbuf ++ (uread dev rec (s.queueMin - s.inbuf.length) s).2 } else s) = s1 at *
  by_cases h1 : s1.inbuf.length < s1.queueMin
  · rw [if_pos h1]
    exact ⟨p0, autoclose_reads h h0, by simp⟩
  · rw [if_neg h1]
    by_cases h2 : s1.inbuf.isEmpty = true
    · rw [if_pos h2]
      have hb : s1.inbuf = [] := by simpa using h2
      obtain ⟨u1, u2, u3, u4⟩ := uread_spec (dev := dev) h n s1
      refine ⟨p0 ++ (uread dev rec n s1).2, ?_, u4⟩
      refine autoclose_reads h (reads_trans h0 ⟨Rel.before u1 rfl rfl rfl rfl rfl rfl rfl rfl rfl rfl, ?_, ?_, ?_, ?_⟩)
      · show _ ++ (uread dev rec n s1).1.inbuf = _
        rw [u2, hb]; simp
      · show produced ((uread dev rec n s1).1.io ++ _) = _
        rw [u3, produced_append, produced_append]; simp [produced]
      · show returned ((uread dev rec n s1).1.io ++ _) = _
        rw [u3, returned_append, returned_append]; simp [returned]
      · intro q
        show replay ((uread dev rec n s1).1.io ++ _) [] = some (uread dev rec n s1).1.inbuf
        rw [u3, replay_append, replay_append, q, u2, hb]
        show (if _ then _ else _) = _
        rw [if_pos (List.isPrefixOf_iff_prefix.mpr (by simp))]
        simp [replay]
    · rw [if_neg h2]
      refine ⟨p0, ?_, List.length_take_le _ _⟩
      have := reads_trans h0 (take_reads (P := P) s1 { s1 with inbuf := s1.inbuf.drop n, io := s1.io ++ [.returned (s1.inbuf.take n)] } (s1.inbuf.take n)
        (List.take_append_drop n s1.inbuf).symm rfl (Rel.same rfl rfl rfl rfl rfl rfl rfl rfl rfl rfl))
      rw [List.append_nil] at this
      exact autoclose_reads h this

/-- What a line is: everything up to the separator, or all there is when nothing more is to come. -/
def Line (sep : Byte) (s' : St) (l d : List Byte) : Prop :=
  sep ∉ l ∧ (d = l ++ [sep] ∨ (d = l ∧ s'.inbuf = [] ∧ (isok s' = false ∨ s'.stopRead = true)))

theorem takeLine_reads (sep : Byte) (s : St) (hend : sep ∈ s.inbuf ∨ isok s = false ∨ s.stopRead = true) :
    ∃ d, Reads P s (takeLine sep s).1 [] d ∧ ((takeLine sep s).2 = none → d = []) ∧ (∀ l, (takeLine sep s).2 = some l → Line sep (takeLine sep s).1 l d) := by
  unfold takeLine
  by_cases h1 : s.inbuf.isEmpty = true
  · rw [if_pos h1]; exact ⟨[], reads_refl s, fun _ => rfl, by simp⟩
  · rw [if_neg h1]
    by_cases h2 : s.inbuf.contains sep = true
    · rw [if_pos h2]
      simp only []
      have hmem : sep ∈ s.inbuf := by simpa using h2
      have hsplit : s.inbuf = s.inbuf.takeWhile (· != sep) ++ sep :: s.inbuf.drop ((s.inbuf.takeWhile (· != sep)).length + 1) := by
        generalize s.inbuf = l at hmem
        induction l with
        | nil => simp at hmem
        | cons a l ih =>
          by_cases ha : a = sep
          · subst ha; simp
          · rw [List.takeWhile_cons_of_pos (by simp [ha])]
            rcases List.mem_cons.mp hmem with e | e
            · exact absurd e.symm ha
            · simp only [List.length_cons, List.drop_succ_cons, List.cons_append, List.cons.injEq, true_and]
              exact ih e
      refine ⟨_, take_reads (P := P) s _ _ (by conv => lhs; rw [hsplit]
                                               simp) rfl (Rel.same rfl rfl rfl rfl rfl rfl rfl rfl rfl rfl), by simp, ?_⟩
      intro l hl
      simp only [Option.some.injEq] at hl
      subst hl
      refine ⟨?_, Or.inl rfl⟩
      intro hc
      have := List.all_eq_true.mp (List.all_takeWhile (p := (· != sep)) (l := s.inbuf)) sep hc
      simp at this
    · rw [if_neg h2]
      have hmem : sep ∉ s.inbuf := by simpa using h2
      refine ⟨s.inbuf, take_reads (P := P) s _ _ (by simp) rfl (Rel.same rfl rfl rfl rfl rfl rfl rfl rfl rfl rfl), by simp, ?_⟩
      intro l hl
      simp only [Option.some.injEq] at hl
      subst hl
      refine ⟨hmem, Or.inr ⟨rfl, rfl, ?_⟩⟩
      rcases hend with h | h
      · exact absurd h hmem
      · exact h

theorem getlineLoop_reads (h : Good P rec) (sep : Byte) (ahead : Nat) (f : Nat) : ∀ (wait : Bool) (s : St),
    ∃ p d, Reads P s (getlineLoop dev rec sep ahead f wait s).1 p d ∧ ((getlineLoop dev rec sep ahead f wait s).2 = none → d = []) ∧
      (∀ l, (getlineLoop dev rec sep ahead f wait s).2 = some l → Line sep (getlineLoop dev rec sep ahead f wait s).1 l d) := by
  induction f with
  | zero => intro wait s; exact ⟨[], [], reads_refl s, fun _ => rfl, by simp [getlineLoop]⟩
  | succ f ih =>
    intro wait s
    have fin : ∀ (s1 : St) (p : List Byte), Reads P s s1 p [] → (sep ∈ s1.inbuf ∨ isok s1 = false ∨ s1.stopRead = true) →
        ∃ p d, Reads P s (takeLine sep s1).1 p d ∧ ((takeLine sep s1).2 = none → d = []) ∧ (∀ l, (takeLine sep s1).2 = some l → Line sep (takeLine sep s1).1 l d) := by
      intro s1 p h1 hend
      obtain ⟨d, k1, k2⟩ := takeLine_reads (P := P) sep s1 hend
      exact ⟨_, d, reads_trans h1 k1, k2⟩
    have next : ∀ (s1 : St) (p : List Byte) (w : Bool), Reads P s s1 p [] → ∃ p d, Reads P s (getlineLoop dev rec sep ahead f w s1).1 p d ∧
        ((getlineLoop dev rec sep ahead f w s1).2 = none → d = []) ∧
        (∀ l, (getlineLoop dev rec sep ahead f w s1).2 = some l → Line sep (getlineLoop dev rec sep ahead f w s1).1 l d) := by
      intro s1 p w h1
      obtain ⟨p', d, k1, k2⟩ := ih w s1
      exact ⟨_, d, reads_trans h1 k1, k2⟩
    have stop : ∀ (s1 : St) (p : List Byte), Reads P s s1 p [] → ∃ p d, Reads P s ((s1, none) : St × Option (List Byte)).1 p d ∧
        (((s1, none) : St × Option (List Byte)).2 = none → d = []) ∧
        (∀ l, ((s1, none) : St × Option (List Byte)).2 = some l → Line sep ((s1, none) : St × Option (List Byte)).1 l d) := by
      intro s1 p h1
      exact ⟨p, [], h1, fun _ => rfl, by simp⟩
    unfold getlineLoop
    by_cases h1 : (!isok s) = true
    · rw [if_pos h1]; exact fin s [] (reads_refl s) (Or.inr (Or.inl (by simpa using h1)))
    · rw [if_neg h1]
      simp only []
      by_cases h2 : (s.inbuf.contains sep || s.stopRead) = true
      · rw [if_pos h2]
        refine fin _ [] (same_reads s _ (Rel.same rfl rfl rfl rfl rfl rfl rfl rfl rfl rfl) rfl rfl) ?_
        simp at h2
        rcases h2 with h2 | h2
        · exact Or.inl h2
        · exact Or.inr (Or.inr h2)
      · rw [if_neg h2]
        have hsel := h.select { s with queueMin := s.inbuf.length + 1, tick := s.tick + 1 }
        have r1 : Reads P s (rec .select { s with queueMin := s.inbuf.length + 1, tick := s.tick + 1 }).1 [] [] :=
          same_reads s _ ((toW hsel).after rfl rfl rfl rfl rfl rfl rfl rfl rfl rfl) hsel.inb hsel.io
        generalize hr : rec .select { s with queueMin := s.inbuf.length + 1, tick := s.tick + 1 } = r at *
        by_cases h3 : (!isok r.1) = true
        · rw [if_pos h3]; exact fin r.1 [] r1 (Or.inr (Or.inl (by simpa using h3)))
        · rw [if_neg h3]
          by_cases h4 : (r.2 == 1) = true
          · rw [if_pos h4]
            have r2 := reads_trans r1 (fill_reads (dev := dev) h ahead r.1)
            generalize hu : ({ (uread dev rec ahead r.1).1 with inbuf := (uread dev rec ahead r.1).1.inbuf ++ (uread dev rec ahead r.1).2 } : St) = u at *
            by_cases h5 : (!isok u) = true
            · rw [if_pos h5]; exact fin u _ r2 (Or.inr (Or.inl (by simpa using h5)))
            · rw [if_neg h5]
              by_cases h6 : ((uread dev rec ahead r.1).2.isEmpty && !(wait && !(dev s.tick).yes)) = true
              · rw [if_pos h6]; exact stop u _ r2
              · rw [if_neg h6]; exact next u _ _ r2
          · rw [if_neg h4]
            by_cases h6 : (!(wait && !(dev s.tick).yes)) = true
            · rw [if_pos h6]; exact stop r.1 _ r1
            · rw [if_neg h6]; exact next r.1 _ _ r1

theorem getline_reads (h : Good P rec) (rounds : Nat) (wait : Bool) (sep : Byte) (ahead : Nat) (s : St) :
    ∃ p d, Reads P s (getline dev rec rounds wait sep ahead s).1 p d ∧ ((getline dev rec rounds wait sep ahead s).2 = none → d = []) ∧
      (∀ l, (getline dev rec rounds wait sep ahead s).2 = some l → Line sep (getline dev rec rounds wait sep ahead s).1 l d) := by
  unfold getline
  obtain ⟨p, d, k1, k2⟩ := getlineLoop_reads (dev := dev) h sep ahead rounds wait (rec .autoclose s).1
  exact ⟨_, d, reads_trans (autoclose_reads h (reads_refl s)) k1, k2⟩

end

/-- What `write` accepted over a history. -/
def accepted : List TOp → List Nat → List Byte
  | .op (.write b) :: h, r :: rs => b.take r ++ accepted h rs
  | _ :: h, _ :: rs => accepted h rs
  | _, _ => []

variable {P : Prop} {dev : Nat → Ans} {cb : St → Nat → List Op}

theorem step_rel (hP : P → Tidy dev) (f : Nat) (s : St) (o : TOp) : RelW P s (step dev cb f s o).1 (accepted [o] [(step dev cb f s o).2]) := by
  have g := exec_good (P := P) (cb := cb) hP f
  cases o with
  | op o =>
    obtain ⟨k1, _⟩ := g.op o s
    have := toW k1
    cases o <;> simpa [accepted, step] using this
  | read n =>
    obtain ⟨p, k, _⟩ := read_reads (dev := dev) g n s
    exact k.rel
  | getline r w sep a =>
    obtain ⟨p, d, k, _⟩ := getline_reads (dev := dev) g r w sep a s
    exact k.rel
  | unread b => exact Rel.same rfl rfl rfl rfl rfl rfl rfl rfl rfl rfl

theorem accepted_cons (o : TOp) (h : List TOp) (r : Nat) (rs : List Nat) : accepted (o :: h) (r :: rs) = accepted [o] [r] ++ accepted h rs := by
  cases o with
  | op o => cases o <;> simp [accepted]
  | read n => simp [accepted]
  | getline r w sep a => simp [accepted]
  | unread b => simp [accepted]

theorem run_rel (hP : P → Tidy dev) (f : Nat) (h : List TOp) : ∀ s, RelW P s (run dev cb f s h).1 (accepted h (run dev cb f s h).2) := by
  induction h with
  | nil => intro s; exact Rel.refl _
  | cons o h ih =>
    intro s
    unfold run
    simp only []
    rw [accepted_cons]
    exact (step_rel hP f s o).trans (ih _)

theorem run_dead_writes (f : Nat) (h : List TOp) : ∀ s, isok s = false → accepted h (run dev cb f s h).2 = [] := by
  induction h with
  | nil => intro s _; rfl
  | cons o h ih =>
    intro s hs
    unfold run
    simp only []
    have hs' : isok (step dev cb f s o).1 = false := ((step_rel (P := False) (dev := dev) (cb := cb) (fun h => h.elim) f s o).dead hs).1
    rw [accepted_cons, ih _ hs', List.append_nil]
    cases o with
    | op o =>
      cases o with
      | write b =>
        have := ((exec_good (P := False) (cb := cb) (dev := dev) (fun h => h.elim) f).op (.write b) s).2 hs
        simp only [accepted, step]
        rcases this with this | this
        · rw [this]; simp
        · exact absurd rfl (this b)
      | _ => simp [accepted]
    | _ => simp [accepted]

theorem step_queue (f : Nat) (s : St) (o : TOp) (q : replay s.io [] = some s.inbuf) :
    replay (step dev cb f s o).1.io [] = some (step dev cb f s o).1.inbuf := by
  have g := exec_good (P := False) (dev := dev) (cb := cb) (fun h => h.elim) f
  cases o with
  | op o =>
    obtain ⟨k1, _⟩ := g.op o s
    show replay (exec dev cb f (.op o) s).1.io [] = some (exec dev cb f (.op o) s).1.inbuf
    rw [k1.inb, k1.io]; exact q
  | read n =>
    obtain ⟨p, k, _⟩ := read_reads (dev := dev) g n s
    exact k.queue q
  | getline r w sep a =>
    obtain ⟨p, d, k, _⟩ := getline_reads (dev := dev) g r w sep a s
    exact k.queue q
  | unread b =>
    show replay (s.io ++ [.unread b]) [] = some (b ++ s.inbuf)
    rw [replay_append, q]; rfl

theorem run_queue (f : Nat) (h : List TOp) : ∀ s, replay s.io [] = some s.inbuf → replay (run dev cb f s h).1.io [] = some (run dev cb f s h).1.inbuf := by
  induction h with
  | nil => intro s q; exact q
  | cons o h ih => intro s q; exact ih _ (step_queue f s o q)

/-- No `unread`. -/
def NoUnread : List TOp → Prop
  | [] => True
  | .unread _ :: _ => False
  | _ :: h => NoUnread h

theorem run_plain (f : Nat) (h : List TOp) : ∀ s, NoUnread h → returned s.io ++ s.inbuf = produced s.io →
    returned (run dev cb f s h).1.io ++ (run dev cb f s h).1.inbuf = produced (run dev cb f s h).1.io := by
  induction h with
  | nil => intro s _ q; exact q
  | cons o h ih =>
    intro s hn q
    have g := exec_good (P := False) (dev := dev) (cb := cb) (fun h => h.elim) f
    have rd : ∀ (s' : St) (p d : List Byte), Reads False s s' p d → returned s'.io ++ s'.inbuf = produced s'.io := by
      intro s' p d k
      rw [k.ret, k.prod, List.append_assoc, k.data, ← List.append_assoc, q]
    cases o with
    | op o =>
      obtain ⟨k1, _⟩ := g.op o s
      refine ih _ hn ?_
      show returned (exec dev cb f (.op o) s).1.io ++ (exec dev cb f (.op o) s).1.inbuf = produced (exec dev cb f (.op o) s).1.io
      rw [k1.inb, k1.io]; exact q
    | read n =>
      obtain ⟨p, k, _⟩ := read_reads (dev := dev) g n s
      exact ih _ hn (rd _ _ _ k)
    | getline r w sep a =>
      obtain ⟨p, d, k, _⟩ := getline_reads (dev := dev) g r w sep a s
      exact ih _ hn (rd _ _ _ k)
    | unread b => exact hn.elim

theorem loop_all (hd : ∀ i, 1 ≤ (dev i).n ∧ (dev i).acts = []) (ms : Int) (hms : ms < 0) (n : Nat) : ∀ (f : Nat) (s : St), s.outbuf.length ≤ n → n ≤ f → isok s = true →
    s.outbuf ≠ [] → (exec dev cb f (.loop ms) s).2 = 1 ∧ (exec dev cb f (.loop ms) s).1.outbuf = [] ∧ (exec dev cb f (.loop ms) s).1.sent = s.sent ++ s.outbuf := by
  induction n with
  | zero => intro f s hl _ _ hne; exact absurd (List.eq_nil_of_length_eq_zero (Nat.le_zero.mp hl)) hne
  | succ n ih =>
    intro f s hl hf hok hne
    obtain ⟨f, rfl⟩ : ∃ g, f = g + 1 := ⟨f - 1, by omega⟩
    have hpos : 0 < s.outbuf.length := by
      cases hb : s.outbuf with
      | nil => exact absurd hb hne
      | cons => simp
    have hacts : ∀ t : St, (exec dev cb f (.acts []) t).1 = t := by intro t; cases f <;> rfl
    have hat : 1 ≤ attempt dev s := by unfold attempt; omega
    have hat2 : attempt dev s ≤ s.outbuf.length := by unfold attempt; omega
    obtain ⟨k, hk, hk1⟩ : ∃ k, loopWrite dev (exec dev cb f) s = { s with outbuf := s.outbuf.drop k, tick := s.tick + 1, sent := s.sent ++ s.outbuf.take k } ∧ 1 ≤ k := by
      unfold loopWrite uwrite
      simp only [(hd s.tick).2, hacts]
      generalize attempt dev s = m at *
      have h1 := (hd s.tick).1
      have hlen : (s.outbuf.take m).length = m := List.length_take_of_le hat2
      rw [hlen]
      by_cases hlt : min (dev s.tick).n m < m
      · refine ⟨min (dev s.tick).n m, ?_, by omega⟩
        have hok' : ∀ x y z, isok { s with outbuf := x, tick := y, sent := z } = true := fun _ _ _ => hok
        rw [if_pos (by simp [hok', hlt])]
        have e1 : (s.outbuf.take m).take (min (dev s.tick).n m) = s.outbuf.take (min (dev s.tick).n m) := by
          rw [List.take_take]; congr 1; omega
        have e2 : (s.outbuf.take m).drop (min (dev s.tick).n m) ++ s.outbuf.drop m = s.outbuf.drop (min (dev s.tick).n m) := by
          generalize hj : min (dev s.tick).n m = j
          have : s.outbuf.drop j = (s.outbuf.take m ++ s.outbuf.drop m).drop j := by rw [List.take_append_drop]
          rw [this, List.drop_append_of_le_length (by rw [hlen]; omega)]
        rw [e1, e2]
      · refine ⟨m, ?_, hat⟩
        rw [if_neg (by simp [hlt])]
        have e0 : min (dev s.tick).n m = m := by omega
        rw [e0, List.take_take, Nat.min_self]
    have hstep : exec dev cb (f + 1) (.loop ms) s = loopNext (exec dev cb f) ms { s with outbuf := s.outbuf.drop k, tick := s.tick + 1, sent := s.sent ++ s.outbuf.take k } := by
      show loop dev (exec dev cb f) ms s = _
      unfold loop
      rw [if_neg (by simp [hok])]
      simp only []
      rw [if_neg (by simp; omega), if_pos hms, hk]
    rw [hstep]
    unfold loopNext
    by_cases he : (s.outbuf.drop k).isEmpty = true
    · rw [if_pos he]
      have : s.outbuf.drop k = [] := by simpa using he
      refine ⟨rfl, this, ?_⟩
      show s.sent ++ s.outbuf.take k = _
      have h2 := List.take_append_drop k s.outbuf
      rw [this, List.append_nil] at h2
      rw [h2]
    · rw [if_neg he]
      obtain ⟨i1, i2, i3⟩ := ih f { s with outbuf := s.outbuf.drop k, tick := s.tick + 1, sent := s.sent ++ s.outbuf.take k }
        (by simp; omega) (by omega) hok (by simpa using he)
      refine ⟨i1, i2, ?_⟩
      rw [i3]
      simp

theorem max_kept (f : Nat) : ∀ (c : Call) (s : St), (∀ l, c ≠ .ops l) → (∀ n, c ≠ .op (.limit n)) → isok (exec dev cb f c s).1 = true →
    (exec dev cb f c s).1.max = s.max := by
  induction f with
  | zero => intro c s _ _ _; rfl
  | succ f ih =>
    have g := exec_good (P := False) (dev := dev) (cb := cb) (fun h => h.elim) f
    have k : ∀ (c : Call) (s : St), (∀ l, c ≠ .ops l) → (∀ o, c ≠ .op o) → isok (exec dev cb f c s).1 = true → (exec dev cb f c s).1.max = s.max :=
      fun c s h1 h2 h3 => ih c s h1 (fun n => h2 _) h3
    have kacts : ∀ (l : List Act) (s : St), isok (l.foldl (act (exec dev cb f)) s) = true → (l.foldl (act (exec dev cb f)) s).max = s.max := by
      intro l
      induction l with
      | nil => intro s _; rfl
      | cons a l ihl =>
        intro s hs
        rw [List.foldl_cons] at hs ⊢
        rw [ihl _ hs]
        have ha := (acts_good g l (act (exec dev cb f) s a)).1.ok hs
        cases a with
        | seterr e => exact k _ _ (by simp) (by simp) ha
        | noread => exact k _ _ (by simp) (by simp) ha
        | nowrite => exact k _ _ (by simp) (by simp) ha
        | close => exact k _ _ (by simp) (by simp) ha
    have kuw : ∀ (b : List Byte) (s : St), isok (uwrite dev (exec dev cb f) b s).1 = true → (uwrite dev (exec dev cb f) b s).1.max = s.max := by
      intro b s hs
      exact k _ _ (by simp) (by simp) hs
    have kend : ∀ (s : St) (d : Bool), isok (flushEnd dev (exec dev cb f) s d).1 = true → (flushEnd dev (exec dev cb f) s d).1.max = s.max := by
      intro s d
      unfold flushEnd
      simp only []
      have e0 : ∀ s1 : St, (isok s1 = true → s1.max = s.max) → isok (exec dev cb f .autoclose
          (if (!d && !isok (if (s1.delayed && d) = true then { s1 with wantFlush := false } else s1)) = true then
            { (if (s1.delayed && d) = true then { s1 with wantFlush := false } else s1) with outbuf := [] }
            else (if (s1.delayed && d) = true then { s1 with wantFlush := false } else s1))).1 = true →
          (exec dev cb f .autoclose
          (if (!d && !isok (if (s1.delayed && d) = true then { s1 with wantFlush := false } else s1)) = true then
            { (if (s1.delayed && d) = true then { s1 with wantFlush := false } else s1) with outbuf := [] }
            else (if (s1.delayed && d) = true then { s1 with wantFlush := false } else s1))).1.max = s.max := by
        intro s1 h1 hs
        rw [k _ _ (by simp) (by simp) hs]
        have hs2 := (g.autoclose _).1.ok hs
        clear hs
        by_cases c1 : (s1.delayed && d) = true
        · simp only [c1, if_true] at hs2 ⊢
          by_cases c2 : (!d && !isok { s1 with wantFlush := false }) = true
          · rw [if_pos c2] at hs2 ⊢; exact h1 hs2
          · rw [if_neg c2] at hs2 ⊢; exact h1 hs2
        · rw [if_neg c1] at hs2 ⊢
          by_cases c2 : (!d && !isok s1) = true
          · rw [if_pos c2] at hs2 ⊢; exact h1 hs2
          · rw [if_neg c2] at hs2 ⊢; exact h1 hs2
      apply e0
      by_cases c1 : (s.autoclose && isok s) = true
      · rw [if_pos c1]
        by_cases c2 : (s.outbuf.isEmpty || (dev s.tick).yes) = true
        · rw [if_pos c2]; exact fun hs => k _ _ (by simp) (by simp) hs
        · rw [if_neg c2]; exact fun _ => rfl
      · rw [if_neg c1]; exact fun _ => rfl
    have knext : ∀ (ms : Int) (s : St), isok (loopNext (exec dev cb f) ms s).1 = true → (loopNext (exec dev cb f) ms s).1.max = s.max := by
      intro ms s
      unfold loopNext
      by_cases c1 : s.outbuf.isEmpty = true
      · rw [if_pos c1]; exact fun _ => rfl
      · rw [if_neg c1]; exact fun hs => k _ _ (by simp) (by simp) hs
    have kclose : ∀ s, isok (close cb (exec dev cb f) s).1 = true → (close cb (exec dev cb f) s).1.max = s.max := by
      intro s hs
      rw [closed_not_ok _ (close_good g s).2] at hs; simp at hs
    intro c s h1 h2
    cases c with
    | write b =>
      show isok (write dev (exec dev cb f) b s).1 = true → (write dev (exec dev cb f) b s).1.max = s.max
      have krest : ∀ (s1 : St) (w : Nat), (isok s1 = true → s1.max = s.max) → isok (writeRest (exec dev cb f) b s1 w).1 = true →
          (writeRest (exec dev cb f) b s1 w).1.max = s.max := by
        intro s1 w h1
        unfold writeRest
        simp only []
        by_cases c1 : s1.wantFlush = true
        · rw [if_pos c1]
          intro hs
          by_cases c2 : s1.autoFlush = true
          · rw [if_pos c2] at hs ⊢
            rw [k _ _ (by simp) (by simp) hs]
            have hs' := (g.flush 0 _).1.ok hs
            exact h1 hs'
          · rw [if_neg c2] at hs ⊢
            rw [k _ _ (by simp) (by simp) hs]
            have hs' := (g.flushOutbuf 0 _).1.ok hs
            exact h1 hs'
        · rw [if_neg c1]; exact h1
      unfold write
      by_cases c1 : (!isok s || b.isEmpty || s.stopWrite) = true
      · rw [if_pos c1]; exact fun _ => rfl
      · rw [if_neg c1]
        by_cases c2 : (!s.delayed && s.outbuf.isEmpty) = true
        · rw [if_pos c2]; exact krest _ _ (kuw b s)
        · rw [if_neg c2]; exact krest _ _ (fun _ => rfl)
    | flush ms =>
      show isok (flush (exec dev cb f) ms s).1 = true → (flush (exec dev cb f) ms s).1.max = s.max
      unfold flush
      by_cases c1 : s.flushing = true
      · rw [if_pos c1]; exact fun _ => rfl
      · rw [if_neg c1]; exact fun hs => k (.flushOutbuf ms) _ (by simp) (by simp) hs
    | flushOutbuf ms =>
      show isok (flushOutbuf dev (exec dev cb f) ms s).1 = true → (flushOutbuf dev (exec dev cb f) ms s).1.max = s.max
      unfold flushOutbuf
      by_cases c1 : s.outbuf.isEmpty = true
      · rw [if_pos c1]
        by_cases c2 : (!s.autoclose && !s.delayed) = true
        · rw [if_pos c2]; exact fun hs => k _ _ (by simp) (by simp) hs
        · rw [if_neg c2]; exact kend s true
      · rw [if_neg c1]
        intro hs
        have := (flushEnd_good (dev := dev) g (exec dev cb f (.loop ms) s).1 ((exec dev cb f (.loop ms) s).2 == 1)).1.ok hs
        exact (kend _ _ hs).trans (k _ _ (by simp) (by simp) this)
    | loop ms =>
      show isok (loop dev (exec dev cb f) ms s).1 = true → (loop dev (exec dev cb f) ms s).1.max = s.max
      unfold loop
      by_cases c1 : (!isok s) = true
      · rw [if_pos c1]; exact fun _ => rfl
      · rw [if_neg c1]
        have kw : isok (loopWrite dev (exec dev cb f) s) = true → (loopWrite dev (exec dev cb f) s).max = s.max := by
          unfold loopWrite
          simp only []
          by_cases c2 : (isok (uwrite dev (exec dev cb f) (s.outbuf.take (attempt dev s)) { s with outbuf := s.outbuf.drop (attempt dev s) }).1 &&
              decide ((uwrite dev (exec dev cb f) (s.outbuf.take (attempt dev s)) { s with outbuf := s.outbuf.drop (attempt dev s) }).2 < attempt dev s)) = true
          · rw [if_pos c2]; exact fun hs => kuw _ { s with outbuf := s.outbuf.drop (attempt dev s) } hs
          · rw [if_neg c2]; exact fun hs => kuw _ { s with outbuf := s.outbuf.drop (attempt dev s) } hs
        simp only []
        generalize loopWrite dev (exec dev cb f) s = u at *
        by_cases c2 : (ms == 0) = true
        · rw [if_pos c2]; exact kw
        · rw [if_neg c2]
          by_cases c3 : ms < 0
          · rw [if_pos c3]
            intro hs
            rw [knext _ _ hs]
            exact kw ((loopNext_good g ms u).1.ok hs)
          · rw [if_neg c3]
            by_cases c4 : (dev u.tick).yes = true
            · rw [if_pos c4]; exact kw
            · rw [if_neg c4]
              have ks : isok (exec dev cb f .select { u with tick := u.tick + 1 }).1 = true → (exec dev cb f .select { u with tick := u.tick + 1 }).1.max = s.max := by
                intro hs
                rw [k _ _ (by simp) (by simp) hs]
                have hs' := (g.select _).ok hs
                exact kw hs'
              by_cases c5 : ((exec dev cb f .select { u with tick := u.tick + 1 }).2 == 1) = true
              · rw [if_pos c5]
                intro hs
                rw [knext _ _ hs]
                exact ks ((loopNext_good g ms _).1.ok hs)
              · rw [if_neg c5]; exact ks
    | close => exact kclose s
    | seterr e =>
      show isok (seterr (exec dev cb f) e s).1 = true → (seterr (exec dev cb f) e s).1.max = s.max
      unfold seterr
      by_cases c1 : (s.err == 0) = true
      · rw [if_pos c1]; exact fun hs => k .close { s with err := e } (by simp) (by simp) hs
      · rw [if_neg c1]; exact fun _ => rfl
    | autoclose =>
      show isok (maybeAutoclose (exec dev cb f) s).1 = true → (maybeAutoclose (exec dev cb f) s).1.max = s.max
      unfold maybeAutoclose
      by_cases c1 : (s.stopRead && s.stopWrite && s.outbuf.isEmpty && s.inbuf.isEmpty && !s.closed) = true
      · rw [if_pos c1]; exact fun hs => k .close _ (by simp) (by simp) hs
      · rw [if_neg c1]; exact fun _ => rfl
    | select =>
      show isok (select dev (exec dev cb f) s).1 = true → (select dev (exec dev cb f) s).1.max = s.max
      unfold select
      simp only []
      have k1 := k .autoclose s (by simp) (by simp)
      generalize (exec dev cb f .autoclose s).1 = s1 at *
      have k2 : isok (exec dev cb f (.acts (dev s1.tick).acts) { s1 with tick := s1.tick + 1 }).1 = true →
          (exec dev cb f (.acts (dev s1.tick).acts) { s1 with tick := s1.tick + 1 }).1.max = s.max := by
        intro hs
        rw [k _ _ (by simp) (by simp) hs]
        have hs' := (g.acts _ _).1.ok hs
        exact k1 hs'
      generalize (exec dev cb f (.acts (dev s1.tick).acts) { s1 with tick := s1.tick + 1 }).1 = s2 at *
      have k3 : isok (if s2.wantFlush = true then (exec dev cb f (.flush 0) s2).1 else s2) = true →
          (if s2.wantFlush = true then (exec dev cb f (.flush 0) s2).1 else s2).max = s.max := by
        by_cases hw : s2.wantFlush = true
        · rw [if_pos hw]
          intro hs
          rw [k _ _ (by simp) (by simp) hs]
          exact k2 ((g.flush _ _).1.ok hs)
        · rw [if_neg hw]; exact k2
      generalize (if s2.wantFlush = true then (exec dev cb f (.flush 0) s2).1 else s2) = s3 at *
      by_cases hw : ((dev s1.tick).again && (!s3.outbuf.isEmpty || s3.autoclose) && s3.wantFlush) = true
      · rw [if_pos hw]
        intro hs
        rw [k _ _ (by simp) (by simp) hs]
        exact k3 ((g.flushOutbuf _ _).1.ok hs)
      · rw [if_neg hw]; exact k3
    | acts l => exact kacts l s
    | ops l => exact absurd rfl (h1 l)
    | op o =>
      show isok (op cb (exec dev cb f) s o).1 = true → (op cb (exec dev cb f) s o).1.max = s.max
      cases o with
      | write b => exact fun hs => k _ _ (by simp) (by simp) hs
      | flush ms => exact fun hs => k _ _ (by simp) (by simp) hs
      | close => exact fun hs => k .close _ (by simp) (by simp) hs
      | seterr e => exact fun hs => k (.seterr e) _ (by simp) (by simp) hs
      | noread => exact fun hs => k .autoclose { s with stopRead := true } (by simp) (by simp) hs
      | nowrite => exact fun hs => k .autoclose { s with stopWrite := true } (by simp) (by simp) hs
      | onclose id =>
        intro hs
        have hok : isok s = true := (onclose_good g id s).ok hs
        have hok' : isok { s with reg := s.reg ++ id.toList } = true := hok
        show (onclose cb (exec dev cb f) id s).max = s.max
        unfold onclose
        simp only []
        rw [if_pos hok']
      | delay on => exact fun _ => rfl
      | autoFlush on => exact fun _ => rfl
      | limit n => exact absurd rfl (h2 n)
      | queuemin n => exact fun _ => rfl
      | flushThenClose => exact fun hs => k (.flush 0) { s with autoclose := true } (by simp) (by simp) hs
      | select => exact fun hs => k .select _ (by simp) (by simp) hs

theorem acts_max (f : Nat) (l : List Act) (s : St) (h : isok (exec dev cb f (.acts l) s).1 = true) : (exec dev cb f (.acts l) s).1.max = s.max :=
  max_kept f _ s (by simp) (by simp) h

theorem uread_max (f : Nat) (n : Nat) (s : St) (h : isok (uread dev (exec dev cb f) n s).1 = true) : (uread dev (exec dev cb f) n s).1.max = s.max :=
  acts_max f _ _ h

theorem autoclose_max (f : Nat) (s : St) (h : isok (exec dev cb f .autoclose s).1 = true) : (exec dev cb f .autoclose s).1.max = s.max :=
  max_kept f _ s (by simp) (by simp) h

theorem read_max (f : Nat) (n : Nat) (s : St) : isok (Stream.read dev (exec dev cb f) n s).1 = true → (Stream.read dev (exec dev cb f) n s).1.max = s.max := by
  have g := exec_good (P := False) (dev := dev) (cb := cb) (fun h => h.elim) f
  unfold Stream.read
  simp only []
  have h0 : isok (if s.inbuf.length < s.queueMin then
      { (uread dev (exec dev cb f) (s.queueMin - s.inbuf.length) s).1 with
        inbuf := (uread dev (exec dev cb f) (s.queueMin - s.inbuf.length) s).1.inbuf ++ (uread dev (exec dev cb f) (s.queueMin - s.inbuf.length) s).2 } else s) = true →
      (if s.inbuf.length < s.queueMin then
      { (uread dev (exec dev cb f) (s.queueMin - s.inbuf.length) s).1 with
        inbuf := (uread dev (exec dev cb f) (s.queueMin - s.inbuf.length) s).1.inbuf ++ (uread dev (exec dev cb f) (s.queueMin - s.inbuf.length) s).2 } else s).max = s.max := by
    by_cases hq : s.inbuf.length < s.queueMin
    · rw [if_pos hq]; exact fun hs => uread_max f _ s hs
    · rw [if_neg hq]; exact fun _ => rfl
  generalize (if s.inbuf.length < s.queueMin then
      { (uread dev (exec dev cb f) (s.queueMin - s.inbuf.length) s).1 with
        inbuf := (uread dev (exec dev cb f) (s.queueMin - s.inbuf.length) s).1.inbuf ++ (uread dev (exec dev cb f) (s.queueMin - s.inbuf.length) s).2 } else s) = s1 at *
  by_cases h1 : s1.inbuf.length < s1.queueMin
  · rw [if_pos h1]
    intro hs
    exact (autoclose_max f _ hs).trans (h0 ((g.autoclose _).1.ok hs))
  · rw [if_neg h1]
    by_cases h2 : s1.inbuf.isEmpty = true
    · rw [if_pos h2]
      intro hs
      have hs1 := (g.autoclose _).1.ok hs
      have hs2 : isok (uread dev (exec dev cb f) n s1).1 = true := hs1
      exact (autoclose_max f _ hs).trans ((uread_max f _ s1 hs2).trans (h0 ((uread_spec g n s1).1.ok hs2)))
    · rw [if_neg h2]
      intro hs
      have hs1 := (g.autoclose _).1.ok hs
      exact (autoclose_max f _ hs).trans (h0 hs1)

theorem takeLine_max (sep : Byte) (s : St) : (takeLine sep s).1.max = s.max ∧ isok (takeLine sep s).1 = isok s := by
  unfold takeLine
  by_cases h1 : s.inbuf.isEmpty = true
  · rw [if_pos h1]; exact ⟨rfl, rfl⟩
  · rw [if_neg h1]
    by_cases h2 : s.inbuf.contains sep = true
    · rw [if_pos h2]; exact ⟨rfl, rfl⟩
    · rw [if_neg h2]; exact ⟨rfl, rfl⟩

theorem getlineLoop_max (f : Nat) (sep : Byte) (ahead : Nat) (n : Nat) : ∀ (wait : Bool) (s : St), isok (getlineLoop dev (exec dev cb f) sep ahead n wait s).1 = true →
    (getlineLoop dev (exec dev cb f) sep ahead n wait s).1.max = s.max := by
  have g := exec_good (P := False) (dev := dev) (cb := cb) (fun h => h.elim) f
  induction n with
  | zero => intro wait s _; rfl
  | succ n ih =>
    intro wait s
    have fin : ∀ s1 : St, (isok s1 = true → s1.max = s.max) → isok (takeLine sep s1).1 = true → (takeLine sep s1).1.max = s.max := by
      intro s1 h1 hs
      rw [(takeLine_max sep s1).1]
      rw [(takeLine_max sep s1).2] at hs
      exact h1 hs
    have next : ∀ (s1 : St) (w : Bool), (isok s1 = true → s1.max = s.max) → isok (getlineLoop dev (exec dev cb f) sep ahead n w s1).1 = true →
        (getlineLoop dev (exec dev cb f) sep ahead n w s1).1.max = s.max := by
      intro s1 w h1 hs
      obtain ⟨p, d, k, _⟩ := getlineLoop_reads (dev := dev) g sep ahead n w s1
      exact (ih w s1 hs).trans (h1 (k.rel.ok hs))
    unfold getlineLoop
    by_cases h1 : (!isok s) = true
    · rw [if_pos h1]; exact fin s (fun _ => rfl)
    · rw [if_neg h1]
      simp only []
      by_cases h2 : (s.inbuf.contains sep || s.stopRead) = true
      · rw [if_pos h2]; exact fin _ (fun _ => rfl)
      · rw [if_neg h2]
        have r1 : isok (exec dev cb f .select { s with queueMin := s.inbuf.length + 1, tick := s.tick + 1 }).1 = true →
            (exec dev cb f .select { s with queueMin := s.inbuf.length + 1, tick := s.tick + 1 }).1.max = s.max :=
          fun hs => max_kept f .select _ (by simp) (by simp) hs
        generalize hr : exec dev cb f .select { s with queueMin := s.inbuf.length + 1, tick := s.tick + 1 } = r at *
        by_cases h3 : (!isok r.1) = true
        · rw [if_pos h3]; exact fin r.1 r1
        · rw [if_neg h3]
          by_cases h4 : (r.2 == 1) = true
          · rw [if_pos h4]
            have r2 : isok ({ (uread dev (exec dev cb f) ahead r.1).1 with inbuf := (uread dev (exec dev cb f) ahead r.1).1.inbuf ++ (uread dev (exec dev cb f) ahead r.1).2 } : St) = true →
                ({ (uread dev (exec dev cb f) ahead r.1).1 with inbuf := (uread dev (exec dev cb f) ahead r.1).1.inbuf ++ (uread dev (exec dev cb f) ahead r.1).2 } : St).max = s.max :=
              fun hs => (uread_max f ahead r.1 hs).trans (r1 ((uread_spec g ahead r.1).1.ok hs))
            generalize ({ (uread dev (exec dev cb f) ahead r.1).1 with inbuf := (uread dev (exec dev cb f) ahead r.1).1.inbuf ++ (uread dev (exec dev cb f) ahead r.1).2 } : St) = u at *
            by_cases h5 : (!isok u) = true
            · rw [if_pos h5]; exact fin u r2
            · rw [if_neg h5]
              by_cases h6 : ((uread dev (exec dev cb f) ahead r.1).2.isEmpty && !(wait && !(dev s.tick).yes)) = true
              · rw [if_pos h6]; exact r2
              · rw [if_neg h6]; exact next u _ r2
          · rw [if_neg h4]
            by_cases h6 : (!(wait && !(dev s.tick).yes)) = true
            · rw [if_pos h6]; exact r1
            · rw [if_neg h6]; exact next r.1 _ r1

theorem step_max (f : Nat) (s : St) (o : TOp) (hl : ∀ k, o ≠ .op (.limit k)) (hok : isok (step dev cb f s o).1 = true) : (step dev cb f s o).1.max = s.max := by
  have g := exec_good (P := False) (dev := dev) (cb := cb) (fun h => h.elim) f
  cases o with
  | op o => exact max_kept f (.op o) s (by simp) (by intro k hk; simp only [Call.op.injEq] at hk; exact hl k (by rw [hk])) hok
  | read n => exact read_max f n s hok
  | getline r w sep a =>
    obtain ⟨p, d, k, _⟩ := getlineLoop_reads (dev := dev) g sep a r w (exec dev cb f .autoclose s).1
    exact (getlineLoop_max f sep a r w _ hok).trans (autoclose_max f s (k.rel.ok hok))
  | unread b => rfl

theorem write_limit (f : Nat) (b : List Byte) (s : St) (n : Nat) (hn : n ≠ 0) (hn2 : n < 2 ^ 64) (hm : s.max = n) (hs : s.outbuf.length ≤ n)
    (hok : isok (write dev (exec dev cb f) b s).1 = true) : (write dev (exec dev cb f) b s).1.outbuf.length ≤ n := by
  have g := exec_good (P := False) (dev := dev) (cb := cb) (fun h => h.elim) f
  have fewer : ∀ s1 s' : St, Rel False s1 s' [] → isok s' = true → s'.outbuf.length ≤ s1.outbuf.length := by
    intro s1 s' r hk
    have h1 := congrArg List.length (r.live hk)
    have h2 := r.ext.length_le
    simp only [List.append_nil, List.length_append] at h1 h2
    omega
  have rest : ∀ (s1 : St) (w : Nat), (isok s1 = true → s1.max = n ∧ s1.outbuf.length ≤ n) → isok (writeRest (exec dev cb f) b s1 w).1 = true →
      (writeRest (exec dev cb f) b s1 w).1.outbuf.length ≤ n := by
    intro s1 w h1
    have put : isok s1 = true → (s1.outbuf ++ (b.drop w).take (canBuffer s1 (b.length - w))).length ≤ n := by
      intro hs1
      obtain ⟨e1, e2⟩ := h1 hs1
      unfold canBuffer
      rw [if_pos (by rw [e1]; exact hn), List.length_append, List.length_take, e1]
      have : subSize n s1.outbuf.length = n - s1.outbuf.length := by
        unfold subSize
        have : n + 2 ^ 64 - s1.outbuf.length = (n - s1.outbuf.length) + 2 ^ 64 := by omega
        rw [this, Nat.add_mod_right]
        exact Nat.mod_eq_of_lt (by omega)
      rw [this]; omega
    unfold writeRest
    simp only []
    by_cases c1 : s1.wantFlush = true
    · rw [if_pos c1]
      intro hs
      by_cases c2 : s1.autoFlush = true
      · rw [if_pos c2] at hs ⊢
        have hs' := (g.flush 0 _).1.ok hs
        exact Nat.le_trans (fewer _ _ (g.flush 0 _).1 hs) (put hs')
      · rw [if_neg c2] at hs ⊢
        have hs' := (g.flushOutbuf 0 _).1.ok hs
        exact Nat.le_trans (fewer _ _ (g.flushOutbuf 0 _).1 hs) (put hs')
    · rw [if_neg c1]; exact put
  revert hok
  unfold write
  by_cases c1 : (!isok s || b.isEmpty || s.stopWrite) = true
  · rw [if_pos c1]; exact fun _ => hs
  · rw [if_neg c1]
    by_cases c2 : (!s.delayed && s.outbuf.isEmpty) = true
    · rw [if_pos c2]
      refine rest _ _ ?_
      intro hu
      refine ⟨(acts_max f _ _ hu).trans hm, ?_⟩
      have := ((g.acts (dev s.tick).acts { s with tick := s.tick + 1, sent := s.sent ++ b.take (min (dev s.tick).n b.length) }).2.1 hu).1
      unfold uwrite
      simp only []
      rw [this]; exact hs
    · rw [if_neg c2]; exact rest _ _ (fun _ => ⟨hm, hs⟩)

/-- Calls which do not themselves set a close callback. -/
def Plain : Call → Prop
  | .op (.onclose _) => False
  | .ops l => ∀ o ∈ l, ∀ i, o ≠ .onclose i
  | _ => True

theorem reg_kept (hcb : ∀ s id, ∀ o ∈ cb s id, ∀ i, o ≠ .onclose i) (f : Nat) : ∀ (c : Call) (s : St), Plain c → (exec dev cb f c s).1.reg = s.reg := by
  induction f with
  | zero => intro c s _; rfl
  | succ f ih =>
    have kw : ∀ b s, (exec dev cb f (.write b) s).1.reg = s.reg := fun b s => ih _ s trivial
    have kf : ∀ b s, (exec dev cb f (.flush b) s).1.reg = s.reg := fun b s => ih _ s trivial
    have ko : ∀ b s, (exec dev cb f (.flushOutbuf b) s).1.reg = s.reg := fun b s => ih _ s trivial
    have kl : ∀ b s, (exec dev cb f (.loop b) s).1.reg = s.reg := fun b s => ih _ s trivial
    have kc : ∀ s, (exec dev cb f .close s).1.reg = s.reg := fun s => ih _ s trivial
    have ke : ∀ b s, (exec dev cb f (.seterr b) s).1.reg = s.reg := fun b s => ih _ s trivial
    have ka : ∀ s, (exec dev cb f .autoclose s).1.reg = s.reg := fun s => ih _ s trivial
    have ks : ∀ s, (exec dev cb f .select s).1.reg = s.reg := fun s => ih _ s trivial
    have kt : ∀ b s, (exec dev cb f (.acts b) s).1.reg = s.reg := fun b s => ih _ s trivial
    have kact : ∀ s a, (act (exec dev cb f) s a).reg = s.reg := by
      intro s a
      cases a with
      | seterr e => exact ke _ _
      | noread => exact ka _
      | nowrite => exact ka _
      | close => exact kc _
    have kacts : ∀ (l : List Act) (s : St), (l.foldl (act (exec dev cb f)) s).reg = s.reg := by
      intro l
      induction l with
      | nil => intro s; rfl
      | cons a l ihl => intro s; rw [List.foldl_cons, ihl, kact]
    have kops : ∀ (l : List Op) (s : St), (∀ o ∈ l, ∀ i, o ≠ .onclose i) → (l.foldl (fun s o => (exec dev cb f (.op o) s).1) s).reg = s.reg := by
      intro l
      induction l with
      | nil => intro s _; rfl
      | cons o l ihl =>
        intro s hl
        rw [List.foldl_cons, ihl _ (fun o' ho' => hl o' (by simp [ho'])), ih _ s]
        cases o with
        | onclose i => exact absurd rfl (hl _ (by simp) i)
        | _ => trivial
    have kend : ∀ (s : St) (d : Bool), (flushEnd dev (exec dev cb f) s d).1.reg = s.reg := by
      intro s d
      unfold flushEnd
      simp only [ka]
      have e1 : (if (s.autoclose && isok s) = true then if (s.outbuf.isEmpty || (dev s.tick).yes) = true then (exec dev cb f .close { s with tick := s.tick + 1, autoclose := false }).1
          else { s with tick := s.tick + 1 } else s).reg = s.reg := by
        by_cases c1 : (s.autoclose && isok s) = true
        · rw [if_pos c1]
          by_cases c2 : (s.outbuf.isEmpty || (dev s.tick).yes) = true
          · rw [if_pos c2, kc]
          · rw [if_neg c2]
        · rw [if_neg c1]
      generalize (if (s.autoclose && isok s) = true then if (s.outbuf.isEmpty || (dev s.tick).yes) = true then (exec dev cb f .close { s with tick := s.tick + 1, autoclose := false }).1
          else { s with tick := s.tick + 1 } else s) = s1 at *
      split <;> split <;> exact e1
    have kuw : ∀ (b : List Byte) (s : St), (uwrite dev (exec dev cb f) b s).1.reg = s.reg := fun b s => kt _ _
    have krest : ∀ (b : List Byte) (s : St) (w : Nat), (writeRest (exec dev cb f) b s w).1.reg = s.reg := by
      intro b s w
      unfold writeRest
      simp only []
      by_cases c1 : s.wantFlush = true
      · rw [if_pos c1]
        by_cases c2 : s.autoFlush = true
        · rw [if_pos c2, kf]
        · rw [if_neg c2, ko]
      · rw [if_neg c1]
    have knext : ∀ (ms : Int) (s : St), (loopNext (exec dev cb f) ms s).1.reg = s.reg := by
      intro ms s
      unfold loopNext
      split
      · rfl
      · exact kl _ _
    have klw : ∀ s, (loopWrite dev (exec dev cb f) s).reg = s.reg := by
      intro s
      unfold loopWrite
      simp only []
      split
      · exact kuw _ _
      · exact kuw _ _
    intro c s hp
    cases c with
    | write b =>
      show (write dev (exec dev cb f) b s).1.reg = s.reg
      unfold write
      split
      · rfl
      · split
        · rw [krest, kuw]
        · rw [krest]
    | flush ms =>
      show (flush (exec dev cb f) ms s).1.reg = s.reg
      unfold flush
      split
      · rfl
      · exact ko ms _
    | flushOutbuf ms =>
      show (flushOutbuf dev (exec dev cb f) ms s).1.reg = s.reg
      unfold flushOutbuf
      split
      · split
        · exact ka _
        · exact kend _ _
      · exact (kend _ _).trans (kl _ _)
    | loop ms =>
      show (loop dev (exec dev cb f) ms s).1.reg = s.reg
      unfold loop
      simp only []
      split
      · rfl
      · split
        · exact klw s
        · split
          · exact (knext _ _).trans (klw s)
          · split
            · exact klw s
            · split
              · exact (knext _ _).trans ((ks _).trans (klw s))
              · exact (ks _).trans (klw s)
    | close =>
      show (close cb (exec dev cb f) s).1.reg = s.reg
      unfold close
      simp only []
      have := kf 2000 s
      generalize (exec dev cb f (.flush 2000) s).1 = s1 at *
      cases hc : s1.closecb with
      | none => exact this
      | some id => exact (ih (.ops _) _ (hcb _ _)).trans this
    | seterr e =>
      show (seterr (exec dev cb f) e s).1.reg = s.reg
      unfold seterr
      split
      · exact kc _
      · rfl
    | autoclose =>
      show (maybeAutoclose (exec dev cb f) s).1.reg = s.reg
      unfold maybeAutoclose
      split
      · exact kc _
      · rfl
    | select =>
      show (select dev (exec dev cb f) s).1.reg = s.reg
      unfold select
      simp only []
      have k2 : (exec dev cb f (.acts (dev (exec dev cb f .autoclose s).1.tick).acts)
          { (exec dev cb f .autoclose s).1 with tick := (exec dev cb f .autoclose s).1.tick + 1 }).1.reg = s.reg := (kt _ _).trans (ka s)
      generalize (exec dev cb f (.acts (dev (exec dev cb f .autoclose s).1.tick).acts)
          { (exec dev cb f .autoclose s).1 with tick := (exec dev cb f .autoclose s).1.tick + 1 }).1 = s2 at *
      have k3 : (if s2.wantFlush = true then (exec dev cb f (.flush 0) s2).1 else s2).reg = s.reg := by
        split
        · exact (kf _ _).trans k2
        · exact k2
      generalize (if s2.wantFlush = true then (exec dev cb f (.flush 0) s2).1 else s2) = s3 at *
      split
      · exact (ko _ _).trans k3
      · exact k3
    | acts l => exact kacts l s
    | ops l => exact kops l s hp
    | op o =>
      cases o with
      | write b => exact kw _ _
      | flush ms => exact kf _ _
      | close => exact kc _
      | seterr e => exact ke _ _
      | noread => exact ka _
      | nowrite => exact ka _
      | onclose id => exact hp.elim
      | delay on => rfl
      | autoFlush on => rfl
      | limit n => rfl
      | queuemin n => rfl
      | flushThenClose => exact kf _ _
      | select => exact ks _

/-- The close callbacks set over a history. -/
def registered : List TOp → List Nat
  | .op (.onclose id) :: h => id.toList ++ registered h
  | _ :: h => registered h
  | [] => []

theorem uread_reg (hcb : ∀ s id, ∀ o ∈ cb s id, ∀ i, o ≠ .onclose i) (f n : Nat) (s : St) : (uread dev (exec dev cb f) n s).1.reg = s.reg :=
  reg_kept hcb f (.acts _) _ trivial

theorem read_reg (hcb : ∀ s id, ∀ o ∈ cb s id, ∀ i, o ≠ .onclose i) (f n : Nat) (s : St) : (Stream.read dev (exec dev cb f) n s).1.reg = s.reg := by
  unfold Stream.read
  simp only []
  have h0 : (if s.inbuf.length < s.queueMin then
      { (uread dev (exec dev cb f) (s.queueMin - s.inbuf.length) s).1 with
        inbuf := (uread dev (exec dev cb f) (s.queueMin - s.inbuf.length) s).1.inbuf ++ (uread dev (exec dev cb f) (s.queueMin - s.inbuf.length) s).2 } else s).reg = s.reg := by
    split
    · exact uread_reg hcb f _ s
    · rfl
  generalize (if s.inbuf.length < s.queueMin then
      { (uread dev (exec dev cb f) (s.queueMin - s.inbuf.length) s).1 with
        inbuf := (uread dev (exec dev cb f) (s.queueMin - s.inbuf.length) s).1.inbuf ++ (uread dev (exec dev cb f) (s.queueMin - s.inbuf.length) s).2 } else s) = s1 at *
  split
  · exact (reg_kept hcb f .autoclose _ trivial).trans h0
  · split
    · exact (reg_kept hcb f .autoclose _ trivial).trans ((uread_reg hcb f n s1).trans h0)
    · exact (reg_kept hcb f .autoclose _ trivial).trans h0

theorem takeLine_reg (sep : Byte) (s : St) : (takeLine sep s).1.reg = s.reg := by
  unfold takeLine
  split
  · rfl
  · split <;> rfl

theorem getlineLoop_reg (hcb : ∀ s id, ∀ o ∈ cb s id, ∀ i, o ≠ .onclose i) (f : Nat) (sep : Byte) (ahead n : Nat) : ∀ (wait : Bool) (s : St),
    (getlineLoop dev (exec dev cb f) sep ahead n wait s).1.reg = s.reg := by
  induction n with
  | zero => intro wait s; rfl
  | succ n ih =>
    intro wait s
    unfold getlineLoop
    simp only []
    have r1 : (exec dev cb f .select { s with queueMin := s.inbuf.length + 1, tick := s.tick + 1 }).1.reg = s.reg := reg_kept hcb f .select _ trivial
    split
    · exact takeLine_reg _ _
    · split
      · exact takeLine_reg _ _
      · split
        · exact (takeLine_reg _ _).trans r1
        · split
          · split
            · exact (takeLine_reg _ _).trans ((uread_reg hcb f _ _).trans r1)
            · split
              · exact (uread_reg hcb f _ _).trans r1
              · exact (ih _ _).trans ((uread_reg hcb f _ _).trans r1)
          · split
            · exact r1
            · exact (ih _ _).trans r1

theorem run_reg (hcb : ∀ s id, ∀ o ∈ cb s id, ∀ i, o ≠ .onclose i) (f : Nat) (h : List TOp) : ∀ s, (run dev cb (f + 1) s h).1.reg = s.reg ++ registered h := by
  induction h with
  | nil => intro s; simp [run, registered]
  | cons o h ih =>
    intro s
    show (run dev cb (f + 1) (step dev cb (f + 1) s o).1 h).1.reg = _
    rw [ih]
    cases o with
    | op o =>
      cases o with
      | onclose id =>
        have : (step dev cb (f + 1) s (.op (.onclose id))).1.reg = s.reg ++ id.toList := by
          show (onclose cb (exec dev cb f) id s).reg = _
          unfold onclose
          simp only []
          split
          · rfl
          · cases id with
            | none => rfl
            | some id => exact reg_kept hcb f (.ops _) _ (hcb _ _)
        rw [this]; simp [registered]
      | _ =>
        refine congrArg (· ++ registered h) ?_
        exact reg_kept hcb (f + 1) (.op _) s trivial
    | read n =>
      refine congrArg (· ++ registered h) ?_
      exact read_reg hcb (f + 1) n s
    | getline r w sep a =>
      refine congrArg (· ++ registered h) ?_
      exact (getlineLoop_reg hcb (f + 1) sep a r w _).trans (reg_kept hcb (f + 1) .autoclose s trivial)
    | unread b => rfl

end Str

variable (dev : Nat → Ans) (cb : St → Nat → List Op)

/-- **C29.** For every history of calls on a new stream and every behaviour of the device: as long as the stream is good, what the device took, followed by what is
in the output buffer, is what `write` accepted. -/
theorem C29_in_order (fuel : Nat) (h : List TOp) (hok : isok (run dev cb fuel new h).1 = true) :
    (run dev cb fuel new h).1.sent ++ (run dev cb fuel new h).1.outbuf = Str.accepted h (run dev cb fuel new h).2 := by
  have := (Str.run_rel (P := False) (dev := dev) (cb := cb) (fun h => h.elim) fuel h new).live hok
  simpa [Str.blank, new] using this

/-- **C29.** And whether the stream is still good or not, the device took the first so many of the bytes which `write` accepted. This is shown for devices which
do not call `close` or `seterr(0)` from a write that takes less than it was offered; `C29_gap_fails` is about the others. -/
theorem C29_prefix_partial (ht : Tidy dev) (fuel : Nat) (h : List TOp) :
    (run dev cb fuel new h).1.sent <+: Str.accepted h (run dev cb fuel new h).2 := by
  have := (Str.run_rel (P := True) (dev := dev) (cb := cb) (fun _ => ht) fuel h new).pre trivial
  simpa [Str.blank, new] using this

/-- **C29.** `write` never says that it accepted more than it was given. -/
theorem C29_count (fuel : Nat) (b : List Byte) (s : St) : (exec dev cb fuel (.write b) s).2 ≤ b.length :=
  ((exec_good (P := False) (dev := dev) (cb := cb) (fun h => h.elim) fuel).write b s).1

/-- **C29.** If `flush` says that it is done, and the stream is good, then the device has taken all that `write` accepted. -/
theorem C29_flush (fuel : Nat) (h : List TOp) (ms : Int)
    (hr : (exec dev cb fuel (.flush ms) (run dev cb fuel new h).1).2 = 1) (hok : isok (exec dev cb fuel (.flush ms) (run dev cb fuel new h).1).1 = true) :
    (exec dev cb fuel (.flush ms) (run dev cb fuel new h).1).1.sent = Str.accepted h (run dev cb fuel new h).2 := by
  obtain ⟨k1, k2⟩ := (exec_good (P := False) (dev := dev) (cb := cb) (fun h => h.elim) fuel).flush ms (run dev cb fuel new h).1
  have h1 := k1.live hok
  rw [k2 hr hok, C29_in_order dev cb fuel h (k1.ok hok)] at h1
  simpa using h1

/-- **C29.** If the device takes at least one byte each time, and does not close the stream, then `flush` without a limit of time gives it all there is. -/
theorem C29_flush_all (hd : ∀ i, 1 ≤ (dev i).n ∧ (dev i).acts = []) (fuel : Nat) (s : St) (hok : isok s = true) (hf : s.flushing = false) (hb : s.outbuf.length + 2 ≤ fuel) (ms : Int) (hms : ms < 0) :
    (exec dev cb fuel (.flush ms) s).2 = 1 ∧ (exec dev cb fuel (.flush ms) s).1.sent = s.sent ++ s.outbuf := by
  obtain ⟨f, rfl⟩ : ∃ g, fuel = g + 2 := ⟨fuel - 2, by omega⟩
  have hP : True → Tidy dev := by
    rintro _ i ⟨a, ha, _⟩
    rw [(hd i).2] at ha; simp at ha
  have g := exec_good (P := True) (cb := cb) hP f
  have quiet : ∀ s s' : St, Rel True s s' [] → s.outbuf = [] → s'.sent = s.sent := by
    intro s s' r hb
    have := r.pre trivial
    rw [hb, List.append_nil, List.append_nil] at this
    exact List.IsPrefix.eq_of_length this (Nat.le_antisymm this.length_le r.ext.length_le)
  have e1 : exec dev cb (f + 2) (.flush ms) s = ({ (flushOutbuf dev (exec dev cb f) ms { s with flushing := true, wantFlush := true }).1 with flushing := false },
      (flushOutbuf dev (exec dev cb f) ms { s with flushing := true, wantFlush := true }).2) := by
    show flush (exec dev cb (f + 1)) ms s = _
    unfold flush
    rw [if_neg (by simp [hf])]
    rfl
  rw [e1]
  show (flushOutbuf dev (exec dev cb f) ms _).2 = 1 ∧ (flushOutbuf dev (exec dev cb f) ms _).1.sent = _
  unfold flushOutbuf
  by_cases h1 : s.outbuf.isEmpty = true
  · have hb' : s.outbuf = [] := by simpa using h1
    rw [if_pos h1]
    by_cases h2 : (!s.autoclose && !s.delayed) = true
    · rw [if_pos h2]
      refine ⟨rfl, ?_⟩
      have := quiet _ _ (g.autoclose { s with flushing := true, wantFlush := true }).1 hb'
      show (exec dev cb f .autoclose { s with flushing := true, wantFlush := true }).1.sent = _
      rw [this, hb', List.append_nil]
    · rw [if_neg h2]
      refine ⟨rfl, ?_⟩
      have := quiet _ _ (flushEnd_good (dev := dev) g { s with flushing := true, wantFlush := true } true).1 hb'
      rw [this, hb', List.append_nil]
  · rw [if_neg h1]
    obtain ⟨l1, l2, l3⟩ := Str.loop_all (cb := cb) hd ms hms _ f { s with flushing := true, wantFlush := true } (Nat.le_refl _) (by show s.outbuf.length ≤ f; omega) hok (by simpa using h1)
    simp only [l1]
    refine ⟨rfl, ?_⟩
    rw [quiet _ _ (flushEnd_good g _ _).1 l2, l3]

/-- **C29.** With a limit on the output buffer (set before anything is written), there is never more than that in the buffer of a good stream: what `write` accepts beyond
it has gone to the device. -/
theorem C29_limit (fuel : Nat) (n : Nat) (hn : n ≠ 0) (hn2 : n < 2 ^ 64) (h : List TOp) (hl : ∀ k, TOp.op (.limit k) ∉ h)
    (hok : isok (run dev cb fuel { new with max := n } h).1 = true) : (run dev cb fuel { new with max := n } h).1.outbuf.length ≤ n := by
  have key : ∀ (h : List TOp) (s : St), (∀ k, TOp.op (.limit k) ∉ h) → s.max = n → s.outbuf.length ≤ n → isok (run dev cb fuel s h).1 = true →
      (run dev cb fuel s h).1.outbuf.length ≤ n := by
    intro h
    induction h with
    | nil => intro s _ _ hs _; exact hs
    | cons o h ih =>
      intro s hl hm hs hok
      have hok1 : isok (step dev cb fuel s o).1 = true :=
        (Str.run_rel (P := False) (dev := dev) (cb := cb) (fun h => h.elim) fuel h (step dev cb fuel s o).1).ok hok
      have g := exec_good (P := False) (dev := dev) (cb := cb) (fun h => h.elim) fuel
      have fewer : ∀ s' : St, Str.RelW False s s' [] → isok s' = true → s'.outbuf.length ≤ n := by
        intro s' r hk
        have h1 := congrArg List.length (r.live hk)
        have h2 := r.ext.length_le
        simp only [Str.blank, List.append_nil, List.length_append] at h1 h2
        omega
      refine ih _ (fun k hk => hl k (by simp [hk])) ?_ ?_ hok
      · rw [← hm]
        exact Str.step_max fuel s o (fun k hk => hl k (by simp [hk])) hok1
      · cases o with
        | op o =>
          cases o with
          | write b =>
            match fuel, hok1 with
            | 0, _ => exact hs
            | 1, _ => exact hs
            | f + 2, hok1 => exact Str.write_limit f b s n hn hn2 hm hs hok1
          | _ => exact fewer _ (Str.toW (g.op _ s).1) hok1
        | read k =>
          obtain ⟨p, r, _⟩ := Str.read_reads (dev := dev) g k s
          exact fewer _ r.rel hok1
        | getline r w sep a =>
          obtain ⟨p, d, r, _⟩ := Str.getline_reads (dev := dev) g r w sep a s
          exact fewer _ r.rel hok1
        | unread b => exact hs
  exact key h _ hl rfl (by simp [new]) hok


/-- **C29.** Lowering the limit below what is in the buffer lifts it: `write` then accepts anything, and the buffer grows beyond both the old and the new limit. -/
theorem C29_limit_fails : ∃ (dev : Nat → Ans) (h : List TOp), (run dev (fun _ _ => []) 10 new h).1.max = 1 ∧ (run dev (fun _ _ => []) 10 new h).1.outbuf.length = 7 ∧
    isok (run dev (fun _ _ => []) 10 new h).1 = true :=
  ⟨fun _ => ⟨0, 0, [], [], false, false⟩, [.op (.limit 2), .op (.write [1, 2]), .op (.limit 1), .op (.write [3, 4, 5, 6, 7])], by decide +kernel⟩

/-- **C29.** With a device that closes the stream, with no error, from a write that takes less than it was offered, and with automatic flushing off, bytes are lost before others that are sent:
`close` flushes what is left in the buffer, but the piece being written is not there. -/
theorem C29_gap_fails : ∃ (dev : Nat → Ans) (h : List TOp), ¬ (run dev (fun _ _ => []) 10 new h).1.sent <+: Str.accepted h (run dev (fun _ _ => []) 10 new h).2 := by
  refine ⟨fun i => if i = 0 then ⟨0, 0, [], [], false, false⟩ else if i = 1 then ⟨0, 1, [], [.seterr 0], false, false⟩ else ⟨5, 5, [], [], false, false⟩,
    [.op (.autoFlush false), .op (.write [1, 2, 3])], ?_⟩
  decide +kernel

/-- **C30.** For every history of calls on a new stream and every behaviour of the device: what the device produced and what was put back wait in one queue, and what `read` and
`getline` return comes from the head of it. What they have not returned yet is in the buffer. -/
theorem C30_queue (fuel : Nat) (h : List TOp) : replay (run dev cb fuel new h).1.io [] = some (run dev cb fuel new h).1.inbuf :=
  Str.run_queue fuel h new rfl

/-- **C30.** So if nothing is put back, then what is returned, followed by what is in the buffer, is what the device produced: no byte is lost, repeated or moved. -/
theorem C30_order (fuel : Nat) (h : List TOp) (hn : Str.NoUnread h) :
    returned (run dev cb fuel new h).1.io ++ (run dev cb fuel new h).1.inbuf = produced (run dev cb fuel new h).1.io :=
  Str.run_plain fuel h new hn rfl

/-- **C30.** `read` returns at most as many bytes as it was asked for, and these are what is recorded as returned. -/
theorem C30_read (fuel n : Nat) (s : St) : (Stream.read dev (exec dev cb fuel) n s).2.length ≤ n ∧
    returned (Stream.read dev (exec dev cb fuel) n s).1.io = returned s.io ++ (Stream.read dev (exec dev cb fuel) n s).2 := by
  obtain ⟨p, k, hk⟩ := Str.read_reads (dev := dev) (exec_good (P := False) (dev := dev) (cb := cb) (fun h => h.elim) fuel) n s
  exact ⟨hk, k.ret⟩

/-- **C30.** `read` never returns less than the minimum that was asked for with `queuemin`, unless it returns nothing or less was wanted; what has come in
meanwhile stays in the buffer. -/
theorem C30_queuemin (fuel n : Nat) (s : St) (hs : s.inbuf.length + ((dev s.tick).data.take (s.queueMin - s.inbuf.length)).length < s.queueMin)
    (hq : (uread dev (exec dev cb fuel) (s.queueMin - s.inbuf.length) s).1.queueMin = s.queueMin) :
    (Stream.read dev (exec dev cb fuel) n s).2 = [] ∧ (Stream.read dev (exec dev cb fuel) n s).1.inbuf = s.inbuf ++ (dev s.tick).data.take (s.queueMin - s.inbuf.length) := by
  have g := exec_good (P := False) (dev := dev) (cb := cb) (fun h => h.elim) fuel
  obtain ⟨u1, u2, u3, u4⟩ := Str.uread_spec (dev := dev) g (s.queueMin - s.inbuf.length) s
  have hd : (uread dev (exec dev cb fuel) (s.queueMin - s.inbuf.length) s).2 = (dev s.tick).data.take (s.queueMin - s.inbuf.length) := rfl
  unfold Stream.read
  simp only []
  have h1 : s.inbuf.length < s.queueMin := by omega
  simp only [h1, if_true]
  rw [if_pos (by rw [hq, u2, hd, List.length_append]; exact hs)]
  refine ⟨rfl, ?_⟩
  rw [(g.autoclose _).1.inb]
  show (uread dev (exec dev cb fuel) (s.queueMin - s.inbuf.length) s).1.inbuf ++ _ = _
  rw [u2, hd]

/-- **C30.** What `getline` does: if it returns nothing, it takes nothing from the queue. If it returns a line, the separator is not in it, and either the line and the separator are taken from the
queue, or the line is all there was, and the stream is not good or has nothing more to read. -/
theorem C30_getline (fuel rounds : Nat) (wait : Bool) (sep : Byte) (ahead : Nat) (s : St) :
    match (getline dev (exec dev cb fuel) rounds wait sep ahead s).2 with
    | none => returned (getline dev (exec dev cb fuel) rounds wait sep ahead s).1.io = returned s.io
    | some l => sep ∉ l ∧ (returned (getline dev (exec dev cb fuel) rounds wait sep ahead s).1.io = returned s.io ++ (l ++ [sep]) ∨
        (returned (getline dev (exec dev cb fuel) rounds wait sep ahead s).1.io = returned s.io ++ l ∧ (getline dev (exec dev cb fuel) rounds wait sep ahead s).1.inbuf = [] ∧
          (isok (getline dev (exec dev cb fuel) rounds wait sep ahead s).1 = false ∨ (getline dev (exec dev cb fuel) rounds wait sep ahead s).1.stopRead = true))) := by
  obtain ⟨p, d, k, k1, k2⟩ := Str.getline_reads (dev := dev) (exec_good (P := False) (dev := dev) (cb := cb) (fun h => h.elim) fuel) rounds wait sep ahead s
  cases hl : (getline dev (exec dev cb fuel) rounds wait sep ahead s).2 with
  | none =>
    show returned _ = _
    rw [k.ret, k1 hl, List.append_nil]
  | some l =>
    obtain ⟨h1, h2⟩ := k2 l hl
    refine ⟨h1, ?_⟩
    rcases h2 with rfl | ⟨rfl, h3, h4⟩
    · exact Or.inl k.ret
    · exact Or.inr ⟨k.ret, h3, h4⟩

/-- **C31.** Once a stream is not good, whatever is called: it is never good again, the device gets nothing more, the error does not change, and `write` accepts nothing. -/
theorem C31_dead (fuel : Nat) (s : St) (h : List TOp) (hs : isok s = false) :
    isok (run dev cb fuel s h).1 = false ∧ (run dev cb fuel s h).1.sent = s.sent ∧ (s.err ≠ 0 → (run dev cb fuel s h).1.err = s.err) ∧
      Str.accepted h (run dev cb fuel s h).2 = [] := by
  have r := Str.run_rel (P := False) (dev := dev) (cb := cb) (fun h => h.elim) fuel h s
  exact ⟨(r.dead hs).1, (r.dead hs).2, r.err, Str.run_dead_writes fuel h s hs⟩

/-- **C31.** `close` closes. -/
theorem C31_close (fuel : Nat) (s : St) : (exec dev cb (fuel + 2) (.op .close) s).1.closed = true :=
  (close_good (cb := cb) (exec_good (P := False) (dev := dev) (cb := cb) (fun h => h.elim) fuel) s).2

/-- **C31.** The first error is kept, and closes the stream. -/
theorem C31_seterr (fuel : Nat) (s : St) (e : Nat) (he : e ≠ 0) :
    (s.err = 0 → (exec dev cb (fuel + 3) (.op (.seterr e)) s).1.err = e ∧ (exec dev cb (fuel + 3) (.op (.seterr e)) s).1.closed = true) ∧
    (s.err ≠ 0 → (exec dev cb (fuel + 3) (.op (.seterr e)) s).1 = s) := by
  have hx : exec dev cb (fuel + 3) (.op (.seterr e)) s = seterr (exec dev cb (fuel + 1)) e s := rfl
  rw [hx]
  unfold seterr
  refine ⟨fun h => ?_, fun h => ?_⟩
  · rw [if_pos (by simp [h])]
    have k := close_good (cb := cb) (exec_good (P := False) (dev := dev) (cb := cb) (fun h => h.elim) fuel) { s with err := e }
    exact ⟨k.1.err he, k.2⟩
  · rw [if_neg (by simp [h])]

/-- **C31.** For every history on a new stream: a close callback that was set has been called once, or given back once by setting another, or is still set; and none is still set on a closed stream. In `reg`
are all that were set. So none is called twice, and on a closed stream each has been called unless it was replaced. -/
theorem C31_once (fuel : Nat) (h : List TOp) (id : Nat) :
    (run dev cb fuel new h).1.called.count id + (run dev cb fuel new h).1.replaced.count id ≤ (run dev cb fuel new h).1.reg.count id ∧
    ((run dev cb fuel new h).1.closed = true → (run dev cb fuel new h).1.called.count id + (run dev cb fuel new h).1.replaced.count id = (run dev cb fuel new h).1.reg.count id) := by
  have r := Str.run_rel (P := False) (dev := dev) (cb := cb) (fun h => h.elim) fuel h new
  have h1 : RegOk (run dev cb fuel new h).1 := r.reg (List.Perm.refl _)
  have h2 := List.Perm.count_eq h1 id
  rw [List.count_append, List.count_append] at h2
  refine ⟨by omega, ?_⟩
  intro hc
  have h3 : (run dev cb fuel new h).1.closecb = none := r.cbk (fun h => by simp [Str.blank, new] at h) hc
  rw [h3] at h2
  simpa using h2.symm

/-- **C31.** If callbacks do not set callbacks, then `reg` is the list of those that the history sets. -/
theorem C31_set (hcb : ∀ s id, ∀ o ∈ cb s id, ∀ i, o ≠ .onclose i) (fuel : Nat) (h : List TOp) : (run dev cb (fuel + 1) new h).1.reg = Str.registered h := by
  rw [Str.run_reg hcb fuel h new]; rfl

namespace Str

/-- A device that takes two bytes at a time and produces two lines. -/
def twos : Nat → Ans := fun _ => ⟨2, 2, [65, 10, 66], [], true, false⟩

/-- A device that takes one byte, then nothing, then has an error. -/
def stuck : Nat → Ans := fun i => if i = 0 then ⟨1, 1, [], [], false, false⟩ else if i < 3 then ⟨0, 3, [], [], false, false⟩ else ⟨0, 3, [], [.seterr 5], false, false⟩

def quietCb : St → Nat → List Op := fun _ _ => [.write [9], .close]

def story : List TOp := [.op (.onclose (some 7)), .op (.write [1, 2, 3, 4, 5]), .op (.onclose (some 8)), .getline 5 true 10 100, .read 1]

end Str

open Str

-- Five bytes accepted, four sent; a line read.
example : isok (run twos quietCb 10 new story).1 = true ∧ (run twos quietCb 10 new story).1.sent ++ (run twos quietCb 10 new story).1.outbuf = [1, 2, 3, 4, 5] ∧
    (run twos quietCb 10 new story).1.sent ≠ [] ∧ returned (run twos quietCb 10 new story).1.io = [65, 10, 66] := by decide +kernel
example : Tidy twos := by rintro i ⟨a, ha, _⟩; simp [twos] at ha
-- The device has an error: one byte sent, then the callback is called once, and its write is refused.
example : (run stuck quietCb 10 new (story ++ [.op (.flush (-1))])).1.sent = [1] ∧ (run stuck quietCb 10 new (story ++ [.op (.flush (-1))])).1.err = 5 ∧
    (run stuck quietCb 10 new (story ++ [.op (.flush (-1))])).1.called = [8] ∧ (run stuck quietCb 10 new (story ++ [.op (.flush (-1))])).1.replaced = [7] := by decide +kernel
example : ∀ i, 1 ≤ (twos i).n ∧ (twos i).acts = [] := fun i => ⟨by simp [twos], rfl⟩
example : (exec twos quietCb 9 (.flush (-1)) { new with outbuf := [1, 2, 3, 4, 5] }).1.sent = [1, 2, 3, 4, 5] := by decide +kernel
-- A limit of three: five of eight bytes are accepted, two of them sent.
example : (run (fun i => if i = 0 then ⟨2, 2, [], [], true, false⟩ else ⟨0, 2, [], [], true, false⟩) quietCb 10 { new with max := 3 } [.op (.write [1, 2, 3, 4, 5, 6, 7, 8])]).2 = [5] := by decide +kernel
example : (Stream.read twos (exec twos quietCb 5) 10 { new with queueMin := 9 }).2 = [] ∧ (Stream.read twos (exec twos quietCb 5) 10 { new with queueMin := 2 }).2 = [65, 10] := by decide +kernel
example : (getline twos (exec twos quietCb 5) 5 true 10 100 new).2 = some [65] := by decide +kernel

end Props
