import Verif.Lemmas.Buf.Any
/-
C10, C11 and C12: buffers are FIFO queues with undo, and merging them conserves bytes.
-/
namespace Props
open Wv Wv.Buf Spec.Queue
open Store (used ungettable free optpeekable)

/-- Throughout a history `ops` of a family of buffers `B` of kinds `K`, where each buffer stands for a queue `Qs i` and `T i`
    are the bytes taken from it: `P` holds at every point, and every call that is legal succeeds, and returns and leaves what
    the specification says. Nothing is claimed after an illegal call. -/
def Always (K : Nat → Kind) (P : (Nat → Any) → (Nat → Q) → (Nat → List UInt8) → Prop) :
    (Nat → Any) → (Nat → Q) → (Nat → List UInt8) → List FOp → Prop
  | B, Qs, T, [] => P B Qs T
  | B, Qs, T, .on i op :: ops => P B Qs T ∧ (Legal (K i) (optpeekable (B i)) (Qs i) op →
      ∃ out b q, (B i).exec op = some (out, b) ∧ Step (Qs i) op out q ∧
        Always K P (upd B i b) (upd Qs i q) (upd T i (taken op out (T i))) ops)
  | B, Qs, T, .merge i j n :: ops => P B Qs T ∧ (i ≠ j → n ≤ (Qs j).queue.length → n ≤ room (K i) (Qs i) →
      ∃ bi bj qi qj, Any.merge (B i) (B j) n = some (bi, bj) ∧ MergeStep (Qs i) (Qs j) n qi qj ∧
        Always K P (upd (upd B i bi) j bj) (upd (upd Qs i qi) j qj) (upd T j (T j ++ (Qs j).queue.take n)) ops)

/-- A family of new buffers of kinds `K` holding `D`. -/
def Fresh (K : Nat → Kind) (D : Nat → List UInt8) (B : Nat → Any) : Prop :=
  ∀ i, Any.init (K i) (D i) = some (B i) ∧
    match K i with
    | .inplace _ => True
    | .circular cap => 0 < cap
    | .dynamic g _ _ => 0 < g

/-- What links the model to the specification. -/
def Linked (K : Nat → Kind) (B : Nat → Any) (Qs : Nat → Q) (T : Nat → List UInt8) : Prop :=
  ∀ i, (B i).AInv ∧ (B i).kind = K i ∧ (B i).abs = Qs i ∧ (Qs i).hist <:+ T i

theorem upd_same {α : Type} (f : Nat → α) (i : Nat) (a : α) : upd f i a i = a := by simp [upd]
theorem upd_other {α : Type} (f : Nat → α) (i j : Nat) (a : α) (h : j ≠ i) : upd f i a j = f j := by simp [upd, h]

theorem suffix_of_drop (h t : List UInt8) (k : Nat) (hs : h <:+ t) : h.drop k <:+ t := (List.drop_suffix k h).trans hs

theorem taken_suffix (q q' : Q) (op : Op) (out t : List UInt8) (hs : q.hist <:+ t) (st : Step q op out q')
    (hneg : ∀ d off, op = .poke d off → -(q.hist.length : Int) ≤ off)
    (hung : ∀ n, op = .unget n → n ≤ q.hist.length) : q'.hist <:+ taken op out t := by
  cases op with
  | put d => obtain ⟨-, -, k, e⟩ := st; rw [e]; exact suffix_of_drop _ _ _ hs
  | alloc d => obtain ⟨-, -, k, e⟩ := st; rw [e]; exact suffix_of_drop _ _ _ hs
  | unalloc n => obtain ⟨-, -, k, e⟩ := st; rw [e]; exact suffix_of_drop _ _ _ hs
  | peek o n => obtain ⟨-, -, k, e⟩ := st; rw [e]; exact suffix_of_drop _ _ _ hs
  | copy o n => obtain ⟨-, -, k, e⟩ := st; rw [e]; exact suffix_of_drop _ _ _ hs
  | zap => obtain ⟨-, -, e⟩ := st; rw [e]; exact List.nil_suffix
  | get n =>
    obtain ⟨e1, -, k, e⟩ := st
    rw [e, ← e1]
    obtain ⟨r, hr⟩ := suffix_of_drop _ _ k hs
    exact ⟨r, by rw [← hr]; simp [taken]⟩
  | unget n =>
    obtain ⟨-, e, -⟩ := st
    have hn := hung n rfl
    obtain ⟨r, hr⟩ := hs
    refine ⟨r, ?_⟩
    rw [e, ← hr]
    simp only [taken, List.length_append]
    rw [show r.length + q.hist.length - n = r.length + (q.hist.length - n) by omega, List.take_length_add_append]
  | poke d off =>
    obtain ⟨-, k, e, ek⟩ := st
    have ho := hneg d off rfl
    have e1 : q'.hist = ((over (q.hist ++ q.queue) (q.hist.length + off).toNat d).take q.hist.length).drop k := by
      have : q'.hist = (q'.hist ++ q'.queue).take q'.hist.length := by simp
      rw [this, e, List.take_drop]
      congr 2
      omega
    obtain ⟨r, hr⟩ := hs
    rw [e1]
    simp only [taken]
    split
    · rename_i hlt
      refine suffix_of_drop _ _ _ ⟨r, ?_⟩
      have a : (q.hist.length + off).toNat ≤ q.hist.length := by omega
      rw [← hr]
      have b : ((r ++ q.hist).length + off).toNat = r.length + (q.hist.length + off).toNat := by
        rw [List.length_append]; omega
      rw [b]
      simp only [over, List.append_assoc]
      rw [List.take_length_add_append, List.append_assoc, List.length_append, List.take_length_add_append]
      congr 1
      apply List.ext_getElem?
      intro j
      simp only [List.getElem?_take]
      split
      · rename_i hj
        simp only [List.getElem?_append, List.length_take, List.getElem?_take, List.getElem?_drop, List.length_append]
        rw [show r.length + (q.hist.length + off).toNat + d.length = r.length + ((q.hist.length + off).toNat + d.length) by omega]
        have hm1 : min (q.hist.length + off).toNat (q.hist.length + q.queue.length) = (q.hist.length + off).toNat := by omega
        have hm2 : min (q.hist.length + off).toNat q.hist.length = (q.hist.length + off).toNat := by omega
        rw [hm1, hm2]
        generalize (q.hist.length + off).toNat = a at *
        repeat' split
        all_goals first
          | rfl
          | (exfalso; omega)
          | (congr 1; omega)
      · rfl
    · rename_i hge
      have a : q.hist.length ≤ (q.hist.length + off).toNat := by omega
      have : (over (q.hist ++ q.queue) (q.hist.length + off).toNat d).take q.hist.length = q.hist := by
        unfold over
        rw [List.append_assoc, List.take_append_of_le_length (by simp; omega), List.take_take, Nat.min_eq_left a,
          List.take_left]
      rw [this]
      exact suffix_of_drop _ _ _ ⟨r, hr⟩

theorem always_of_linked (K : Nat → Kind) (P : (Nat → Any) → (Nat → Q) → (Nat → List UInt8) → Prop)
    (hP : ∀ B Qs T, Linked K B Qs T → P B Qs T) (ops : List FOp) :
    ∀ B Qs T, Linked K B Qs T → Always K P B Qs T ops := by
  induction ops with
  | nil => intro B Qs T h; exact hP B Qs T h
  | cons op ops ih =>
    intro B Qs T h
    cases op with
    | on i op =>
      refine ⟨hP B Qs T h, fun hl => ?_⟩
      obtain ⟨h1, h2, h3, h4⟩ := h i
      rw [← h2, ← h3] at hl
      obtain ⟨out, b, e1, e2, e3⟩ := Any.exec_law (B i) op h1 hl
      rw [h3] at e3 hl
      refine ⟨out, b, b.abs, e1, e3, ih _ _ _ fun j => ?_⟩
      by_cases hj : j = i
      · subst hj
        simp only [upd_same]
        refine ⟨e2, by rw [Any.exec_kind _ _ _ _ e1, h2], trivial, taken_suffix _ _ _ _ _ h4 e3 ?_ ?_⟩
        · intro d off he; subst he; exact hl.1
        · intro n he; subst he; exact hl
      · simp only [upd_other _ _ _ _ hj]; exact h j
    | merge i j n =>
      refine ⟨hP B Qs T h, fun hij hn hr => ?_⟩
      obtain ⟨h1, h2, h3, h4⟩ := h i
      obtain ⟨g1, g2, g3, g4⟩ := h j
      rw [← g3] at hn
      rw [← h2, ← h3] at hr
      obtain ⟨bi, bj, e1, e2, e3, e4⟩ := Any.merge_law (B i) (B j) n h1 g1 hn hr
      have ek := Any.merge_kind _ _ _ _ _ e1
      rw [h3, g3] at e4
      refine ⟨bi, bj, bi.abs, bj.abs, e1, e4, ih _ _ _ fun l => ?_⟩
      by_cases hj : l = j
      · subst hj
        simp only [upd_same]
        refine ⟨e3, by rw [ek.2, g2], trivial, ?_⟩
        obtain ⟨-, -, -, k, e⟩ := e4
        rw [e]
        refine suffix_of_drop _ _ _ ?_
        obtain ⟨r, hr⟩ := g4
        exact ⟨r, by rw [← hr, List.append_assoc]⟩
      · simp only [upd_other _ _ _ _ hj]
        by_cases hi : l = i
        · subst hi
          simp only [upd_same]
          obtain ⟨-, -, ⟨k, e⟩, -⟩ := e4
          exact ⟨e2, by rw [ek.1, h2], trivial, by rw [e]; exact suffix_of_drop _ _ _ h4⟩
        · simp only [upd_other _ _ _ _ hi]; exact h l

theorem linked_fresh (K : Nat → Kind) (D : Nat → List UInt8) (B : Nat → Any) (hB : Fresh K D B) :
    Linked K B (fun i => ⟨[], D i⟩) (fun _ => []) := by
  intro i
  obtain ⟨h1, h2⟩ := hB i
  have hm : Any.MakeOk (K i) (D i) := by
    revert h1 h2
    unfold Any.init Any.MakeOk
    cases K i with
    | inplace cap =>
      intro h1 _
      simp only [Option.map_eq_some_iff] at h1
      obtain ⟨a, h1, -⟩ := h1
      unfold InPlace.reset at h1
      split at h1
      · assumption
      · cases h1
    | circular cap =>
      intro h1 h2
      simp only [Option.map_eq_some_iff] at h1
      obtain ⟨a, h1, -⟩ := h1
      unfold Circ.reset at h1
      split at h1
      · exact ⟨by assumption, h2⟩
      · cases h1
    | dynamic g lo hi =>
      intro h1 h2
      dsimp only at h1
      split at h1
      · simp only [Option.map_eq_some_iff] at h1
        obtain ⟨a, h1, -⟩ := h1
        unfold Dyn.empty at h1
        split at h1
        · exact ⟨by assumption, by assumption, h2⟩
        · cases h1
      · cases h1
  obtain ⟨s, e1, e2, e3, e4⟩ := Any.init_law (K i) (D i) hm
  rw [h1] at e1
  cases e1
  exact ⟨e2, e3, e4, List.nil_suffix⟩

/-- C10: whatever legal calls are made on any number of buffers of any kinds and sizes, each call does to its buffer exactly
    what it does to a queue, and used(), ungettable() and free() are at every point the number of bytes in the queue, in
    its undo area, and the room left. -/
theorem C10_buffers_are_queues_partial (K : Nat → Kind) (D : Nat → List UInt8) (B : Nat → Any) (hB : Fresh K D B) (ops : List FOp) :
    Always K (fun B Qs _ => ∀ i, used (B i) = (Qs i).queue.length ∧ ungettable (B i) = (Qs i).hist.length ∧
      free (B i) = room (K i) (Qs i)) B (fun i => ⟨[], D i⟩) (fun _ => []) ops := by
  refine always_of_linked K _ ?_ ops _ _ _ (linked_fresh K D B hB)
  intro B Qs T h i
  obtain ⟨h1, h2, h3, -⟩ := h i
  rw [← h2, ← h3]
  exact ⟨Any.used_eq _ h1, Any.ungettable_eq _ h1, Any.free_eq _ h1⟩

/-- C11: at every point of every history, unget of up to ungettable() bytes succeeds and the next bytes read are the last
    ones taken, in their order. -/
theorem C11_unget_restores (K : Nat → Kind) (D : Nat → List UInt8) (B : Nat → Any) (hB : Fresh K D B) (ops : List FOp) :
    Always K (fun B _ T => ∀ i n, n ≤ ungettable (B i) → ∃ b b', Store.unget (B i) n = some b ∧
      getBytes b n = some ((T i).drop ((T i).length - n), b') ∧ used b = used (B i) + n) B (fun i => ⟨[], D i⟩) (fun _ => []) ops := by
  refine always_of_linked K _ ?_ ops _ _ _ (linked_fresh K D B hB)
  intro B Qs T h i n hn
  obtain ⟨h1, h2, h3, r, hr⟩ := h i
  rw [Any.ungettable_eq _ h1] at hn
  obtain ⟨b, e1, e2, e3, e4⟩ := Lawful.unget_law (B i) n h1 hn
  have e4 : b.abs.queue = (B i).abs.hist.drop ((B i).abs.hist.length - n) ++ (B i).abs.queue := e4
  have hl : ((B i).abs.hist.drop ((B i).abs.hist.length - n)).length = n := by rw [List.length_drop]; omega
  have hu : used b = used (B i) + n := by
    rw [Any.used_eq _ e2, Any.used_eq _ h1, e4, List.length_append, hl, Nat.add_comm]
  obtain ⟨b', f1, -⟩ := getBytes_law b n e2 (by change n ≤ b.abs.queue.length; rw [e4, List.length_append, hl]; omega)
  refine ⟨b, b', e1, ?_, hu⟩
  rw [f1]
  congr 2
  change b.abs.queue.take n = _
  have ht : (B i).abs.hist.drop ((B i).abs.hist.length - n) = (T i).drop ((T i).length - n) := by
    rw [← hr, ← h3, List.length_append, show r.length + (B i).abs.hist.length - n = r.length + ((B i).abs.hist.length - n) by omega,
      List.drop_length_add_append]
  rw [e4, List.take_append_of_le_length (by omega), List.take_of_length_le (by omega), ht]

/-- C11: at every point of every history, a get of `k` bytes followed by an unget of `j ≤ k` of them succeeds and takes the
    first `k - j` bytes of the contents away: all of the contents are back when `j = k`. -/
theorem C11_get_unget (K : Nat → Kind) (D : Nat → List UInt8) (B : Nat → Any) (hB : Fresh K D B) (ops : List FOp) :
    Always K (fun B Qs _ => ∀ i k j, j ≤ k → k ≤ used (B i) → ∃ b b' b'', getBytes (B i) k = some ((Qs i).queue.take k, b) ∧
      Store.unget b j = some b' ∧ getBytes b' (used b') = some ((Qs i).queue.drop (k - j), b''))
      B (fun i => ⟨[], D i⟩) (fun _ => []) ops := by
  refine always_of_linked K _ ?_ ops _ _ _ (linked_fresh K D B hB)
  intro B Qs T h i k j hj hk
  obtain ⟨h1, h2, h3, -⟩ := h i
  rw [Any.used_eq _ h1] at hk
  obtain ⟨b, e1, e2, e3, ⟨m, e4⟩, -⟩ := getBytes_law (B i) k h1 hk
  have e3 : b.abs.queue = (Qs i).queue.drop k := by rw [← h3]; exact e3
  have e4 : b.abs.hist = (Qs i).hist.drop m ++ (Qs i).queue.take k := by rw [← h3]; exact e4
  rw [h3] at hk
  have hl : ((Qs i).queue.take k).length = k := by rw [List.length_take]; omega
  obtain ⟨b', f1, f2, -, f4⟩ := Lawful.unget_law b j e2 (by
    change j ≤ b.abs.hist.length
    rw [e4, List.length_append, hl]; omega)
  have f4 : b'.abs.queue = b.abs.hist.drop (b.abs.hist.length - j) ++ b.abs.queue := f4
  have hq : b'.abs.queue = (Qs i).queue.drop (k - j) := by
    rw [f4, e3, e4, List.length_append, hl, show ((Qs i).hist.drop m).length + k - j = ((Qs i).hist.drop m).length + (k - j) by omega,
      List.drop_length_add_append, List.drop_take, show k - (k - j) = j by omega]
    have : (Qs i).queue.drop k = ((Qs i).queue.drop (k - j)).drop j := by rw [List.drop_drop]; congr 1; omega
    rw [this, List.take_append_drop]
  obtain ⟨b'', g1, -⟩ := getBytes_law b' (used b') f2 (Nat.le_of_eq (Any.used_eq _ f2))
  refine ⟨b, b', b'', by rw [e1]; congr 2; exact congrArg (fun q => q.queue.take k) h3, f1, ?_⟩
  rw [g1]
  congr 2
  change b'.abs.queue.take _ = _
  rw [Any.used_eq _ f2, List.take_length, hq]

/-- C12: at every point of every history, merging up to the bytes there are and there is room for from one buffer to another
    takes exactly the first `n` bytes of the one and appends them to the other. Reading both buffers out shows it. -/
theorem C12_merge_conserves (K : Nat → Kind) (D : Nat → List UInt8) (B : Nat → Any) (hB : Fresh K D B) (ops : List FOp) :
    Always K (fun B Qs _ => ∀ i j n, i ≠ j → n ≤ used (B j) → n ≤ free (B i) → ∃ bi bj bi' bj',
      Any.merge (B i) (B j) n = some (bi, bj) ∧
      getBytes bi (used bi) = some ((Qs i).queue ++ (Qs j).queue.take n, bi') ∧
      getBytes bj (used bj) = some ((Qs j).queue.drop n, bj')) B (fun i => ⟨[], D i⟩) (fun _ => []) ops := by
  refine always_of_linked K _ ?_ ops _ _ _ (linked_fresh K D B hB)
  intro B Qs T h i j n _ hn hr
  obtain ⟨h1, h2, h3, -⟩ := h i
  obtain ⟨g1, g2, g3, -⟩ := h j
  rw [Any.used_eq _ g1] at hn
  rw [Any.free_eq _ h1] at hr
  obtain ⟨bi, bj, e1, e2, e3, e4, e5, -⟩ := Any.merge_law (B i) (B j) n h1 g1 hn hr
  rw [h3, g3] at e4
  rw [g3] at e5
  obtain ⟨bi', f1, -⟩ := getBytes_law bi (used bi) e2 (Nat.le_of_eq (Any.used_eq _ e2))
  obtain ⟨bj', f2, -⟩ := getBytes_law bj (used bj) e3 (Nat.le_of_eq (Any.used_eq _ e3))
  refine ⟨bi, bj, bi', bj', e1, ?_, ?_⟩
  · rw [f1]; congr 2
    change bi.abs.queue.take _ = _
    rw [Any.used_eq _ e2, List.take_length, e4]
  · rw [f2]; congr 2
    change bj.abs.queue.take _ = _
    rw [Any.used_eq _ e3, List.take_length, e5]

/-- A series of calls on one new buffer, and what each returned. -/
def calls (s : Any) : List Op → Option (List (List UInt8) × Any)
  | [] => some ([], s)
  | op :: ops => do
    let (out, s) ← s.exec op
    let (outs, s) ← calls s ops
    return (out :: outs, s)

/-- What a series of calls on a new buffer returns. -/
def outputs (k : Kind) (d : List UInt8) (ops : List Op) : Option (List (List UInt8)) :=
  (Any.init k d).bind fun s => (calls s ops).map Prod.fst

/-- C10 does not extend to peek at an offset into a dynamic buffer for bytes in more than one of its pieces: of six bytes,
    peeking the four at offset 1 fails an assertion. -/
theorem C10_dynamic_peek_across_pieces_fails :
    outputs (.dynamic 1 2 4) [] [.put [1, 2], .put [3, 4], .put [5, 6], .peek 0 6] = some [[], [], [], [1, 2, 3, 4, 5, 6]] ∧
    outputs (.dynamic 1 2 4) [] [.put [1, 2], .put [3, 4], .put [5, 6], .peek 1 4] = none := by decide +kernel

/-- C10, normalize(): at any point of any history, normalizing a circular buffer succeeds, keeps its contents, puts them in one
    piece at the start of its memory, and forgets the bytes that were read. -/
theorem C10_circular_normalize (K : Nat → Kind) (D : Nat → List UInt8) (B : Nat → Any) (h : Fresh K D B) (ops : List FOp) :
    Always K (fun B Qs _ => ∀ i s, B i = .circ s → ∃ s', s.normalize = some s' ∧ s'.data.slice 0 (Qs i).queue.length = (Qs i).queue ∧
      used s' = (Qs i).queue.length ∧ ungettable s' = 0 ∧ Any.AInv (.circ s') ∧ Any.abs (.circ s') = ⟨[], (Qs i).queue⟩)
      B (fun i => ⟨[], D i⟩) (fun _ => []) ops := by
  refine always_of_linked K _ ?_ ops B _ _ (linked_fresh K D B h)
  intro B Qs T hl i s hs
  obtain ⟨h1, -, h3, -⟩ := hl i
  rw [hs] at h1 h3
  have hi : s.CInv := h1
  obtain ⟨m', e, hm⟩ := Circ.compact_law s.data s.xsize s.head s.totalused hi.head (Nat.le_trans hi.used hi.init)
  have hq : (Qs i).queue = s.ccont := by rw [← h3]; rfl
  have hc : ({ s with data := m', totalinit := s.totalused, head := 0 } : Circ).ccont = s.ccont := by
    apply ring_congr
    intro j hj
    have hj : j < s.totalused := hj
    dsimp only
    have := hi.init
    have := hi.used
    rw [Nat.zero_add, Nat.mod_eq_of_lt (show j < s.xsize by omega)]
    exact hm j hj
  refine ⟨{ s with data := m', totalinit := s.totalused, head := 0 }, by simp [Circ.normalize, e], ?_, ?_, ?_, ?_, ?_⟩
  · rw [hq, Circ.cont_length]
    have := slice_ring m' s.xsize 0 0 s.totalused (Nat.zero_mod _) (by have := hi.init; have := hi.used; omega)
    rw [this]; exact hc
  · rw [hq, Circ.cont_length]; rfl
  · exact Nat.sub_self _
  · exact ⟨hi.pos, hi.pos, Nat.le_refl _, Nat.le_trans hi.used hi.init⟩
  · have hh : ({ s with data := m', totalinit := s.totalused, head := 0 } : Circ).chist = [] := by
      rw [← List.length_eq_zero_iff, Circ.hist_length]; exact Nat.sub_self _
    rw [hq]
    exact congr (congrArg Q.mk hh) hc

/-- C10: looking at bytes of an in-place buffer behind its end or before its start fails an assertion. -/
theorem C10_inplace_peek_checked (s : InPlace) (off : Int) (n : Nat) (hn : n ≠ 0)
    (h : (0 < off ∧ (used s : Int) ≤ off) ∨ off < -(ungettable s : Int)) : s.mutablepeek off n = none := by
  have hu : used s = s.writeidx - s.readidx := rfl
  have hg : ungettable s = s.readidx := rfl
  rw [hu, hg] at h
  unfold InPlace.mutablepeek
  rw [if_neg hn]
  rcases h with h | h
  · rw [if_neg (by rw [if_neg (by omega)]; omega)]
  · rw [if_neg (by rw [if_pos (by omega)]; omega)]

/-- C10 does not extend to peek at a negative offset into a dynamic buffer: with two bytes taken and five left, peeking all
    seven fails an assertion, though copying them works. -/
theorem C10_dynamic_peek_behind_fails :
    outputs (.dynamic 1 2 4) [] [.put [1, 2, 3, 4], .put [5, 6], .put [7], .get 2, .copy (-2) 7]
      = some [[], [], [], [1, 2], [1, 2, 3, 4, 5, 6, 7]] ∧
    outputs (.dynamic 1 2 4) [] [.put [1, 2, 3, 4], .put [5, 6], .put [7], .get 2, .peek (-2) 7] = none := by decide +kernel

/-- C10 does not extend to poke from a negative offset past the end of a circular buffer: there is room for the byte that is
    added, but adding it forgets the bytes that were read. -/
theorem C10_circular_poke_behind_past_end_fails :
    outputs (.circular 4) [1, 2, 3] [.get 2, .poke [7, 8] (-1)] = some [[1, 2], []] ∧
    outputs (.circular 4) [1, 2, 3] [.get 2, .poke [7, 8, 9] (-1)] = none := by decide +kernel

/-- C10: a circular buffer in a memory of no bytes divides by zero, even on get(0). -/
theorem C10_circular_empty_memory_fails : outputs (.circular 0) [] [.get 0] = none ∧ outputs (.inplace 0) [] [.get 0] = some [[]] := by
  decide +kernel

/-- C10, C12: after looking at the bytes already read from an empty circular buffer, which wrap around its end, and putting
    one byte, the buffer has a byte but cannot be merged from: an assertion fails. Without that look it can. -/
theorem C12_merge_after_peek_behind_fails :
    (do let s ← Any.init (.circular 4) [1, 2, 3, 4]
        let r ← calls s [.get 1, .put [5], .get 3, .get 1, .peek (-4) 4, .put [6]]
        let d ← Any.init (.circular 4) []
        return (r.1, used r.2, (Any.merge d r.2 1).isSome)) = some ([[1], [], [2, 3, 4], [5], [2, 3, 4, 5], []], 1, false) ∧
    (do let s ← Any.init (.circular 4) [1, 2, 3, 4]
        let r ← calls s [.get 1, .put [5], .get 3, .get 1, .put [6]]
        let d ← Any.init (.circular 4) []
        return (r.1, used r.2, (Any.merge d r.2 1).isSome)) = some ([[1], [], [2, 3, 4], [5], []], 1, true) := by
  decide +kernel

/-- A family with one buffer of each kind meets the hypotheses. -/
def sampleKinds : Nat → Kind
  | 0 => .inplace 5
  | 1 => .circular 4
  | _ => .dynamic 1 2 4

def sampleData : Nat → List UInt8
  | 0 => [1, 2, 3]
  | 1 => [4, 5, 6, 7]
  | _ => []

def sample (i : Nat) : Any := (Any.init (sampleKinds i) (sampleData i)).getD (.dyn ⟨[], 0, 0, 0, 0, 0⟩)

theorem sample_fresh : Fresh sampleKinds sampleData sample := by
  intro i
  match i with
  | 0 => exact ⟨rfl, trivial⟩
  | 1 => exact ⟨rfl, Nat.zero_lt_succ 3⟩
  | _ + 2 => exact ⟨rfl, Nat.zero_lt_succ 0⟩

/-- Calls that wrap around, compact, coalesce and steal pieces, all legal. -/
example : outputs (.circular 4) [4, 5, 6, 7] [.get 3, .alloc [8, 9], .unalloc 1, .put [1], .peek 0 3, .get 3, .unget 2, .copy (-1) 3]
      = some [[4, 5, 6], [], [], [], [7, 8, 1], [7, 8, 1], [], [7, 8, 1]] ∧
    outputs (.dynamic 1 2 4) [] [.put [1, 2, 3, 4], .put [5, 6], .put [7], .get 5, .unget 3, .poke [0, 0] 1, .copy 0 5]
      = some [[], [], [], [1, 2, 3, 4, 5], [], [], [3, 0, 0, 6, 7]] := by decide +kernel

example := C10_buffers_are_queues_partial sampleKinds sampleData sample sample_fresh
  [.on 1 (.get 3), .on 1 (.put [8, 9]), .merge 2 1 3, .on 2 (.get 1), .on 2 (.unget 1), .merge 0 2 2]

end Props
