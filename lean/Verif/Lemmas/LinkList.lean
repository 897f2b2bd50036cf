import Verif.Model.LinkList
namespace Wv.LinkList
open Spec.Cursor (Call Out It owned insertAt)
set_option linter.unusedSectionVars false
set_option linter.unusedSimpArgs false
variable {α : Type} [DecidableEq α]

abbrev Node (α : Type) := Nat × Option α × Bool

/-- The links from `p` up to `q`. -/
def Seg (mem : Nat → Option (Link α)) (p : Option Nat) : List (Node α) → Option Nat → Prop
  | [], q => p = q
  | n :: l, q => p = some n.1 ∧ ∃ nxt, mem n.1 = some ⟨n.2.1, nxt, n.2.2⟩ ∧ Seg mem nxt l q

theorem seg_append (mem : Nat → Option (Link α)) (l1 l2 : List (Node α)) (q : Option Nat) : ∀ p,
    Seg mem p (l1 ++ l2) q ↔ ∃ r, Seg mem p l1 r ∧ Seg mem r l2 q := by
  induction l1 with
  | nil => intro p; simp [Seg]
  | cons n l1 ih =>
    intro p
    simp only [List.cons_append, Seg, ih]
    constructor
    · rintro ⟨h1, nxt, h2, r, h3, h4⟩; exact ⟨r, ⟨h1, nxt, h2, h3⟩, h4⟩
    · rintro ⟨r, ⟨h1, nxt, h2, h3⟩, h4⟩; exact ⟨h1, nxt, h2, r, h3, h4⟩

theorem seg_congr (mem mem' : Nat → Option (Link α)) (l : List (Node α)) (q : Option Nat) (h : ∀ n ∈ l, mem' n.1 = mem n.1) :
    ∀ p, Seg mem p l q → Seg mem' p l q := by
  induction l with
  | nil => intro p hp; exact hp
  | cons n l ih =>
    rintro p ⟨h1, nxt, h2, h3⟩
    refine ⟨h1, nxt, ?_, ih (fun m hm => h m (List.mem_cons_of_mem _ hm)) nxt h3⟩
    rw [h n List.mem_cons_self]; exact h2

/-- The last link of a segment. -/
theorem seg_snoc (mem : Nat → Option (Link α)) (l : List (Node α)) (e : Node α) (p q : Option Nat) (h : Seg mem p (l ++ [e]) q) :
    mem e.1 = some ⟨e.2.1, q, e.2.2⟩ := by
  rw [seg_append] at h
  obtain ⟨r, -, h1, nxt, h2, h3⟩ := h
  simp only [Seg] at h3
  rw [← h3]; exact h2

/-- Changing `next` of the last link of a segment. -/
theorem seg_setNext (mem mem' : Nat → Option (Link α)) (l : List (Node α)) (e : Node α) (p q q' : Option Nat)
    (h : Seg mem p (l ++ [e]) q) (hne : e.1 ∉ l.map Prod.fst) (hmem : ∀ a ∈ l.map Prod.fst, mem' a = mem a)
    (he : mem' e.1 = some ⟨e.2.1, q', e.2.2⟩) : Seg mem' p (l ++ [e]) q' := by
  rw [seg_append] at h ⊢
  obtain ⟨r, h1, h2, -⟩ := h
  refine ⟨r, seg_congr mem mem' l r (fun n hn => hmem n.1 (List.mem_map_of_mem hn)) p h1, h2, q', he, rfl⟩

/-- The data of an element. -/
def emb (p : α × Bool) : Option α × Bool := (some p.1, p.2)

/-- The list object represents the sequence, by these links. -/
structure Rep (s : St α) (items : List (α × Bool)) (F : List (Node α)) : Prop where
  seg : Seg s.heap.mem (some 0) F none
  vals : F.map Prod.snd = (none, false) :: items.map emb
  zero : (F.map Prod.fst).head? = some 0
  nodup : (F.map Prod.fst).Nodup
  tail : (F.map Prod.fst).getLast? = some s.tail
  live : s.heap.live.Perm (F.map Prod.fst)

/-- The address belongs to the position. -/
def Pos (A : List Nat) (addr : Option Nat) (p : Option Nat) : Prop :=
  (p = none ∧ addr = none) ∨ ∃ i a, p = some i ∧ addr = some a ∧ A[i]? = some a

def PosIt (A : List Nat) (prev link : Option Nat) : It → Prop
  | .unset => True
  | .at p c => Pos A prev p ∧ Pos A link c

theorem Rep.length {s : St α} {items : List (α × Bool)} {F : List (Node α)} (h : Rep s items F) : F.length = items.length + 1 := by
  have := congrArg List.length h.vals
  simpa using this

theorem split_at {β : Type} (F : List β) (c : Nat) (h : c < F.length) : ∃ P e R, F = P ++ e :: R ∧ P.length = c := by
  refine ⟨F.take c, F[c], F.drop (c + 1), ?_, by simp; omega⟩
  rw [← List.drop_eq_getElem_cons h, List.take_append_drop]

theorem split_items (L1 L2 : List (Option α × Bool)) (items : List (α × Bool)) (c : Nat)
    (h : L1 ++ L2 = (none, false) :: items.map emb) (hc : L1.length = c + 1) :
    L1 = (none, false) :: (items.take c).map emb ∧ L2 = (items.drop c).map emb := by
  have hlen : c ≤ items.length := by
    have := congrArg List.length h
    simp at this; omega
  have : L1 ++ L2 = ((none, false) :: (items.take c).map emb) ++ (items.drop c).map emb := by
    rw [h, List.cons_append, ← List.map_append, List.take_append_drop]
  refine List.append_inj this ?_
  simp [hc]; omega

theorem map_fst_mid (P : List (Node α)) (e : Node α) (R : List (Node α)) :
    (P ++ e :: R).map Prod.fst = P.map Prod.fst ++ e.1 :: R.map Prod.fst := by simp

/-- Putting a link after the one at position `c`. -/
theorem Rep.addAfter {s : St α} {items : List (α × Bool)} {F : List (Node α)} (h : Rep s items F) (alloc : List Nat → Nat)
    (halloc : ∀ l, alloc l ∉ l) (c a : Nat) (ha : (F.map Prod.fst)[c]? = some a) (x : α) (af : Bool) :
    ∃ s' F', addAfter alloc s a x af = some s' ∧ Rep s' (insertAt items c (x, af)) F' ∧ s'.prev = s.prev ∧ s'.link = s.link ∧
      F'.map Prod.fst = (F.map Prod.fst).take (c + 1) ++ alloc s.heap.live :: (F.map Prod.fst).drop (c + 1) := by
  have hc : c < F.length := by
    have := (List.getElem?_eq_some_iff.mp ha).1
    simpa using this
  obtain ⟨P, e, R, rfl, hP⟩ := split_at F c hc
  have hea : e.1 = a := by
    rw [map_fst_mid, List.getElem?_append_right (by simp [hP])] at ha
    simpa [hP] using ha
  subst hea
  have hseg := h.seg
  rw [show P ++ e :: R = (P ++ [e]) ++ R by simp, seg_append] at hseg
  obtain ⟨r, hs1, hs2⟩ := hseg
  have hmem := seg_snoc _ _ _ _ _ hs1
  have hnd := h.nodup
  rw [map_fst_mid] at hnd
  have hn : alloc s.heap.live ∉ (P ++ e :: R).map Prod.fst := fun hc => halloc _ (h.live.mem_iff.mpr hc)
  generalize hnn : alloc s.heap.live = n at *
  rw [map_fst_mid] at hn
  simp only [List.mem_append, List.mem_cons, not_or] at hn
  have hnodup' : (P.map Prod.fst ++ e.1 :: n :: R.map Prod.fst).Nodup := by
    have hp : (P.map Prod.fst ++ e.1 :: n :: R.map Prod.fst).Perm (n :: (P.map Prod.fst ++ e.1 :: R.map Prod.fst)) := by
      have := List.perm_middle (l₁ := P.map Prod.fst ++ [e.1]) (a := n) (l₂ := R.map Prod.fst)
      simpa using this
    rw [hp.nodup_iff, List.nodup_cons]
    exact ⟨by simp only [List.mem_append, List.mem_cons, not_or]; exact hn, hnd⟩
  obtain ⟨hd1, hd2, hd3⟩ := List.nodup_append.mp hnd
  have hd4 := (List.nodup_cons.mp hd2).1
  have heP : e.1 ∉ P.map Prod.fst := fun hc => hd3 _ hc _ List.mem_cons_self rfl
  refine ⟨{ s with
      heap := (s.heap.alloc n ⟨some x, r, af⟩).set e.1 ⟨e.2.1, some n, e.2.2⟩
      tail := if r = none then n else s.tail }, P ++ e :: (n, some x, af) :: R, ?_, ?_, rfl, rfl, ?_⟩
  · simp only [LinkList.addAfter, hmem, hnn]
  · have hRnil : r = none ↔ R = [] := by
      cases R with
      | nil => simp only [Seg] at hs2; simp [hs2]
      | cons m R => simp only [Seg] at hs2; rw [hs2.1]; simp
    refine ⟨?_, ?_, ?_, ?_, ?_, ?_⟩
    · rw [show P ++ e :: (n, some x, af) :: R = (P ++ [e]) ++ ((n, some x, af) :: R) by simp, seg_append]
      refine ⟨some n, ?_, rfl, r, ?_, ?_⟩
      · refine seg_setNext _ _ P e _ r (some n) hs1 heP ?_ ?_
        · intro b hb
          have h1 : b ≠ e.1 := fun hc => heP (hc ▸ hb)
          have h2 : b ≠ n := fun hc => hn.1 (hc ▸ hb)
          simp [Heap.set, Heap.alloc, h1, h2]
        · simp [Heap.set]
      · have h1 : n ≠ e.1 := hn.2.1
        simp [Heap.set, Heap.alloc, h1]
      · refine seg_congr _ _ R none ?_ r hs2
        intro m hm
        have h1 : m.1 ≠ e.1 := fun hc => hd4 (hc ▸ List.mem_map_of_mem hm)
        have h2 : m.1 ≠ n := fun hc => hn.2.2 (hc ▸ List.mem_map_of_mem hm)
        simp [Heap.set, Heap.alloc, h1, h2]
    · have hv := h.vals
      rw [show P ++ e :: R = (P ++ [e]) ++ R by simp, List.map_append] at hv
      obtain ⟨e1, e2⟩ := split_items _ _ items c hv (by simp [hP])
      have : (P ++ e :: (n, some x, af) :: R).map Prod.snd = (P ++ [e]).map Prod.snd ++ (some x, af) :: R.map Prod.snd := by simp
      rw [this, e1, e2]
      simp [insertAt, emb]
    · have := h.zero
      rw [map_fst_mid] at this
      cases P <;> simpa using this
    · simpa using hnodup'
    · have ht := h.tail
      dsimp only
      by_cases hr : r = none
      · rw [if_pos hr, hRnil.mp hr]
        simp
      · rw [if_neg hr]
        have hRne : R ≠ [] := fun hc => hr (hRnil.mpr hc)
        obtain ⟨m, R', rfl⟩ := List.exists_cons_of_ne_nil hRne
        rw [← ht]
        simp [List.getLast?_append, List.getLast?_cons_cons]
    · have hp : ((P ++ e :: (n, some x, af) :: R).map Prod.fst).Perm (n :: (P ++ e :: R).map Prod.fst) := by
        have := List.perm_middle (l₁ := P.map Prod.fst ++ [e.1]) (a := n) (l₂ := R.map Prod.fst)
        simpa using this
      exact (h.live.cons n).trans hp.symm
  · rw [map_fst_mid, map_fst_mid, List.take_append, List.drop_append, List.take_of_length_le (by simp [hP]),
      List.drop_eq_nil_of_le (by simp [hP])]
    simp [hP]

/-- Removing the link after the one at position `p`. -/
theorem Rep.unlinkAfter {s : St α} {items : List (α × Bool)} {F : List (Node α)} (h : Rep s items F)
    (p a : Nat) (ha : (F.map Prod.fst)[p]? = some a) (destroy : Bool) :
    ∃ s' F', unlinkAfter s a destroy = some (s', if destroy then owned ((items.drop p).take 1) else []) ∧
      Rep s' (items.eraseIdx p) F' ∧ s'.prev = s.prev ∧ s'.link = s.link ∧
      F'.map Prod.fst = (F.map Prod.fst).eraseIdx (p + 1) := by
  have hc : p < F.length := by
    have := (List.getElem?_eq_some_iff.mp ha).1
    simpa using this
  obtain ⟨P, e, R, rfl, hP⟩ := split_at F p hc
  have hea : e.1 = a := by
    rw [map_fst_mid, List.getElem?_append_right (by simp [hP])] at ha
    simpa [hP] using ha
  subst hea
  have hseg := h.seg
  rw [show P ++ e :: R = (P ++ [e]) ++ R by simp, seg_append] at hseg
  obtain ⟨r, hs1, hs2⟩ := hseg
  have hmem := seg_snoc _ _ _ _ _ hs1
  have hlen := h.length
  have hv := h.vals
  rw [show P ++ e :: R = (P ++ [e]) ++ R by simp, List.map_append] at hv
  obtain ⟨e1, e2⟩ := split_items _ _ items p hv (by simp [hP])
  cases R with
  | nil =>
    simp only [Seg] at hs2
    subst hs2
    have hpl : p = items.length := by simp [hP] at hlen; omega
    refine ⟨s, P ++ [e], ?_, ?_, rfl, rfl, ?_⟩
    · simp [LinkList.unlinkAfter, hmem, hpl, owned]
    · rw [List.eraseIdx_of_length_le (by omega)]; exact h
    · rw [List.eraseIdx_of_length_le (by simp [hP])]
  | cons b R =>
    obtain ⟨hr, nxt, hmb, hs3⟩ := hs2
    subst hr
    have hnd := h.nodup
    rw [map_fst_mid] at hnd
    obtain ⟨hd1, hd2, hd3⟩ := List.nodup_append.mp hnd
    obtain ⟨hd4, hd5⟩ := List.nodup_cons.mp hd2
    rw [List.map_cons] at hd4 hd5
    obtain ⟨hd6, hd7⟩ := List.nodup_cons.mp hd5
    have heP : e.1 ∉ P.map Prod.fst := fun hc => hd3 _ hc _ List.mem_cons_self rfl
    have hbP : b.1 ∉ P.map Prod.fst := fun hc => hd3 _ hc _ (by simp) rfl
    have hbe : b.1 ≠ e.1 := fun hc => hd4 (by rw [← hc]; simp)
    have hnd' : (P.map Prod.fst ++ e.1 :: R.map Prod.fst).Nodup := by
      refine List.Nodup.sublist ?_ hnd
      simp
    obtain ⟨v, hbv, hdrop⟩ : ∃ v, b.2.1 = some v ∧ items.drop p = (v, b.2.2) :: items.drop (p + 1) := by
      have hplt : p < items.length := by simp [hP] at hlen; omega
      rw [List.drop_eq_getElem_cons hplt, List.map_cons, List.map_cons, List.cons.injEq] at e2
      refine ⟨items[p].1, by rw [e2.1]; rfl, ?_⟩
      rw [List.drop_eq_getElem_cons hplt, e2.1]; rfl
    refine ⟨{ s with
      heap := (s.heap.set e.1 ⟨e.2.1, nxt, e.2.2⟩).free b.1
      tail := if b.1 = s.tail then e.1 else s.tail }, P ++ e :: R, ?_, ?_, rfl, rfl, ?_⟩
    · simp only [LinkList.unlinkAfter, hmem, hmb, Option.some.injEq, Prod.mk.injEq, true_and]
      rw [hdrop]
      cases destroy <;> cases hb2 : b.2.2 <;> simp [owned, hbv]
    · refine ⟨?_, ?_, ?_, ?_, ?_, ?_⟩
      · rw [show P ++ e :: R = (P ++ [e]) ++ R by simp, seg_append]
        refine ⟨nxt, ?_, ?_⟩
        · refine seg_setNext _ _ P e _ (some b.1) nxt hs1 heP ?_ ?_
          · intro d hd
            have h1 : d ≠ e.1 := fun hc => heP (hc ▸ hd)
            have h2 : d ≠ b.1 := fun hc => hbP (hc ▸ hd)
            simp [Heap.set, Heap.free, h1, h2]
          · have h2 : e.1 ≠ b.1 := fun hc => hbe hc.symm
            simp [Heap.set, Heap.free, h2]
        · refine seg_congr _ _ R none ?_ nxt hs3
          intro m hm
          have h1 : m.1 ≠ e.1 := fun hc => hd4 (by rw [← hc]; exact List.mem_cons_of_mem _ (List.mem_map_of_mem hm))
          have h2 : m.1 ≠ b.1 := fun hc => hd6 (hc ▸ List.mem_map_of_mem hm)
          simp [Heap.set, Heap.free, h1, h2]
      · have e3 : R.map Prod.snd = (items.drop (p + 1)).map emb := by
          have := congrArg List.tail e2
          simpa using this
        rw [show P ++ e :: R = (P ++ [e]) ++ R by simp, List.map_append, e1, e3, List.eraseIdx_eq_take_drop_succ]
        simp
      · have := h.zero
        rw [map_fst_mid] at this
        cases P <;> simpa using this
      · simpa using hnd'
      · have ht := h.tail
        dsimp only
        cases R with
        | nil =>
          have : s.tail = b.1 := by
            have h2 : (P ++ [e, b]).map Prod.fst = (P.map Prod.fst ++ [e.1]) ++ [b.1] := by simp
            rw [h2, List.getLast?_concat] at ht
            simpa using ht.symm
          rw [if_pos this.symm]; simp
        | cons m R =>
          have hmem : s.tail ∈ (m :: R).map Prod.fst := by
            have h2 : (P ++ e :: b :: m :: R).map Prod.fst = (P.map Prod.fst ++ [e.1, b.1]) ++ (m :: R).map Prod.fst := by simp
            rw [h2, List.getLast?_append] at ht
            cases hg : ((m :: R).map Prod.fst).getLast? with
            | none => simp at hg
            | some y => rw [hg] at ht; simp at ht; subst ht; exact List.mem_of_getLast? hg
          have hne : b.1 ≠ s.tail := fun hc => hd6 (hc ▸ hmem)
          rw [if_neg hne, ← ht]
          simp [List.getLast?_append, List.getLast?_cons_cons]
      · have hl := h.live
        have hp : ((P ++ e :: b :: R).map Prod.fst).Perm (b.1 :: (P ++ e :: R).map Prod.fst) := by
          have := List.perm_middle (l₁ := P.map Prod.fst ++ [e.1]) (a := b.1) (l₂ := R.map Prod.fst)
          simpa using this
        have := (hl.trans hp).erase b.1
        rw [List.erase_cons_head] at this
        exact this
    · rw [map_fst_mid, map_fst_mid, List.eraseIdx_append_of_length_le (by simp [hP])]
      simp [hP]

theorem Rep.withIt {s : St α} {items : List (α × Bool)} {F : List (Node α)} (h : Rep s items F) (prev link : Option Nat) :
    Rep { s with prev := prev, link := link } items F := ⟨h.seg, h.vals, h.zero, h.nodup, h.tail, h.live⟩

theorem Rep.cons {s : St α} {items : List (α × Bool)} {F : List (Node α)} (h : Rep s items F) :
    ∃ N, F = (0, none, false) :: N ∧ N.map Prod.snd = items.map emb := by
  have hv := h.vals
  have hz := h.zero
  cases F with
  | nil => simp at hz
  | cons e N =>
    simp only [List.map_cons, List.head?_cons, Option.some.injEq, List.cons.injEq] at hv hz
    exact ⟨N, by rw [← hz, ← hv.1], hv.2⟩

theorem Rep.liveLen {s : St α} {items : List (α × Bool)} {F : List (Node α)} (h : Rep s items F) :
    s.heap.live.length = items.length + 1 := by
  rw [h.live.length_eq, List.length_map, h.length]

theorem findLoop_spec (h : Heap α) (x : α) (R : List (Node α)) : ∀ (e : Node α) (fuel : Nat), R.length < fuel →
    Seg h.mem (some e.1) (e :: R) none →
    findLoop h x (some e.1) fuel = some (match R.findIdx? (fun n => n.2.1 = some x) with
      | some i => (((e :: R).map Prod.fst)[i]?, ((e :: R).map Prod.fst)[i + 1]?)
      | none => (((e :: R).map Prod.fst)[R.length]?, none)) := by
  induction R with
  | nil =>
    intro e fuel hf hs
    obtain ⟨f, rfl⟩ : ∃ f, fuel = f + 1 := ⟨fuel - 1, by simp at hf; omega⟩
    obtain ⟨-, nxt, hm, hn⟩ := hs
    simp only [Seg] at hn
    subst hn
    simp [findLoop, iterNext, Heap.deref, hm]
  | cons r R ih =>
    intro e fuel hf hs
    obtain ⟨f, rfl⟩ : ∃ f, fuel = f + 1 := ⟨fuel - 1, by simp at hf; omega⟩
    obtain ⟨-, nxt, hm, hs⟩ := hs
    have hs' := hs
    obtain ⟨hn, nxt2, hm2, -⟩ := hs
    subst hn
    rw [findLoop]
    simp only [iterNext, Heap.deref, hm, Option.map_some, hm2]
    by_cases hx : r.2.1 = some x
    · rw [if_pos hx, List.findIdx?_cons]
      simp [hx]
    · rw [if_neg hx, ih r f (by simpa using hf) hs', List.findIdx?_cons]
      simp only [hx, decide_false, Bool.false_eq_true, if_false]
      cases hi : R.findIdx? (fun n => n.2.1 = some x) with
      | none => simp
      | some i => simp

theorem findIdx_items (N : List (Node α)) (items : List (α × Bool)) (x : α) (h : N.map Prod.snd = items.map emb) :
    N.findIdx? (fun n => n.2.1 = some x) = items.findIdx? (fun p => p.1 = x) := by
  have h1 : N.findIdx? (fun n => n.2.1 = some x) = (N.map Prod.snd).findIdx? (fun q => q.1 = some x) := by
    rw [List.findIdx?_map]; rfl
  rw [h1, h, List.findIdx?_map]
  congr 1
  funext p
  simp [emb]

theorem Rep.find {s : St α} {items : List (α × Bool)} {F : List (Node α)} (h : Rep s items F) (x : α) :
    find s.heap x = some (match items.findIdx? (fun p => p.1 = x) with
      | some i => ((F.map Prod.fst)[i]?, (F.map Prod.fst)[i + 1]?)
      | none => ((F.map Prod.fst)[items.length]?, none)) := by
  obtain ⟨N, rfl, hN⟩ := h.cons
  have hlen : N.length = items.length := by simpa using congrArg List.length hN
  unfold LinkList.find
  have := findLoop_spec s.heap x N (0, none, false) (s.heap.live.length + 1) (by rw [h.liveLen]; omega) h.seg
  rw [this, findIdx_items N items x hN, hlen]

/-- Where the first match is. -/
theorem findIdx_split (items : List (α × Bool)) (x : α) (i : Nat) (h : items.findIdx? (fun p => p.1 = x) = some i) :
    ∃ L1 a L2, items = L1 ++ (x, a) :: L2 ∧ L1.length = i ∧ ∀ p ∈ L1, p.1 ≠ x := by
  obtain ⟨hi, hx, hmin⟩ := List.findIdx?_eq_some_iff_getElem.mp h
  refine ⟨items.take i, items[i].2, items.drop (i + 1), ?_, by simp; omega, ?_⟩
  · have : (x, items[i].2) = items[i] := by
      have : items[i].1 = x := by simpa using hx
      rw [← this]
    rw [this, ← List.drop_eq_getElem_cons hi, List.take_append_drop]
  · intro p hp
    obtain ⟨j, hj, rfl⟩ := List.mem_iff_getElem.mp hp
    have hj' : j < i := by simp at hj; omega
    have := hmin j hj'
    simpa using this

theorem Rep.pos {s : St α} {items : List (α × Bool)} {F : List (Node α)} (h : Rep s items F) (i : Nat) (hi : i ≤ items.length) :
    ∃ a, (F.map Prod.fst)[i]? = some a := by
  have := h.length
  exact ⟨_, List.getElem?_eq_getElem (by simp; omega)⟩

theorem Rep.next {s : St α} {items : List (α × Bool)} {F : List (Node α)} (h : Rep s items F) (i a : Nat)
    (ha : (F.map Prod.fst)[i]? = some a) : ∃ l, s.heap.mem a = some l ∧ l.next = (F.map Prod.fst)[i + 1]? ∧
      (∀ j, i = j + 1 → ∃ p, items[j]? = some p ∧ l.data = some p.1 ∧ l.autofree = p.2) := by
  have hc : i < F.length := by
    have := (List.getElem?_eq_some_iff.mp ha).1
    simpa using this
  have hv := h.vals
  obtain ⟨P, e, R, rfl, hP⟩ := split_at F i hc
  have hea : e.1 = a := by
    rw [map_fst_mid, List.getElem?_append_right (by simp [hP])] at ha
    simpa [hP] using ha
  subst hea
  have hseg := h.seg
  rw [show P ++ e :: R = (P ++ [e]) ++ R by simp, seg_append] at hseg
  obtain ⟨r, hs1, hs2⟩ := hseg
  refine ⟨_, seg_snoc _ _ _ _ _ hs1, ?_, ?_⟩
  · dsimp only
    rw [map_fst_mid, List.getElem?_append_right (by simp [hP])]
    simp only [List.length_map, hP, show i + 1 - i = 1 by omega]
    cases R with
    | nil => simp only [Seg] at hs2; simp [hs2]
    | cons m R => simp only [Seg] at hs2; simp [hs2.1]
  · intro j hj
    subst hj
    have h1 : ((P ++ e :: R).map Prod.snd)[j + 1]? = some e.2 := by
      rw [List.map_append, List.map_cons, List.getElem?_append_right (by simp [hP])]
      simp [hP]
    rw [hv, List.getElem?_cons_succ, List.getElem?_map, Option.map_eq_some_iff] at h1
    obtain ⟨p, hp, he⟩ := h1
    exact ⟨p, hp, by rw [← he]; exact ⟨rfl, rfl⟩⟩

/-- `Iter::unlink`. -/
theorem Rep.iterUnlink {s : St α} {items : List (α × Bool)} {F : List (Node α)} (h : Rep s items F)
    (p a : Nat) (ha : (F.map Prod.fst)[p]? = some a) (hp : s.prev = some a) (destroy : Bool) :
    ∃ s' F', iterUnlink s destroy = some (s', if destroy then owned ((items.drop p).take 1) else []) ∧
      Rep s' (items.eraseIdx p) F' ∧ s'.prev = some a ∧ (F'.map Prod.fst)[p]? = some a ∧
      s'.link = (F'.map Prod.fst)[p + 1]? := by
  obtain ⟨s1, F', h1, r1, hp1, hl1, hA⟩ := h.unlinkAfter p a ha destroy
  have ha' : (F'.map Prod.fst)[p]? = some a := by
    rw [hA, List.getElem?_eraseIdx_of_lt (by omega)]; exact ha
  obtain ⟨l, hl, hn, -⟩ := r1.next p a ha'
  refine ⟨{ s1 with link := l.next }, F', ?_, r1.withIt _ _, by rw [← hp, ← hp1], ha', by rw [← hn]⟩
  simp [LinkList.iterUnlink, hp, h1, hl]

theorem Rep.unlinkAll {x : α} (fuel : Nat) : ∀ {s : St α} {items : List (α × Bool)} {F : List (Node α)}, Rep s items F →
    items.length < fuel → ∃ s' F', unlinkAll s x fuel = some (s', owned (items.filter fun p => p.1 = x)) ∧
      Rep s' (items.filter fun p => p.1 ≠ x) F' := by
  induction fuel with
  | zero => intro s items F h hf; omega
  | succ fuel ih =>
    intro s items F h hf
    have hfind := h.find x
    cases hi : items.findIdx? (fun p => p.1 = x) with
    | none =>
      rw [hi] at hfind
      have hno : ∀ p ∈ items, p.1 ≠ x := by
        intro p hp
        have := List.findIdx?_eq_none_iff.mp hi p hp
        simpa using this
      refine ⟨s, F, ?_, ?_⟩
      · rw [LinkList.unlinkAll, hfind]
        have : items.filter (fun p => decide (p.1 = x)) = [] := by
          rw [List.filter_eq_nil_iff]; intro p hp; simpa using hno p hp
        simp only [this]; rfl
      · have : items.filter (fun p => decide (p.1 ≠ x)) = items := by
          rw [List.filter_eq_self]; intro p hp; simpa using hno p hp
        rw [this]; exact h
    | some i =>
      rw [hi] at hfind
      obtain ⟨L1, a, L2, rfl, hlen, hno⟩ := findIdx_split items x i hi
      obtain ⟨b, hb⟩ := h.pos i (by simp; omega)
      obtain ⟨c, hc⟩ := h.pos (i + 1) (by simp; omega)
      dsimp only at hfind
      rw [hb, hc] at hfind
      obtain ⟨s1, F1, h1, r1, -⟩ := (h.withIt (some b) (some c)).iterUnlink i b hb rfl true
      have her : (L1 ++ (x, a) :: L2).eraseIdx i = L1 ++ L2 := by
        rw [List.eraseIdx_append_of_length_le (by omega)]; simp [hlen]
      rw [her] at r1
      obtain ⟨s2, F2, h2, r2⟩ := ih (r1.withIt s.prev s.link) (by simp at hf ⊢; omega)
      have hL1 : L1.filter (fun p => decide (p.1 = x)) = [] := by
        rw [List.filter_eq_nil_iff]; intro p hp; simpa using hno p hp
      refine ⟨s2, F2, ?_, ?_⟩
      · rw [LinkList.unlinkAll, hfind]
        simp only [h1, Option.bind_some, h2, Option.map_some]
        rw [← hlen]
        cases a <;> simp [owned, List.filter_append, List.filter_cons, hL1]
      · have : (L1 ++ (x, a) :: L2).filter (fun p => decide (p.1 ≠ x)) = (L1 ++ L2).filter (fun p => decide (p.1 ≠ x)) := by
          simp [List.filter_append, List.filter_cons]
        rw [this]; exact r2

theorem Rep.zapLoop {destroy : Bool} (fuel : Nat) : ∀ {s : St α} {items : List (α × Bool)} {F : List (Node α)}, Rep s items F →
    items.length < fuel → ∃ s' F', zapLoop s destroy fuel = some (s', if destroy then owned items else []) ∧ Rep s' [] F' := by
  induction fuel with
  | zero => intro s items F h hf; omega
  | succ fuel ih =>
    intro s items F h hf
    have h0 : (F.map Prod.fst)[0]? = some 0 := by rw [← List.head?_eq_getElem?]; exact h.zero
    obtain ⟨l, hl, hn, -⟩ := h.next 0 0 h0
    rw [LinkList.zapLoop]
    simp only [hl]
    cases items with
    | nil =>
      have : l.next = none := by
        rw [hn, List.getElem?_eq_none_iff]
        have := h.length
        simp at this ⊢; omega
      rw [if_pos this]
      exact ⟨s, F, by cases destroy <;> rfl, h⟩
    | cons p items =>
      have : l.next ≠ none := by
        obtain ⟨c, hc⟩ := h.pos 1 (by simp)
        rw [hn]; simp [hc]
      rw [if_neg this]
      obtain ⟨s1, F1, h1, r1, -⟩ := h.unlinkAfter 0 0 h0 destroy
      obtain ⟨s2, F2, h2, r2⟩ := ih r1 (by simp at hf ⊢; omega)
      refine ⟨s2, F2, ?_, r2⟩
      simp only [h1, Option.bind_some, h2, Option.map_some]
      cases destroy <;> cases hp : p.2 <;> simp [owned, List.filter_cons, hp]

theorem Rep.unlinkFirst {s : St α} {items : List (α × Bool)} {F : List (Node α)} (h : Rep s items F) :
    ∃ s' F', unlinkFirst s = some (s', owned (items.take 1)) ∧ Rep s' (items.drop 1) F' := by
  have h0 : (F.map Prod.fst)[0]? = some 0 := by rw [← List.head?_eq_getElem?]; exact h.zero
  obtain ⟨l, hl, hn, -⟩ := h.next 0 0 h0
  rw [LinkList.unlinkFirst]
  simp only [hl]
  cases items with
  | nil =>
    have : l.next = none := by
      rw [hn, List.getElem?_eq_none_iff]
      have := h.length
      simp at this ⊢; omega
    rw [if_pos this]
    exact ⟨s, F, rfl, h⟩
  | cons p items =>
    have : l.next ≠ none := by
      obtain ⟨c, hc⟩ := h.pos 1 (by simp)
      rw [hn]; simp [hc]
    rw [if_neg this]
    obtain ⟨s1, F1, h1, r1, -⟩ := (h.withIt (some 0) l.next).iterUnlink 0 0 h0 rfl true
    refine ⟨{ s1 with prev := s.prev, link := s.link }, F1, ?_, by simpa using r1.withIt s.prev s.link⟩
    simp [iterNext, Heap.deref, hl, h1]

theorem countLoop_spec (h : Heap α) (l : List (Node α)) : ∀ (p : Option Nat) (fuel : Nat), l.length < fuel → Seg h.mem p l none →
    countLoop h p fuel = some l.length := by
  induction l with
  | nil =>
    intro p fuel hf hs
    obtain ⟨f, rfl⟩ : ∃ f, fuel = f + 1 := ⟨fuel - 1, by omega⟩
    simp only [Seg] at hs
    simp [countLoop, hs]
  | cons n l ih =>
    intro p fuel hf hs
    obtain ⟨f, rfl⟩ : ∃ f, fuel = f + 1 := ⟨fuel - 1, by omega⟩
    obtain ⟨hp, nxt, hm, hs⟩ := hs
    simp [countLoop, hp, hm, ih nxt f (by simpa using hf) hs]

theorem Rep.count {s : St α} {items : List (α × Bool)} {F : List (Node α)} (h : Rep s items F) : count s = some items.length := by
  obtain ⟨N, rfl, hN⟩ := h.cons
  have hlen : N.length = items.length := by simpa using congrArg List.length hN
  obtain ⟨-, nxt, hm, hs⟩ := h.seg
  simp only [LinkList.count, hm, Option.bind_some]
  rw [countLoop_spec s.heap N nxt _ (by rw [h.liveLen]; omega) hs, hlen]

theorem reverseLoop_spec (R : List (Node α)) : ∀ (h : Heap α) (c : Node α) (p fuel : Nat), R.length < fuel →
    Seg h.mem (some c.1) (c :: R) none → ((c :: R).map Prod.fst).Nodup →
    ∃ h' q, reverseLoop h p c.1 fuel = some (h', q) ∧ Seg h'.mem (some q) (c :: R).reverse (some p) ∧
      (∀ b, b ∉ (c :: R).map Prod.fst → h'.mem b = h.mem b) ∧ h'.live = h.live := by
  induction R with
  | nil =>
    intro h c p fuel hf hs hnd
    obtain ⟨f, rfl⟩ : ∃ f, fuel = f + 1 := ⟨fuel - 1, by omega⟩
    obtain ⟨-, nxt, hm, hs⟩ := hs
    simp only [Seg] at hs
    subst hs
    refine ⟨h.set c.1 ⟨c.2.1, some p, c.2.2⟩, c.1, by simp [reverseLoop, hm], ?_, ?_, rfl⟩
    · simp only [List.reverse_singleton]
      exact ⟨rfl, some p, by simp [Heap.set], rfl⟩
    · intro b hb
      have : b ≠ c.1 := by simpa using hb
      simp [Heap.set, this]
  | cons d R ih =>
    intro h c p fuel hf hs hnd
    obtain ⟨f, rfl⟩ : ∃ f, fuel = f + 1 := ⟨fuel - 1, by omega⟩
    obtain ⟨-, nxt, hm, hs⟩ := hs
    have hd : nxt = some d.1 := hs.1
    subst hd
    rw [List.map_cons, List.nodup_cons] at hnd
    have hs' : Seg (h.set c.1 ⟨c.2.1, some p, c.2.2⟩).mem (some d.1) (d :: R) none := by
      refine seg_congr _ _ _ _ ?_ _ hs
      intro n hn
      have : n.1 ≠ c.1 := fun hc => hnd.1 (hc ▸ List.mem_map_of_mem hn)
      simp [Heap.set, this]
    obtain ⟨h', q, h1, h2, h3, h4⟩ := ih (h.set c.1 ⟨c.2.1, some p, c.2.2⟩) d c.1 f (by simpa using hf) hs' hnd.2
    refine ⟨h', q, by simp [reverseLoop, hm, h1], ?_, ?_, h4⟩
    · rw [List.reverse_cons, seg_append]
      refine ⟨some c.1, h2, rfl, some p, ?_, rfl⟩
      rw [h3 c.1 hnd.1]; simp [Heap.set]
    · intro b hb
      rw [List.map_cons, List.mem_cons, not_or] at hb
      rw [h3 b hb.2]; simp [Heap.set, hb.1]

theorem Rep.reverse {s : St α} {items : List (α × Bool)} {F : List (Node α)} (h : Rep s items F) :
    ∃ s' F', reverse s = some s' ∧ Rep s' items.reverse F' := by
  obtain ⟨N, rfl, hN⟩ := h.cons
  obtain ⟨-, nxt, hm, hs⟩ := h.seg
  have hlen := h.liveLen
  have hnl : N.length = items.length := by simpa using congrArg List.length hN
  have hnd := h.nodup
  have hv := h.vals
  rw [LinkList.reverse]
  dsimp only at hm
  cases N with
  | nil =>
    simp only [Seg] at hs
    subst hs
    have : items = [] := by simpa using hnl.symm
    subst this
    exact ⟨s, _, by simp [hm], h⟩
  | cons a N =>
    obtain ⟨ha, nxt2, hm2, hs2⟩ := hs
    subst ha
    cases N with
    | nil =>
      simp only [Seg] at hs2
      subst hs2
      obtain ⟨p, rfl⟩ : ∃ p, items = [p] := List.length_eq_one_iff.mp (by simpa using hnl.symm)
      exact ⟨s, _, by simp [hm, hm2], h⟩
    | cons b R =>
      have hb : nxt2 = some b.1 := hs2.1
      subst hb
      simp only [List.map_cons] at hnd
      obtain ⟨hn0, hnd1⟩ := List.nodup_cons.mp hnd
      obtain ⟨hna, hnd2⟩ := List.nodup_cons.mp hnd1
      obtain ⟨h', q, h1, h2, h3, h4⟩ := reverseLoop_spec R s.heap b a.1 s.heap.live.length (by rw [hlen, ← hnl]; simp; omega) hs2
        (by simpa using hnd2)
      have hma : h'.mem a.1 = some ⟨a.2.1, some b.1, a.2.2⟩ := by
        rw [h3 a.1 (by simpa using hna)]; exact hm2
      have hm0 : h'.mem 0 = some ⟨none, some a.1, false⟩ := by
        rw [h3 0 (by intro hc; exact hn0 (List.mem_cons_of_mem _ (by simpa using hc)))]; exact hm
      refine ⟨{ s with heap := (h'.set a.1 ⟨a.2.1, none, a.2.2⟩).set 0 ⟨none, some q, false⟩, tail := a.1 },
        (0, none, false) :: ((b :: R).reverse ++ [a]), ?_, ?_⟩
      · simp [hm, hm2, h1, hma]
      · have ha0 : a.1 ≠ 0 := fun hc => hn0 (by rw [hc]; exact List.mem_cons_self)
        have hperm : (((0, none, false) :: ((b :: R).reverse ++ [a]) : List (Node α)).map Prod.fst).Perm
            (((0, none, false) :: a :: b :: R : List (Node α)).map Prod.fst) := by
          refine List.Perm.map _ (List.Perm.cons _ ?_)
          refine (List.perm_append_singleton a _).trans (List.Perm.cons _ (List.reverse_perm _))
        refine ⟨?_, ?_, rfl, ?_, ?_, ?_⟩
        · refine ⟨rfl, some q, by simp [Heap.set], ?_⟩
          rw [seg_append]
          refine ⟨some a.1, ?_, rfl, none, by simp [Heap.set, ha0], rfl⟩
          refine seg_congr _ _ _ _ ?_ _ h2
          intro n hn
          have hn' : n ∈ b :: R := List.mem_reverse.mp hn
          have hx : n.1 ∈ b.1 :: R.map Prod.fst := by simpa using List.mem_map_of_mem (f := Prod.fst) hn'
          have e1 : n.1 ≠ a.1 := fun hc => hna (hc ▸ hx)
          have e2 : n.1 ≠ 0 := fun hc => hn0 (hc ▸ List.mem_cons_of_mem _ hx)
          simp [Heap.set, e1, e2]
        · have : ((b :: R).reverse ++ [a]).map Prod.snd = (items.reverse).map emb := by
            rw [← List.reverse_cons, List.map_reverse, hN, List.map_reverse]
          simp only [List.map_cons, this]
        · exact hperm.nodup_iff.mpr (by simpa using hnd)
        · have : ((0, none, false) :: ((b :: R).reverse ++ [a]) : List (Node α)).map Prod.fst =
              (0 :: (b :: R).reverse.map Prod.fst) ++ [a.1] := by simp
          rw [this, List.getLast?_concat]
        · have := h.live
          rw [show ((h'.set a.1 ⟨a.2.1, none, a.2.2⟩).set 0 ⟨none, some q, false⟩).live = s.heap.live from h4]
          exact this.trans hperm.symm

/- Calls. -/

/-- The list and its iterator are as in the specification. -/
def Rel (s : St α) (t : Spec.Cursor.St α) : Prop :=
  ∃ F, Rep s t.items F ∧ PosIt (F.map Prod.fst) s.prev s.link t.it

theorem pos_insert (A : List Nat) (c n : Nat) (hc : c < A.length) (addr p : Option Nat) (h : Pos A addr p) :
    Pos (A.take (c + 1) ++ n :: A.drop (c + 1)) addr (Spec.Cursor.shift c p) := by
  rcases h with ⟨rfl, rfl⟩ | ⟨i, a, rfl, rfl, h⟩
  · exact Or.inl ⟨rfl, rfl⟩
  · right
    by_cases hi : c < i
    · refine ⟨i + 1, a, by simp [Spec.Cursor.shift, hi], rfl, ?_⟩
      rw [List.getElem?_append_right (by simp; omega)]
      have : i + 1 - (A.take (c + 1)).length = (i - (c + 1)) + 1 := by simp; omega
      rw [this, List.getElem?_cons_succ, List.getElem?_drop, show c + 1 + (i - (c + 1)) = i by omega]
      exact h
    · refine ⟨i, a, by simp [Spec.Cursor.shift, hi], rfl, ?_⟩
      rw [List.getElem?_append_left (by simp; omega), List.getElem?_take_of_lt (by omega)]
      exact h

theorem posIt_insert (A : List Nat) (c n : Nat) (hc : c < A.length) (prev link : Option Nat) (it : It) (h : PosIt A prev link it) :
    PosIt (A.take (c + 1) ++ n :: A.drop (c + 1)) prev link (it.shift c) := by
  cases it with
  | unset => trivial
  | «at» p q => exact ⟨pos_insert A c n hc _ _ h.1, pos_insert A c n hc _ _ h.2⟩

theorem new_rel : Rel (new : St α) ⟨[], .unset⟩ := by
  refine ⟨[(0, none, false)], ⟨?_, rfl, rfl, by simp, rfl, List.Perm.refl _⟩, trivial⟩
  exact ⟨rfl, none, by simp [new], rfl⟩

theorem pos_some {A : List Nat} {addr : Option Nat} {i : Nat} (h : Pos A addr (some i)) : ∃ a, addr = some a ∧ A[i]? = some a := by
  rcases h with ⟨h, -⟩ | ⟨j, a, hj, ha, h⟩
  · cases h
  · simp only [Option.some.injEq] at hj
    exact ⟨a, ha, hj ▸ h⟩

theorem pos_of_getElem {A : List Nat} {i n : Nat} (hn : A.length = n + 1) :
    Pos A A[i]? (if i ≤ n then some i else none) := by
  by_cases h : i ≤ n
  · rw [if_pos h]
    exact Or.inr ⟨i, A[i]'(by omega), rfl, List.getElem?_eq_getElem _, List.getElem?_eq_getElem _⟩
  · rw [if_neg h]
    exact Or.inl ⟨rfl, List.getElem?_eq_none_iff.mpr (by omega)⟩

theorem Rel.exec {s : St α} {t : Spec.Cursor.St α} (h : Rel s t) (alloc : List Nat → Nat) (halloc : ∀ l, alloc l ∉ l) (op : Call α)
    {t' : Spec.Cursor.St α} {o : Out α} (hstep : Spec.Cursor.step t op = some (t', o)) :
    ∃ s', exec alloc s op = some (s', o) ∧ Rel s' t' := by
  obtain ⟨F, r, hpos⟩ := h
  have hlen := r.length
  have hA : (F.map Prod.fst).length = t.items.length + 1 := by simp [hlen]
  have h0 : (F.map Prod.fst)[0]? = some 0 := by rw [← List.head?_eq_getElem?]; exact r.zero
  cases op with
  | append x a =>
    simp only [Spec.Cursor.step, Option.some.injEq, Prod.mk.injEq] at hstep
    obtain ⟨rfl, rfl⟩ := hstep
    have ht : (F.map Prod.fst)[t.items.length]? = some s.tail := by
      have := r.tail
      rw [List.getLast?_eq_getElem?] at this
      rw [← this]; congr 1; omega
    obtain ⟨s', F', h1, r1, hp, hl, hF⟩ := r.addAfter alloc halloc _ _ ht x a
    refine ⟨s', by simp [LinkList.exec, h1], F', by simpa [insertAt] using r1, ?_⟩
    rw [hF, hp, hl]
    have hshift : t.it.shift t.items.length = t.it := by
      cases hit : t.it with
      | unset => rfl
      | «at» p c =>
        rw [hit] at hpos
        have : ∀ (addr q : Option Nat), Pos (F.map Prod.fst) addr q → Spec.Cursor.shift t.items.length q = q := by
          rintro addr q (⟨rfl, -⟩ | ⟨i, b, rfl, -, hi⟩)
          · rfl
          · have := (List.getElem?_eq_some_iff.mp hi).1
            have h2 : ¬ t.items.length < i := by omega
            simp [Spec.Cursor.shift, h2]
        simp only [It.shift, this _ _ hpos.1, this _ _ hpos.2]
    have := posIt_insert (F.map Prod.fst) t.items.length (alloc s.heap.live) (by omega) _ _ _ hpos
    rw [hshift] at this
    exact this
  | prepend x a =>
    simp only [Spec.Cursor.step, Option.some.injEq, Prod.mk.injEq] at hstep
    obtain ⟨rfl, rfl⟩ := hstep
    obtain ⟨s', F', h1, r1, hp, hl, hF⟩ := r.addAfter alloc halloc _ _ h0 x a
    refine ⟨s', by simp [LinkList.exec, h1], F', by simpa [insertAt] using r1, ?_⟩
    rw [hF, hp, hl]
    exact posIt_insert (F.map Prod.fst) 0 (alloc s.heap.live) (by omega) _ _ _ hpos
  | addAfterCur x a =>
    simp only [Spec.Cursor.step] at hstep
    split at hstep
    · rename_i p c hit
      simp only [Option.some.injEq, Prod.mk.injEq] at hstep
      obtain ⟨rfl, rfl⟩ := hstep
      rw [hit] at hpos
      obtain ⟨b, hb, hc⟩ := pos_some hpos.2
      obtain ⟨s', F', h1, r1, hp, hl, hF⟩ := r.addAfter alloc halloc _ _ hc x a
      refine ⟨s', by simp [LinkList.exec, hb, h1], F', r1, ?_⟩
      rw [hF, hp, hl]
      rw [← hit] at hpos
      exact posIt_insert (F.map Prod.fst) c (alloc s.heap.live) (List.getElem?_eq_some_iff.mp hc).1 _ _ _ hpos
    · simp at hstep
  | unlinkAll x =>
    simp only [Spec.Cursor.step, Option.some.injEq, Prod.mk.injEq] at hstep
    obtain ⟨rfl, rfl⟩ := hstep
    obtain ⟨s', F', h1, r1⟩ := r.unlinkAll (x := x) (s.heap.live.length + 1) (by rw [r.liveLen]; omega)
    exact ⟨s', by simp [LinkList.exec, h1], F', r1, trivial⟩
  | unlinkFirst =>
    simp only [Spec.Cursor.step, Option.some.injEq, Prod.mk.injEq] at hstep
    obtain ⟨rfl, rfl⟩ := hstep
    obtain ⟨s', F', h1, r1⟩ := r.unlinkFirst
    exact ⟨s', by simp [LinkList.exec, h1], F', r1, trivial⟩
  | zap destroy =>
    simp only [Spec.Cursor.step, Option.some.injEq, Prod.mk.injEq] at hstep
    obtain ⟨rfl, rfl⟩ := hstep
    obtain ⟨s', F', h1, r1⟩ := r.zapLoop (destroy := destroy) (s.heap.live.length + 1) (by rw [r.liveLen]; omega)
    exact ⟨s', by simp [LinkList.exec, h1], F', r1, trivial⟩
  | reverse =>
    simp only [Spec.Cursor.step, Option.some.injEq, Prod.mk.injEq] at hstep
    obtain ⟨rfl, rfl⟩ := hstep
    obtain ⟨s', F', h1, r1⟩ := r.reverse
    exact ⟨s', by simp [LinkList.exec, h1], F', r1, trivial⟩
  | count =>
    simp only [Spec.Cursor.step, Option.some.injEq, Prod.mk.injEq] at hstep
    obtain ⟨rfl, rfl⟩ := hstep
    exact ⟨s, by simp [LinkList.exec, r.count], F, r, hpos⟩
  | isempty =>
    simp only [Spec.Cursor.step, Option.some.injEq, Prod.mk.injEq] at hstep
    obtain ⟨rfl, rfl⟩ := hstep
    obtain ⟨l, hl, hn, -⟩ := r.next 0 0 h0
    refine ⟨s, ?_, F, r, hpos⟩
    simp only [LinkList.exec, hl, Option.map_some, hn]
    cases hi : t.items with
    | nil => rw [hi] at hA; simp [List.getElem?_eq_none_iff]; simp at hA; omega
    | cons p l => rw [hi] at hA; simp [List.getElem?_eq_none_iff]; simp at hA; omega
  | first =>
    simp only [Spec.Cursor.step] at hstep
    split at hstep
    · simp at hstep
    · rename_i hne
      simp only [Option.some.injEq, Prod.mk.injEq] at hstep
      obtain ⟨rfl, rfl⟩ := hstep
      obtain ⟨l, hl, hn, -⟩ := r.next 0 0 h0
      obtain ⟨b, hb⟩ := r.pos 1 (List.length_pos_iff.mpr hne)
      obtain ⟨l2, hl2, -, hd⟩ := r.next 1 b hb
      obtain ⟨p, hp, hd, -⟩ := hd 0 rfl
      refine ⟨s, ?_, F, r, hpos⟩
      simp [LinkList.exec, hl, hn, hb, Heap.deref, hl2, hd, List.head?_eq_getElem?, hp]
  | last =>
    simp only [Spec.Cursor.step] at hstep
    split at hstep
    · simp at hstep
    · rename_i hne
      simp only [Option.some.injEq, Prod.mk.injEq] at hstep
      obtain ⟨rfl, rfl⟩ := hstep
      have hpos' := List.length_pos_iff.mpr hne
      have ht : (F.map Prod.fst)[t.items.length]? = some s.tail := by
        have := r.tail
        rw [List.getLast?_eq_getElem?] at this
        rw [← this]; congr 1; omega
      obtain ⟨l2, hl2, -, hd⟩ := r.next _ _ ht
      obtain ⟨p, hp, hd, -⟩ := hd (t.items.length - 1) (by omega)
      refine ⟨s, ?_, F, r, hpos⟩
      simp [LinkList.exec, hl2, hd, List.getLast?_eq_getElem?, hp]
  | rewind =>
    simp only [Spec.Cursor.step, Option.some.injEq, Prod.mk.injEq] at hstep
    obtain ⟨rfl, rfl⟩ := hstep
    exact ⟨_, rfl, F, r.withIt _ _, Or.inl ⟨rfl, rfl⟩, Or.inr ⟨0, 0, rfl, rfl, h0⟩⟩
  | next =>
    simp only [Spec.Cursor.step] at hstep
    split at hstep
    · rename_i p c hit
      simp only [Option.some.injEq, Prod.mk.injEq] at hstep
      obtain ⟨rfl, rfl⟩ := hstep
      rw [hit] at hpos
      obtain ⟨b, hb, hc⟩ := pos_some hpos.2
      obtain ⟨l, hl, hn, -⟩ := r.next c b hc
      refine ⟨{ s with prev := some b, link := (F.map Prod.fst)[c + 1]? }, ?_, F, r.withIt _ _, Or.inr ⟨c, b, rfl, rfl, hc⟩, ?_⟩
      · simp only [LinkList.exec, iterNext, hb, Heap.deref, hl, Option.map_some, hn, Option.some.injEq, Prod.mk.injEq, true_and,
          Out.flag.injEq, decide_eq_decide]
        rw [Ne, List.getElem?_eq_none_iff, hA]; omega
      · have := pos_of_getElem (i := c + 1) hA
        simpa only [Nat.succ_le_iff] using this
    · simp at hstep
  | ptr =>
    simp only [Spec.Cursor.step] at hstep
    split at hstep
    · rename_i p c hit
      simp only [Option.some.injEq, Prod.mk.injEq] at hstep
      obtain ⟨rfl, rfl⟩ := hstep
      have hpos' := hpos
      rw [hit] at hpos'
      obtain ⟨b, hb, hc⟩ := pos_some hpos'.2
      obtain ⟨l, hl, -, hd⟩ := r.next _ b hc
      obtain ⟨q, hq, hd, -⟩ := hd c rfl
      refine ⟨s, ?_, F, r, hpos⟩
      simp [LinkList.exec, hb, Heap.deref, hl, hd, hq]
    · simp at hstep
  | unlink destroy =>
    simp only [Spec.Cursor.step] at hstep
    split at hstep
    · rename_i p c hit
      simp only [Option.some.injEq, Prod.mk.injEq] at hstep
      obtain ⟨rfl, rfl⟩ := hstep
      rw [hit] at hpos
      obtain ⟨b, hb, hc⟩ := pos_some hpos.1
      obtain ⟨s', F', h1, r1, hp1, ha1, hl1⟩ := r.iterUnlink p b hc hb destroy
      refine ⟨s', by simp [LinkList.exec, h1], F', r1, Or.inr ⟨p, b, rfl, hp1, ha1⟩, ?_⟩
      rw [hl1]
      have hple := (List.getElem?_eq_some_iff.mp hc).1
      have hA' : (F'.map Prod.fst).length = (t.items.eraseIdx p).length + 1 := by simp [r1.length]
      have := pos_of_getElem (i := p + 1) hA'
      rw [List.length_eraseIdx] at this
      by_cases hp : p + 1 < t.items.length
      · rw [if_pos hp]
        rw [if_pos (by rw [if_pos (by omega)]; omega)] at this
        exact this
      · rw [if_neg hp]
        rw [if_neg (by split <;> omega)] at this
        exact this
    · simp at hstep
  | xunlink destroy =>
    simp only [Spec.Cursor.step] at hstep
    split at hstep
    · rename_i p c hit
      simp only [Option.some.injEq, Prod.mk.injEq] at hstep
      obtain ⟨rfl, rfl⟩ := hstep
      rw [hit] at hpos
      obtain ⟨b, hb, hc⟩ := pos_some hpos.1
      obtain ⟨s1, F', h1, r1, hp1, hl1, hAe⟩ := r.unlinkAfter p b hc destroy
      have hc' : (F'.map Prod.fst)[p]? = some b := by
        rw [hAe, List.getElem?_eraseIdx_of_lt (by omega)]; exact hc
      refine ⟨{ s1 with link := some b }, by simp [LinkList.exec, iterXunlink, hb, h1], F', r1.withIt _ _,
        Or.inr ⟨p, b, rfl, by rw [← hb, ← hp1], hc'⟩, Or.inr ⟨p, b, rfl, rfl, hc'⟩⟩
    · simp at hstep
  | find x =>
    simp only [Spec.Cursor.step] at hstep
    have hf := r.find x
    split at hstep
    · rename_i i hi
      simp only [Option.some.injEq, Prod.mk.injEq] at hstep
      obtain ⟨rfl, rfl⟩ := hstep
      rw [hi] at hf
      obtain ⟨hlt, -⟩ := List.findIdx?_eq_some_iff_getElem.mp hi
      obtain ⟨b, hb⟩ := r.pos i (by omega)
      obtain ⟨c, hc⟩ := r.pos (i + 1) (by omega)
      refine ⟨{ s with prev := some b, link := some c }, ?_, F, r.withIt _ _, Or.inr ⟨i, b, rfl, rfl, hb⟩,
        Or.inr ⟨i + 1, c, rfl, rfl, hc⟩⟩
      simp [LinkList.exec, hf, hb, hc]
    · rename_i hi
      simp only [Option.some.injEq, Prod.mk.injEq] at hstep
      obtain ⟨rfl, rfl⟩ := hstep
      rw [hi] at hf
      obtain ⟨b, hb⟩ := r.pos t.items.length (by omega)
      refine ⟨{ s with prev := some b, link := none }, ?_, F, r.withIt _ _, Or.inr ⟨_, b, rfl, rfl, hb⟩, Or.inl ⟨rfl, rfl⟩⟩
      simp [LinkList.exec, hf, hb]
  | setAutofree a =>
    simp only [Spec.Cursor.step] at hstep
    split at hstep
    · rename_i p c hit
      simp only [Option.some.injEq, Prod.mk.injEq] at hstep
      obtain ⟨rfl, rfl⟩ := hstep
      have hpos' := hpos
      rw [hit] at hpos'
      obtain ⟨b, hb, hc⟩ := pos_some hpos'.2
      obtain ⟨l, hl, -, hd⟩ := r.next _ b hc
      have hclt : c + 1 < F.length := by
        have := (List.getElem?_eq_some_iff.mp hc).1
        simpa using this
      obtain ⟨P, e, R, rfl, hP⟩ := split_at F (c + 1) hclt
      have hea : e.1 = b := by
        rw [map_fst_mid, List.getElem?_append_right (by simp [hP])] at hc
        simpa [hP] using hc
      subst hea
      have hmapeq : (P ++ (e.1, e.2.1, a) :: R).map Prod.fst = (P ++ e :: R).map Prod.fst := by simp
      have hseg := r.seg
      rw [show P ++ e :: R = (P ++ [e]) ++ R by simp, seg_append] at hseg
      obtain ⟨q, hs1, hs2⟩ := hseg
      have hm := seg_snoc _ _ _ _ _ hs1
      have hnd := r.nodup
      rw [map_fst_mid] at hnd
      obtain ⟨hd1, hd2, hd3⟩ := List.nodup_append.mp hnd
      have hd4 := (List.nodup_cons.mp hd2).1
      have heP : e.1 ∉ P.map Prod.fst := fun hc => hd3 _ hc _ List.mem_cons_self rfl
      have hle : l = ⟨e.2.1, q, e.2.2⟩ := by
        rw [hm] at hl; simpa using hl.symm
      subst hle
      refine ⟨{ s with heap := s.heap.set e.1 ⟨e.2.1, q, a⟩ }, ?_, P ++ (e.1, e.2.1, a) :: R, ?_, ?_⟩
      · simp [LinkList.exec, hb, hl]
      · refine ⟨?_, ?_, ?_, ?_, ?_, ?_⟩
        · rw [seg_append] at hs1 ⊢
          obtain ⟨q1, hq1, hq2, -⟩ := hs1
          refine ⟨q1, ?_, hq2, q, by simp [Heap.set], ?_⟩
          · refine seg_congr _ _ _ _ ?_ _ hq1
            intro n hn
            have : n.1 ≠ e.1 := fun hc => heP (hc ▸ List.mem_map_of_mem hn)
            simp [Heap.set, this]
          · refine seg_congr _ _ _ _ ?_ _ hs2
            intro n hn
            have : n.1 ≠ e.1 := fun hc => hd4 (hc ▸ List.mem_map_of_mem hn)
            simp [Heap.set, this]
        · have hv := r.vals
          have hclt2 : c < t.items.length := by omega
          rw [List.map_append, List.map_cons] at hv ⊢
          obtain ⟨e1, e2⟩ := split_items (P.map Prod.snd) _ t.items c hv (by simp [hP])
          rw [List.drop_eq_getElem_cons hclt2, List.map_cons, List.cons.injEq] at e2
          have hmod : t.items.modify c (fun p => (p.1, a)) = t.items.take c ++ (t.items[c].1, a) :: t.items.drop (c + 1) := by
            rw [List.modify_eq_take_drop, List.drop_eq_getElem_cons hclt2]; rfl
          rw [e1, e2.2, hmod, show e.2 = emb t.items[c] from e2.1]
          simp [emb]
        · rw [hmapeq]; exact r.zero
        · rw [hmapeq]; exact r.nodup
        · rw [hmapeq]; exact r.tail
        · rw [hmapeq]; exact r.live
      · rw [hmapeq]; exact hpos
    · simp at hstep
  | getAutofree =>
    simp only [Spec.Cursor.step] at hstep
    split at hstep
    · rename_i p c hit
      simp only [Option.map_eq_some_iff, Prod.mk.injEq] at hstep
      obtain ⟨q, hq, rfl, rfl⟩ := hstep
      have hpos' := hpos
      rw [hit] at hpos'
      obtain ⟨b, hb, hc⟩ := pos_some hpos'.2
      obtain ⟨l, hl, -, hd⟩ := r.next _ b hc
      obtain ⟨q', hq', -, hd⟩ := hd c rfl
      rw [hq] at hq'
      simp only [Option.some.injEq] at hq'
      refine ⟨s, ?_, F, r, hpos⟩
      simp [LinkList.exec, hb, Heap.deref, hl, hd, hq']
    · simp at hstep

theorem Rel.run {alloc : List Nat → Nat} (halloc : ∀ l, alloc l ∉ l) (ops : List (Call α)) :
    ∀ {s : St α} {t t' : Spec.Cursor.St α} {os : List (Out α)}, Rel s t → Spec.Cursor.run t ops = some (t', os) →
    ∃ s', run alloc s ops = some (s', os) ∧ Rel s' t' := by
  induction ops with
  | nil =>
    intro s t t' os h hr
    simp only [Spec.Cursor.run, Option.some.injEq, Prod.mk.injEq] at hr
    obtain ⟨rfl, rfl⟩ := hr
    exact ⟨s, rfl, h⟩
  | cons op ops ih =>
    intro s t t' os h hr
    simp only [Spec.Cursor.run, Option.bind_eq_some_iff, Option.map_eq_some_iff, Prod.mk.injEq] at hr
    obtain ⟨⟨t1, o⟩, h1, ⟨t2, os2⟩, h2, rfl, rfl⟩ := hr
    obtain ⟨s1, e1, r1⟩ := h.exec alloc halloc op h1
    obtain ⟨s2, e2, r2⟩ := ih r1 h2
    exact ⟨s2, by simp [LinkList.run, e1, e2], r2⟩

end Wv.LinkList
