import Verif.Model.Buf.Dyn
import Verif.Lemmas.Buf.InPlace
/-
The dynamic store is lawful, and what stealing sub-buffers does.
-/
namespace Wv.Buf

def lastN (k : Nat) (l : List Byte) : List Byte := l.drop (l.length - k)

theorem lastN_length (k : Nat) (l : List Byte) : (lastN k l).length = if l.length > k then k else l.length := by
  unfold lastN; rw [List.length_drop]; split <;> omega

theorem lastN_zero (l : List Byte) : lastN 0 l = [] := by simp [lastN]

theorem lastN_nil (k : Nat) : lastN k [] = [] := by simp [lastN]

theorem drop_clip (l : List Byte) (k : Nat) : l.drop k = l.drop (l.length - (l.length - k)) := by
  by_cases h : k ≤ l.length
  · congr 1; omega
  · rw [List.drop_of_length_le (by omega), List.drop_of_length_le (by omega)]

theorem lastN_drop (m k : Nat) (l : List Byte) : ∃ j, lastN m (l.drop k) = (lastN m l).drop j := by
  refine ⟨(l.length - m) + (k - (l.length - m)) - (l.length - m), ?_⟩
  unfold lastN
  rw [List.drop_drop, List.drop_drop, List.length_drop, drop_clip, drop_clip l (l.length - m + _)]
  congr 1; omega

theorem lastN_append (m n : Nat) (l t : List Byte) (h : t.length = n) : lastN (m + n) (l ++ t) = lastN m l ++ t := by
  unfold lastN
  rw [List.length_append, h, show l.length + n - (m + n) = l.length - m by omega, List.drop_append,
    show l.length - m - l.length = 0 by omega, List.drop_zero]

theorem lastN_self (m : Nat) (l : List Byte) (h : l.length ≤ m) : lastN m l = l := by
  unfold lastN; rw [show l.length - m = 0 by omega, List.drop_zero]

namespace Circ

theorem at_mk (s : Circ) (p : Loc) (off : Int) (n : Nat) (h : s.CAt p off n) : s.CAt ⟨0, p.idx⟩ off n :=
  ⟨h.1, h.2.1, fun h0 => ⟨rfl, (h.2.2 h0).2⟩⟩

end Circ

namespace Dyn

def flat (l : List Circ) : List Byte := (l.map Circ.ccont).flatten

theorem flat_nil : flat [] = [] := rfl
theorem flat_cons (b : Circ) (l : List Circ) : flat (b :: l) = b.ccont ++ flat l := by simp [flat]
theorem flat_append (a b : List Circ) : flat (a ++ b) = flat a ++ flat b := by simp [flat]

/-- The bytes that can be ungotten, for a list of buffers and maxungettable. -/
def histOf (l : List Circ) (m : Nat) : List Byte := match l with | [] => [] | b :: _ => lastN m b.chist

structure DInv (s : Dyn) : Prop where
  subs : ∀ b ∈ s.list, b.CInv
  used : s.totalused = (flat s.list).length
  max : s.list = [] → s.maxungettable = 0
  gran : 0 < s.granularity

def dhist (s : Dyn) : List Byte := histOf s.list s.maxungettable
def dcont (s : Dyn) : List Byte := flat s.list

def DAt (s : Dyn) (p : Loc) (off : Int) (n : Nat) : Prop :=
  -(s.dhist.length : Int) ≤ off ∧ off + n ≤ s.dcont.length ∧
  (0 < n → ∃ pre b post, s.list = pre ++ b :: post ∧ p.sub = pre.length ∧ (pre = [] ∨ ((flat pre).length : Int) ≤ off) ∧
    b.CAt ⟨0, p.idx⟩ (off - (flat pre).length) n)

theorem ungettable_eq (s : Dyn) (_h : s.DInv) : s.ungettable = s.dhist.length := by
  unfold ungettable dhist histOf
  cases hl : s.list with
  | nil => rfl
  | cons b bs => simp only [lastN_length, Circ.hist_length]

theorem roundup_ge (v b : Nat) (h : 0 < b) : v ≤ roundup v b := by
  unfold roundup
  have := Nat.mod_lt v h
  dsimp only; split <;> omega

theorem newbuffer_law (s : Dyn) (n : Nat) (hg : 0 < s.granularity) (hn : 0 < n) :
    ∃ b, s.newbuffer n = some b ∧ b.CInv ∧ b.ccont = [] ∧ b.chist = [] ∧ b.totalused = 0 ∧ n ≤ b.free := by
  unfold newbuffer
  rw [if_neg (by omega), Circ.reset, if_pos (Nat.zero_le _)]
  have h1 : n ≤ s.newsize n := by
    unfold newsize; dsimp only
    repeat' split
    all_goals omega
  have h2 := roundup_ge (s.newsize n) s.granularity hg
  have h3 : n ≤ roundup (s.newsize n) s.granularity := by omega
  exact ⟨_, rfl, ⟨by dsimp only; omega, by dsimp only; omega, Nat.le_refl _, Nat.zero_le _⟩, rfl, rfl, rfl, h3⟩

theorem coalesceLoop_law (post : List Circ) : ∀ (buf : Circ) (needed : Nat), buf.CInv → (∀ b ∈ post, b.CInv) → 0 < needed →
    needed ≤ (flat post).length → needed ≤ buf.free → ∃ buf' post', coalesceLoop buf needed post = some (buf', post') ∧
      buf'.CInv ∧ (∀ b ∈ post', b.CInv) ∧ buf'.ccont = buf.ccont ++ (flat post).take needed ∧
      flat post' = (flat post).drop needed ∧ ∃ k, buf'.chist = buf.chist.drop k := by
  induction post with
  | nil => intro buf needed _ _ h0 h1 _; rw [flat_nil] at h1; simp at h1; omega
  | cons b bs ih =>
    intro buf needed hb hp h0 h1 h2
    have hbi := hp b (by simp)
    have hbs : ∀ b ∈ bs, b.CInv := fun x hx => hp x (by simp [hx])
    rw [coalesceLoop]
    have hcl := Circ.cont_length b
    by_cases hz : b.totalused > 0
    · simp only [if_pos hz]
      generalize hc : (if b.totalused > needed then needed else b.totalused) = c
      have hc1 : c ≤ needed ∧ c ≤ b.totalused ∧ 0 < c ∧ (c < needed → c = b.totalused) := by rw [← hc]; split <;> omega
      obtain ⟨d, s, e1, e2, e3, e4, e5, ⟨k, e6⟩, e7, e8, -⟩ := basicmerge_law buf b c hb hbi (by
        show c ≤ b.ccont.length; omega) (by show c ≤ buf.free; omega)
      simp only [e1]
      have e4 : d.ccont = buf.ccont ++ b.ccont.take c := e4
      have e5 : s.ccont = b.ccont.drop c := e5
      have e6 : d.chist = buf.chist.drop k := e6
      have e7 : buf.free ≤ d.free + c := e7
      by_cases hd : needed - c = 0
      · rw [if_pos hd]
        have hcn : c = needed := by omega
        subst hcn
        refine ⟨d, s :: bs, rfl, e2, ?_, ?_, ?_, k, e6⟩
        · intro x hx
          rcases List.mem_cons.mp hx with rfl | hx
          · exact e3
          · exact hbs x hx
        · rw [e4, flat_cons, List.take_append_of_le_length (by omega)]
        · rw [flat_cons, flat_cons, e5, List.drop_append_of_le_length (by omega)]
      · rw [if_neg hd]
        have hcu : c = b.ccont.length := by rw [hcl]; exact hc1.2.2.2 (by omega)
        obtain ⟨b', p', r1, r2, r3, r4, r5, ⟨k2, r6⟩⟩ := ih d (needed - c) e2 hbs (by omega)
          (by rw [flat_cons, List.length_append] at h1; omega) (by omega)
        refine ⟨b', p', r1, r2, r3, ?_, ?_, k + k2, by rw [r6, e6, List.drop_drop]⟩
        · rw [r4, e4, flat_cons, List.take_append, hcu, List.take_length, List.take_of_length_le (i := needed) (by omega),
            List.append_assoc]
        · rw [r5, flat_cons, List.drop_append, List.drop_of_length_le (i := needed) (by omega), List.nil_append, hcu]
    · rw [if_neg hz]
      have hb0 : b.ccont = [] := List.eq_nil_of_length_eq_zero (by omega)
      rw [flat_cons, hb0, List.nil_append] at h1 ⊢
      exact ih buf needed hb hbs h0 h1 h2

theorem coalesce_law (s : Dyn) (isfirst : Bool) (buf : Circ) (post : List Circ) (count : Nat) (hg : 0 < s.granularity)
    (hb : buf.CInv) (hp : ∀ b ∈ post, b.CInv) (hc : count ≤ buf.ccont.length + (flat post).length)
    (hf : isfirst = true → ∃ t, s.list = buf :: t) :
    ∃ buf' post', s.coalesce isfirst buf post count = some (buf', post') ∧ buf'.CInv ∧ (∀ b ∈ post', b.CInv) ∧
      buf'.ccont ++ flat post' = buf.ccont ++ flat post ∧ count ≤ buf'.ccont.length ∧
      (isfirst = true → ∃ k, lastN s.maxungettable buf'.chist = (lastN s.maxungettable buf.chist).drop k) := by
  have hcl := Circ.cont_length buf
  have hhl := Circ.hist_length buf
  unfold coalesce
  by_cases h1 : count ≤ buf.totalused
  · simp only [if_pos h1]
    exact ⟨buf, post, rfl, hb, hp, rfl, by omega, fun _ => ⟨0, by simp⟩⟩
  simp only [if_neg h1]
  by_cases h2 : buf.free < count - buf.totalused
  · simp only [if_pos h2]
    generalize hkeep : (isfirst && decide (s.totalused ≠ 0)) = keep
    generalize hms : (if keep = true then s.ungettable else 0) = ms
    have hung : ∃ b, (if keep = true then buf.unget ms else some buf) = some b ∧ b.CInv ∧
        b.ccont = (if keep = true then lastN s.maxungettable buf.chist else []) ++ buf.ccont ∧
        (if keep = true then lastN s.maxungettable buf.chist else []).length = ms := by
      cases keep
      · exact ⟨buf, rfl, hb, rfl, by simpa using hms⟩
      · simp only [if_true] at hms ⊢
        have hfi : isfirst = true := by simp at hkeep; exact hkeep.1
        obtain ⟨t, ht⟩ := hf hfi
        have hms' : ms = (lastN s.maxungettable buf.chist).length := by
          rw [← hms]; unfold ungettable
          rw [ht]; simp only [lastN_length, Circ.hist_length]
        have hle : ms ≤ buf.chist.length := by rw [hms', lastN_length]; split <;> omega
        obtain ⟨b, u1, u2, u3, u4, u5⟩ := Circ.unget_law buf ms hb hle
        refine ⟨b, u1, u2, ?_, hms'.symm⟩
        rw [u4, lastN]
        congr 1
        rw [hms', lastN_length]
        split
        · rfl
        · rw [show buf.chist.length - s.maxungettable = 0 by omega, Nat.sub_self]
    obtain ⟨b, u1, u2, u3, u4⟩ := hung
    simp only [u1]
    obtain ⟨nb, n1, n2, n3, n4, n5, n6⟩ := newbuffer_law s (count + ms) hg (by omega)
    simp only [n1]
    generalize hh : (if keep = true then lastN s.maxungettable buf.chist else []) = hist at *
    have hbp : ∀ x ∈ b :: post, x.CInv := by
      intro x hx
      rcases List.mem_cons.mp hx with rfl | hx
      · exact u2
      · exact hp x hx
    obtain ⟨nb', post', l1, l2, l3, l4, l5, ⟨k, l6⟩⟩ := coalesceLoop_law (b :: post) nb (count + ms) n2 hbp (by omega)
      (by rw [flat_cons, u3, List.length_append, List.length_append, u4]; omega) n6
    simp only [l1]
    rw [n3, List.nil_append, flat_cons, u3] at l4
    rw [flat_cons, u3] at l5
    have hlen : nb'.ccont.length = count + ms := by
      rw [l4, List.length_take, List.length_append, List.length_append, u4]; omega
    obtain ⟨p, nb2, g1, g2, g3, ⟨k2, g4⟩, -⟩ := Circ.get_law nb' ms l2 (by omega)
    refine ⟨nb2, post', by rw [g1]; rfl, g2, l3, ?_, ?_, ?_⟩
    · rw [g3, l5, l4, ← List.drop_append_of_le_length (by rw [List.length_take, List.length_append, List.length_append, u4]; omega),
        List.take_append_drop, List.append_assoc, ← u4, List.drop_left]
    · rw [g3, List.length_drop]; omega
    · intro _
      have hnb : nb2.chist = hist := by
        rw [g4, l6, n4, l4, List.take_take, List.append_assoc, Nat.min_eq_left (by omega), ← u4, List.take_left]; simp
      rw [hnb]
      cases keep
      · simp only [Bool.false_eq_true, if_false] at hh
        refine ⟨(lastN s.maxungettable buf.chist).length, ?_⟩
        rw [List.drop_length, ← hh, lastN_nil]
      · simp only [if_true] at hh
        refine ⟨0, ?_⟩
        rw [← hh, List.drop_zero]
        apply lastN_self
        rw [lastN_length]; split <;> omega
  · simp only [if_neg h2]
    obtain ⟨b', post', l1, l2, l3, l4, l5, ⟨k, l6⟩⟩ := coalesceLoop_law post buf (count - buf.totalused) hb hp (by omega)
      (by omega) (by omega)
    simp only [l1]
    obtain ⟨p, b2, g1, g2, g3, ⟨k2, g4⟩, -⟩ := Circ.get_law b' 0 l2 (Nat.zero_le _)
    refine ⟨b2, post', by rw [g1]; rfl, g2, l3, ?_, ?_, ?_⟩
    · rw [g3, List.drop_zero, l4, l5, List.append_assoc, List.take_append_drop]
    · rw [g3, List.drop_zero, l4, List.length_append, List.length_take]; omega
    · intro _
      obtain ⟨j, hj⟩ := lastN_drop s.maxungettable (k + k2) buf.chist
      refine ⟨j, ?_⟩
      rw [← hj, g4, l6, List.take_zero, List.append_nil, List.drop_drop]

theorem strip_law (l : List Circ) : ∀ (m : Nat), (∀ b ∈ l, b.CInv) → 0 < (flat l).length → ∃ b post m',
    strip l m = (b :: post, m') ∧ (∀ x ∈ b :: post, x.CInv) ∧ flat (b :: post) = flat l ∧
      ∃ k, histOf (b :: post) m' = (histOf l m).drop k := by
  induction l with
  | nil => intro m _ h; simp [flat_nil] at h
  | cons b bs ih =>
    intro m hi h
    rw [strip]
    by_cases hz : b.totalused ≠ 0
    · rw [if_pos hz]
      exact ⟨b, bs, m, rfl, hi, rfl, 0, by simp⟩
    · rw [if_neg hz]
      have hb0 : b.ccont = [] := List.eq_nil_of_length_eq_zero (by rw [Circ.cont_length]; omega)
      obtain ⟨b', p', m', e1, e2, e3, k, e4⟩ := ih 0 (fun x hx => hi x (by simp [hx])) (by
        rw [flat_cons, hb0, List.nil_append] at h; exact h)
      refine ⟨b', p', m', e1, e2, by rw [e3, flat_cons, hb0, List.nil_append], (histOf (b :: bs) m).length, ?_⟩
      rw [List.drop_length, e4]
      have : histOf bs 0 = [] := by
        unfold histOf; cases bs
        · rfl
        · exact lastN_zero _
      rw [this]; simp

theorem list_ne (s : Dyn) (h : s.DInv) : ¬ (s.totalused ≠ 0 ∧ s.list = []) := by
  intro ⟨h1, h2⟩
  have := h.used
  rw [h2, flat_nil] at this
  exact h1 this

theorem get_law (s : Dyn) (n : Nat) (h : s.DInv) (hn : n ≤ s.dcont.length) : ∃ p s', s.get n = some (p, s') ∧ s'.DInv ∧
    s'.dcont = s.dcont.drop n ∧ (∃ k, s'.dhist = s.dhist.drop k ++ s.dcont.take n) ∧ s'.DAt p (-n) n := by
  have hu := h.used
  unfold get
  rw [if_neg (list_ne s h)]
  by_cases h0 : n = 0
  · subst h0
    rw [if_pos rfl]
    exact ⟨_, s, rfl, h, by simp, ⟨0, by simp⟩, by simp, by simp, by omega⟩
  rw [if_neg h0, if_pos (by rw [hu]; exact hn)]
  obtain ⟨b, post, m, s1, s2, s3, ks, s4⟩ := strip_law s.list s.maxungettable h.subs (by
    have : (flat s.list).length = s.dcont.length := rfl
    omega)
  simp only [s1]
  generalize hs' : ({ s with totalused := s.totalused - n, list := b :: post, maxungettable := m } : Dyn) = t
  have htg : t.granularity = s.granularity := by rw [← hs']
  have htl : t.list = b :: post := by rw [← hs']
  have htm : t.maxungettable = m := by rw [← hs']
  have htu : t.totalused = s.totalused - n := by rw [← hs']
  have hlen : s.dcont.length = b.ccont.length + (flat post).length := by
    show (flat s.list).length = _
    rw [← s3, flat_cons, List.length_append]
  have hco : ∃ b' post', (if b.totalused < n then t.coalesce true b post n else some (b, post)) = some (b', post') ∧ b'.CInv ∧
      (∀ b ∈ post', b.CInv) ∧ b'.ccont ++ flat post' = b.ccont ++ flat post ∧ n ≤ b'.ccont.length ∧
      ∃ k, lastN m b'.chist = (lastN m b.chist).drop k := by
    by_cases hlt : b.totalused < n
    · rw [if_pos hlt]
      obtain ⟨b', post', c1, c2, c3, c4, c5, c6⟩ := coalesce_law t true b post n (by rw [htg]; exact h.gran) (s2 b (by simp))
        (fun x hx => s2 x (by simp [hx])) (by omega) (fun _ => ⟨post, htl⟩)
      rw [htm] at c6
      exact ⟨b', post', c1, c2, c3, c4, c5, c6 rfl⟩
    · rw [if_neg hlt]
      exact ⟨b, post, rfl, s2 b (by simp), fun x hx => s2 x (by simp [hx]), rfl, by rw [Circ.cont_length]; omega, 0, by simp⟩
  obtain ⟨b', post', c1, c2, c3, c4, c5, kc, c6⟩ := hco
  simp only [c1]
  obtain ⟨p, b2, g1, g2, g3, ⟨k, g4⟩, g5, g6, g7⟩ := Circ.get_law b' n c2 c5
  have hall : b'.ccont ++ flat post' = s.dcont := by
    rw [c4, ← flat_cons, s3]; rfl
  have htake : b'.ccont.take n = s.dcont.take n := by
    rw [← hall, List.take_append_of_le_length c5]
  have hdl : (s.dcont.take n).length = n := by rw [List.length_take]; omega
  rw [htake] at g4
  have hhist : lastN (m + n) b2.chist = lastN m (b'.chist.drop k) ++ s.dcont.take n := by
    rw [g4, lastN_append _ _ _ _ hdl]
  obtain ⟨j, hj⟩ := lastN_drop m k b'.chist
  have hcont : flat (b2 :: post') = s.dcont.drop n := by
    rw [flat_cons, g3, ← List.drop_append_of_le_length c5, hall]
  refine ⟨⟨0, p.idx⟩, { s with totalused := s.totalused - n, list := b2 :: post', maxungettable := m + n },
    by rw [g1]; rfl, ⟨?_, ?_, ?_, h.gran⟩, hcont, ⟨ks + (kc + j), ?_⟩, ?_, ?_, ?_⟩
  · intro x hx
    rcases List.mem_cons.mp hx with rfl | hx
    · exact g2
    · exact c3 x hx
  · dsimp only
    rw [hcont, List.length_drop, hu]; rfl
  · intro hx; cases hx
  · show lastN (m + n) b2.chist = _
    rw [hhist, hj, c6, List.drop_drop]
    congr 1
    have : lastN m b.chist = s.dhist.drop ks := s4
    rw [this, List.drop_drop]
  · show -((lastN (m + n) b2.chist).length : Int) ≤ _
    rw [hhist, List.length_append, hdl]; omega
  · omega
  · intro _
    refine ⟨[], b2, post', rfl, rfl, Or.inl rfl, ?_⟩
    rw [flat_nil]
    simpa using Circ.at_mk _ _ _ _ g5

theorem unget_law (s : Dyn) (n : Nat) (h : s.DInv) (hn : n ≤ s.dhist.length) : ∃ s', s.unget n = some s' ∧ s'.DInv ∧
    s'.dhist = s.dhist.take (s.dhist.length - n) ∧ s'.dcont = s.dhist.drop (s.dhist.length - n) ++ s.dcont := by
  have hu := h.used
  unfold unget
  rw [if_neg (list_ne s h)]
  by_cases h0 : n = 0
  · subst h0
    rw [if_pos rfl]
    exact ⟨s, rfl, h, by simp, by simp⟩
  rw [if_neg h0]
  cases hl : s.list with
  | nil => simp [dhist, hl, histOf] at hn; omega
  | cons b bs =>
    have hdh : s.dhist = lastN s.maxungettable b.chist := by simp [dhist, hl, histOf]
    have hdl := lastN_length s.maxungettable b.chist
    rw [← hdh] at hdl
    have hbi := h.subs b (by rw [hl]; simp)
    have hle : n ≤ s.maxungettable ∧ n ≤ b.chist.length := by split at hdl <;> omega
    simp only [if_pos hle.1]
    obtain ⟨b', u1, u2, u3, u4, u5⟩ := Circ.unget_law b n hbi hle.2
    have hdrop : s.dhist.drop (s.dhist.length - n) = b.chist.drop (b.chist.length - n) := by
      rw [hdh, lastN, List.drop_drop]
      congr 1
      rw [List.length_drop]; omega
    refine ⟨{ s with list := b' :: bs, totalused := s.totalused + n, maxungettable := s.maxungettable - n },
      by rw [u1]; rfl, ⟨?_, ?_, ?_, h.gran⟩, ?_, ?_⟩
    · intro x hx
      rcases List.mem_cons.mp hx with rfl | hx
      · exact u2
      · exact h.subs x (by rw [hl]; simp [hx])
    · dsimp only
      rw [flat_cons, u4, hu, hl, flat_cons]
      simp only [List.length_append, List.length_drop]; omega
    · intro hx; cases hx
    · show lastN (s.maxungettable - n) b'.chist = _
      rw [hdh, u3]
      unfold lastN
      rw [List.length_take, List.length_drop, List.drop_take]
      congr 1
      · omega
      · congr 1; omega
    · show flat (b' :: bs) = _
      rw [flat_cons, u4, hdrop, dcont, hl, flat_cons, List.append_assoc]

theorem getLast_split (l : List Circ) (b : Circ) (h : l.getLast? = some b) : l = l.dropLast ++ [b] := by
  rw [List.getLast?_eq_some_iff] at h
  obtain ⟨ys, rfl⟩ := h
  simp

theorem histOf_snoc (l : List Circ) (b b' : Circ) (m k : Nat) (h : b'.chist = b.chist.drop k) :
    ∃ j, histOf (l ++ [b']) m = (histOf (l ++ [b]) m).drop j := by
  cases l with
  | nil =>
    simp only [List.nil_append, histOf, h]
    exact lastN_drop m k b.chist
  | cons c cs => exact ⟨0, by simp [histOf]⟩

theorem linkedalloc_law (s : Dyn) (n : Nat) (h : s.DInv) (hn : n ≤ s.lastfree) : ∃ p s' g, s.linkedalloc n = some (p, s') ∧
    s'.DInv ∧ g.length = n ∧ s'.dcont = s.dcont ++ g ∧ (∃ k, s'.dhist = s.dhist.drop k) ∧ s'.DAt p s.dcont.length n := by
  have hu := h.used
  unfold linkedalloc
  by_cases h0 : n = 0
  · subst h0
    rw [if_pos rfl]
    exact ⟨_, s, [], rfl, h, rfl, by simp, ⟨0, by simp⟩, by omega, by simp, by omega⟩
  rw [if_neg h0]
  unfold lastfree at hn
  cases hl : s.list.getLast? with
  | none => rw [hl] at hn; simp at hn; omega
  | some b =>
    rw [hl] at hn
    dsimp only at hn ⊢
    have hsplit := getLast_split _ _ hl
    generalize hpre : s.list.dropLast = pre at *
    have hbi := h.subs b (by rw [hsplit]; simp)
    obtain ⟨p, b', g, a1, a2, a3, a4, a5, a6, a7, a8⟩ := Circ.alloc_law b n hbi hn
    have hcont : flat (pre ++ [b']) = s.dcont ++ g := by
      rw [dcont, hsplit, flat_append, flat_append, flat_cons, flat_cons, flat_nil, List.append_nil, List.append_nil, a4,
        List.append_assoc]
    have hhist : ∃ k, histOf (pre ++ [b']) s.maxungettable = s.dhist.drop k := by
      rw [dhist, hsplit]
      exact histOf_snoc pre b b' _ b.chist.length (by rw [a5, List.drop_length])
    refine ⟨⟨s.list.length - 1, p.idx⟩, { s with list := pre ++ [b'], totalused := s.totalused + n }, g,
      by rw [a1]; rfl, ⟨?_, ?_, ?_, h.gran⟩, a3, hcont, hhist, ?_, ?_, ?_⟩
    · intro x hx
      rcases List.mem_append.mp hx with hx | hx
      · exact h.subs x (by rw [hsplit]; simp [hx])
      · rw [List.mem_singleton.mp hx]; exact a2
    · dsimp only
      rw [hcont, List.length_append, a3, hu]; rfl
    · intro hx; simp at hx
    · have : (0 : Int) ≤ (s.dcont.length : Int) := by omega
      omega
    · show _ ≤ ((flat (pre ++ [b'])).length : Int)
      rw [hcont, List.length_append, a3]; omega
    · intro _
      refine ⟨pre, b', [], rfl, ?_, Or.inr ?_, ?_⟩
      · show s.list.length - 1 = pre.length
        rw [hsplit]; simp
      · rw [dcont, hsplit, flat_append, List.length_append]; omega
      · have e : (s.dcont.length : Int) - (flat pre).length = (b.ccont.length : Int) := by
          rw [dcont, hsplit, flat_append, List.length_append, flat_cons, flat_nil, List.append_nil]; omega
        rw [e]
        exact Circ.at_mk _ p _ _ a6

theorem alloc_law (s : Dyn) (n : Nat) (h : s.DInv) : ∃ p s' g, s.alloc n = some (p, s') ∧ s'.DInv ∧ g.length = n ∧
    s'.dcont = s.dcont ++ g ∧ (∃ k, s'.dhist = s.dhist.drop k) ∧ s'.DAt p s.dcont.length n := by
  unfold alloc
  by_cases hf : n > s.lastfree
  · rw [if_pos hf]
    obtain ⟨b, n1, n2, n3, n4, n5, n6⟩ := newbuffer_law s n h.gran (by omega)
    simp only [n1]
    have hc : flat (s.list ++ [b]) = s.dcont := by
      rw [flat_append, flat_cons, flat_nil, n3]; simp [dcont]
    have hi : DInv { s with list := s.list ++ [b], totalused := s.totalused + b.totalused } := by
      refine ⟨?_, ?_, ?_, h.gran⟩
      · intro x hx
        rcases List.mem_append.mp hx with hx | hx
        · exact h.subs x hx
        · rw [List.mem_singleton.mp hx]; exact n2
      · dsimp only
        rw [hc, n5, h.used]; rfl
      · intro hx; simp at hx
    obtain ⟨p, s', g, e1, e2, e3, e4, ⟨k, e5⟩, e6⟩ := linkedalloc_law _ n hi (by
      unfold lastfree; dsimp only; rw [List.getLast?_append]; exact n6)
    have hd : dcont { s with list := s.list ++ [b], totalused := s.totalused + b.totalused } = s.dcont := hc
    rw [hd] at e4 e6
    refine ⟨p, s', g, e1, e2, e3, e4, ⟨k, ?_⟩, e6⟩
    rw [e5]
    congr 1
    unfold dhist
    cases hl : s.list with
    | nil => simp [histOf, h.max hl, lastN_zero]
    | cons c cs => simp [histOf]
  · rw [if_neg hf]
    exact linkedalloc_law s n h (by omega)

theorem unallocLoop_law (l : List Circ) : ∀ (n m : Nat), (∀ b ∈ l, b.CInv) → n ≤ (flat l.reverse).length →
    (l = [] → m = 0) → ∃ l' m', unallocLoop l n m = some (l', m') ∧ (∀ b ∈ l', b.CInv) ∧
      flat l'.reverse = (flat l.reverse).take ((flat l.reverse).length - n) ∧ (l' = [] → m' = 0) ∧
      ∃ k, histOf l'.reverse m' = (histOf l.reverse m).drop k := by
  induction l with
  | nil =>
    intro n m _ hn hm
    simp [flat_nil] at hn
    subst hn
    exact ⟨[], m, rfl, by simp, by simp [flat_nil], fun _ => hm rfl, 0, by simp⟩
  | cons b bs ih =>
    intro n m hi hn hm
    have hbi := hi b (by simp)
    have hcl := Circ.cont_length b
    have hflat : flat (b :: bs).reverse = flat bs.reverse ++ b.ccont := by
      rw [List.reverse_cons, flat_append, flat_cons, flat_nil, List.append_nil]
    rw [hflat, List.length_append] at hn
    rw [unallocLoop]
    by_cases h0 : n = 0
    · rw [if_pos h0]
      exact ⟨b :: bs, m, rfl, hi, by subst h0; simp, by simp, 0, by simp⟩
    rw [if_neg h0]
    by_cases h1 : n < b.totalused
    · rw [if_pos h1]
      obtain ⟨b', u1, u2, u3, u4, u5⟩ := Circ.unalloc_law b n hbi (by omega)
      refine ⟨b' :: bs, m, by rw [u1]; rfl, ?_, ?_, by simp, ?_⟩
      · intro x hx
        rcases List.mem_cons.mp hx with rfl | hx
        · exact u2
        · exact hi x (by simp [hx])
      · rw [hflat, List.reverse_cons, flat_append, flat_cons, flat_nil, List.append_nil, u3, List.length_append,
          List.take_append, List.take_of_length_le (l := flat bs.reverse) (by omega)]
        congr 2; omega
      · rw [List.reverse_cons, List.reverse_cons]
        exact histOf_snoc _ b b' m 0 (by rw [u4, List.drop_zero])
    · rw [if_neg h1]
      obtain ⟨l', m', e1, e2, e3, e4, k, e5⟩ := ih (n - b.totalused) (if bs = [] then 0 else m)
        (fun x hx => hi x (by simp [hx])) (by omega) (fun h => if_pos h)
      refine ⟨l', m', e1, e2, ?_, e4, ?_⟩
      · rw [e3, hflat, List.length_append, List.take_append_of_le_length (by omega)]
        congr 1; omega
      · cases hbs : bs with
        | nil =>
          subst hbs
          refine ⟨(histOf [b].reverse m).length, ?_⟩
          rw [e5, List.drop_length]
          simp [histOf]
        | cons c cs =>
          refine ⟨k, ?_⟩
          rw [e5, if_neg (by rw [hbs]; simp)]
          congr 1
          rw [← hbs, List.reverse_cons]
          have hne : bs.reverse ≠ [] := by rw [hbs]; simp
          cases hr : bs.reverse with
          | nil => exact absurd hr hne
          | cons d ds => simp [histOf]

theorem unalloc_law (s : Dyn) (n : Nat) (h : s.DInv) (hn : n ≤ s.dcont.length) : ∃ s', s.unalloc n = some s' ∧ s'.DInv ∧
    s'.dcont = s.dcont.take (s.dcont.length - n) ∧ (∃ k, s'.dhist = s.dhist.drop k) := by
  have hu := h.used
  have hd : s.dcont = flat s.list := rfl
  unfold unalloc
  rw [if_pos (by rw [hu, ← hd]; exact hn)]
  obtain ⟨l', m', e1, e2, e3, e4, k, e5⟩ := unallocLoop_law s.list.reverse n s.maxungettable
    (fun x hx => h.subs x (by simpa using hx)) (by rw [List.reverse_reverse]; exact hn) (fun hx => h.max (by simpa using hx))
  rw [List.reverse_reverse] at e3 e5
  refine ⟨{ s with list := l'.reverse, maxungettable := m', totalused := s.totalused - n }, by rw [e1]; rfl,
    ⟨?_, ?_, ?_, h.gran⟩, e3, k, e5⟩
  · intro x hx; exact e2 x (by simpa using hx)
  · dsimp only
    rw [e3, List.length_take, hu]; omega
  · intro hx; exact e4 (by simpa using hx)

theorem searchFwd_law (l : List Circ) : ∀ (off : Nat), off < (flat l).length → ∃ pre b post o,
    searchFwd l off = some (pre, b, post, o) ∧ l = pre ++ b :: post ∧ (flat pre).length + o = off ∧ o < b.totalused := by
  induction l with
  | nil => intro off h; simp [flat_nil] at h
  | cons b bs ih =>
    intro off h
    rw [searchFwd]
    by_cases h1 : off < b.totalused
    · rw [if_pos h1]; exact ⟨[], b, bs, off, rfl, rfl, by simp [flat_nil], h1⟩
    · rw [if_neg h1]
      have hcl := Circ.cont_length b
      rw [flat_cons, List.length_append] at h
      obtain ⟨pre, c, post, o, e1, e2, e3, e4⟩ := ih (off - b.totalused) (by omega)
      refine ⟨b :: pre, c, post, o, by rw [e1]; rfl, by rw [e2]; rfl, ?_, e4⟩
      rw [flat_cons, List.length_append]; omega

/-- Where an offset that is not before the start lies. -/
theorem search_law (l : List Circ) (off : Int) (h0 : 0 ≤ off) (h1 : off < (flat l).length) : ∃ pre b post o,
    search l off = some (pre, b, post, o) ∧ l = pre ++ b :: post ∧ ((flat pre).length : Int) + o = off ∧ 0 ≤ o ∧
      o < b.totalused := by
  obtain ⟨pre, b, post, o, e1, e2, e3, e4⟩ := searchFwd_law l off.toNat (by omega)
  refine ⟨pre, b, post, o, ?_, e2, by omega, by omega, by omega⟩
  unfold search
  rw [if_neg (by omega), e1]; rfl

theorem optpeekable_law (s : Dyn) (off : Int) (_h : s.DInv) (h0 : -(s.dhist.length : Int) ≤ off) (h1 : off < s.dcont.length) :
    0 < s.optpeekable off ∧ off + s.optpeekable off ≤ s.dcont.length := by
  unfold optpeekable
  by_cases hn : off < 0
  · unfold search
    rw [if_pos hn]
    cases hl : s.list with
    | nil => simp [dhist, hl, histOf] at h0; omega
    | cons b bs =>
      have hdh : s.dhist = lastN s.maxungettable b.chist := by simp [dhist, hl, histOf]
      have hle : (-off).toNat ≤ b.totalinit - b.totalused := by
        rw [hdh, lastN_length, Circ.hist_length] at h0
        split at h0 <;> omega
      simp only [if_pos hle]
      rw [Circ.peekable_in _ _ _ (by omega) (by omega)]
      have : s.dcont.length = b.totalused + (flat bs).length := by
        rw [dcont, hl, flat_cons, List.length_append, Circ.cont_length]
      omega
  · obtain ⟨pre, b, post, o, e1, e2, e3, e4, e5⟩ := search_law s.list off (by omega) h1
    simp only [e1]
    rw [Circ.peekable_in _ _ _ (by omega) e5]
    have : s.dcont.length = (flat pre).length + b.totalused + (flat post).length := by
      rw [dcont, e2, flat_append, flat_cons, List.length_append, List.length_append, Circ.cont_length]; omega
    omega

/-- A peek that does not start in the history: within one sub-buffer, or from the start of one. -/
theorem peek_law (s : Dyn) (off : Int) (n : Nat) (h : s.DInv) (h0 : 0 ≤ off) (hn : 0 < n) (h1 : off + n ≤ s.dcont.length)
    (h2 : n ≤ s.optpeekable off ∨ off = 0) : ∃ p s', s.mutablepeek off n = some (p, s') ∧ s'.DInv ∧
    (∃ k, s'.dhist = s.dhist.drop k) ∧ (n ≤ s.optpeekable off → s'.dhist = s.dhist) ∧ s'.dcont = s.dcont ∧
    s'.DAt p off n := by
  have hd : s.dcont = flat s.list := rfl
  obtain ⟨pre, b, post, o, e1, e2, e3, e4, e5⟩ := search_law s.list off h0 (by rw [← hd]; omega)
  unfold mutablepeek
  rw [if_neg (by omega)]
  have hopt : s.optpeekable off = peekableOf b.totalused (b.totalinit - b.totalused) o := by
    unfold optpeekable; simp only [e1]
  simp only [e1]
  have hbi := h.subs b (by rw [e2]; simp)
  have hpi : ∀ x ∈ post, x.CInv := fun x hx => h.subs x (by rw [e2]; simp [hx])
  have hcl := Circ.cont_length b
  have hdl : s.dcont.length = (flat pre).length + b.totalused + (flat post).length := by
    rw [hd, e2, flat_append, flat_cons, List.length_append, List.length_append, hcl]; omega
  have hpk := Circ.peekable_in b.totalused (b.totalinit - b.totalused) o (by omega) e5
  have hco : ∃ b' post', (if peekableOf b.totalused (b.totalinit - b.totalused) o < n then s.coalesce pre.isEmpty b post n
      else some (b, post)) = some (b', post') ∧ b'.CInv ∧ (∀ b ∈ post', b.CInv) ∧
      b'.ccont ++ flat post' = b.ccont ++ flat post ∧ o + n ≤ b'.ccont.length ∧
      (pre = [] → ∃ k, lastN s.maxungettable b'.chist = (lastN s.maxungettable b.chist).drop k) ∧
      (n ≤ s.optpeekable off → b'.chist = b.chist) := by
    by_cases hlt : peekableOf b.totalused (b.totalinit - b.totalused) o < n
    · rw [if_pos hlt]
      have hoff : off = 0 := by
        rcases h2 with h2 | h2
        · omega
        · exact h2
      have ho : o = 0 := by omega
      obtain ⟨b', post', c1, c2, c3, c4, c5, c6⟩ := coalesce_law s pre.isEmpty b post n h.gran hbi hpi (by omega)
        (fun hx => ⟨post, by rw [e2, List.isEmpty_iff.mp hx]; rfl⟩)
      exact ⟨b', post', c1, c2, c3, c4, by omega, fun hx => c6 (by rw [hx]; rfl), fun hx => by omega⟩
    · rw [if_neg hlt]
      exact ⟨b, post, rfl, hbi, hpi, rfl, by omega, fun _ => ⟨0, by simp⟩, fun _ => rfl⟩
  obtain ⟨b', post', c1, c2, c3, c4, c5, c6, c7⟩ := hco
  simp only [c1]
  obtain ⟨p, b2, m1, m2, m3, m4, m5, m6, m7⟩ := Circ.mutablepeek_law b' o n c2 (by omega) c5 hn (by omega)
  have hcont : flat (pre ++ b2 :: post') = s.dcont := by
    rw [hd, e2, flat_append, flat_append, flat_cons, flat_cons, m4, c4]
  have hhist : ∃ k, histOf (pre ++ b2 :: post') s.maxungettable = s.dhist.drop k := by
    unfold dhist
    rw [e2]
    cases pre with
    | nil => simp only [List.nil_append, histOf, m3]; exact c6 rfl
    | cons c cs => exact ⟨0, by simp [histOf]⟩
  refine ⟨⟨pre.length, p.idx⟩, { s with list := pre ++ b2 :: post' }, by rw [m1]; rfl, ⟨?_, ?_, ?_, h.gran⟩, hhist, ?_, hcont,
    ?_, ?_, ?_⟩
  · intro x hx
    rcases List.mem_append.mp hx with hx | hx
    · exact h.subs x (by rw [e2]; simp [hx])
    · rcases List.mem_cons.mp hx with rfl | hx
      · exact m2
      · exact c3 x hx
  · dsimp only
    rw [hcont, h.used]; rfl
  · intro hx; simp at hx
  · intro hx
    show histOf (pre ++ b2 :: post') s.maxungettable = _
    unfold dhist
    rw [e2]
    cases pre with
    | nil => simp only [List.nil_append, histOf, m3, c7 hx]
    | cons c cs => simp [histOf]
  · omega
  · show _ ≤ ((flat (pre ++ b2 :: post')).length : Int)
    rw [hcont]; exact h1
  · intro _
    refine ⟨pre, b2, post', rfl, rfl, Or.inr (by omega), ?_⟩
    have : off - ((flat pre).length : Int) = o := by omega
    rw [this]
    exact Circ.at_mk _ p _ _ m6

theorem split_get (pre post : List Circ) (b : Circ) : (pre ++ b :: post)[pre.length]? = some b := by simp

theorem split_set (pre post : List Circ) (b b' : Circ) : (pre ++ b :: post).set pre.length b' = pre ++ b' :: post := by
  simp

theorem read_law (s : Dyn) (p : Loc) (off : Int) (n m : Nat) (h : s.DInv) (ha : s.DAt p off n) (hm : m ≤ n) :
    s.read p m = some (((s.dhist ++ s.dcont).drop (s.dhist.length + off).toNat).take m) := by
  obtain ⟨a1, a2, a3⟩ := ha
  unfold read
  by_cases h0 : m = 0
  · subst h0; simp
  obtain ⟨pre, b, post, b1, b2, b3, b4⟩ := a3 (by omega)
  have hbi := h.subs b (by rw [b1]; simp)
  rw [if_neg h0, b2]
  have hg : s.list[pre.length]? = some b := by rw [b1]; exact split_get ..
  simp only [hg]
  rw [Circ.read_law b _ _ n m hbi b4 hm]
  congr 1
  have hcl := Circ.cont_length b
  have hhl := Circ.hist_length b
  have b41 := b4.1
  have b42 := b4.2.1
  have hcont : s.dcont = flat pre ++ (b.ccont ++ flat post) := by rw [dcont, b1, flat_append, flat_cons]
  by_cases hp : pre = []
  · subst hp
    rw [flat_nil, List.nil_append] at hcont
    have hdh : s.dhist = lastN s.maxungettable b.chist := by simp [dhist, b1, histOf]
    have hdl := lastN_length s.maxungettable b.chist
    rw [← hdh] at hdl
    have hx : s.dhist ++ s.dcont = ((b.chist ++ b.ccont) ++ flat post).drop (b.chist.length - s.maxungettable) := by
      rw [hcont, hdh, lastN, List.append_assoc, List.drop_append,
        show b.chist.length - s.maxungettable - b.chist.length = 0 by omega, List.drop_zero]
    simp only [flat_nil, List.length_nil, Int.natCast_zero, Int.sub_zero] at b41 b42 ⊢
    rw [hx, List.drop_drop]
    have e : b.chist.length - s.maxungettable + ((s.dhist.length : Int) + off).toNat = ((b.chist.length : Int) + off).toNat := by
      split at hdl <;> omega
    rw [e, List.drop_append_of_le_length (l₁ := b.chist ++ b.ccont) (by rw [List.length_append]; omega),
      List.take_append_of_le_length]
    rw [List.length_drop, List.length_append]
    omega
  · have b3 : ((flat pre).length : Int) ≤ off := by
      rcases b3 with b3 | b3
      · exact absurd b3 hp
      · exact b3
    have e1 : ((s.dhist.length : Int) + off).toNat = (s.dhist ++ flat pre).length + (off - (flat pre).length).toNat := by
      rw [List.length_append]; omega
    have e2 : ((b.chist.length : Int) + (off - ((flat pre).length : Int))).toNat =
        b.chist.length + (off - (flat pre).length).toNat := by omega
    rw [e1, e2, hcont, ← List.append_assoc, ← List.drop_drop, List.drop_left, ← List.drop_drop, List.drop_left,
      List.drop_append_of_le_length (by omega), List.take_append_of_le_length]
    rw [List.length_drop]; omega

theorem splice_append_left (a l d : List Byte) (i : Nat) (h : i + d.length ≤ a.length) :
    splice (a ++ l) i d = splice a i d ++ l := by
  unfold splice
  rw [List.take_append_of_le_length (by omega), List.drop_append_of_le_length h]
  simp

theorem splice_drop (l d : List Byte) (i j : Nat) (h : j ≤ i) (hi : i ≤ l.length) :
    splice (l.drop j) (i - j) d = (splice l i d).drop j := by
  unfold splice
  rw [List.drop_drop, List.append_assoc, List.append_assoc,
    List.drop_append_of_le_length (by rw [List.length_take]; omega), List.drop_take]
  congr 3; omega

theorem write_law (s : Dyn) (p : Loc) (off : Int) (n : Nat) (d : List Byte) (h : s.DInv) (ha : s.DAt p off n)
    (hd : d.length ≤ n) : ∃ s', s.write p d = some s' ∧ s'.DInv ∧ s'.dhist.length = s.dhist.length ∧
    s'.dhist ++ s'.dcont = splice (s.dhist ++ s.dcont) (s.dhist.length + off).toNat d ∧ s'.DAt p off n := by
  have ha' := ha
  obtain ⟨a1, a2, a3⟩ := ha
  unfold write
  by_cases h0 : d = []
  · subst h0
    exact ⟨s, by simp, h, rfl, by simp [splice], ha'⟩
  have hlen : 0 < d.length := List.length_pos_iff.mpr h0
  obtain ⟨pre, b, post, b1, b2, b3, b4⟩ := a3 (by omega)
  have hbi := h.subs b (by rw [b1]; simp)
  rw [if_neg h0, b2]
  have hg : s.list[pre.length]? = some b := by rw [b1]; exact split_get ..
  simp only [hg]
  have hcl := Circ.cont_length b
  have hhl := Circ.hist_length b
  have b41 := b4.1
  have b42 := b4.2.1
  have hcont : s.dcont = flat pre ++ (b.ccont ++ flat post) := by rw [dcont, b1, flat_append, flat_cons]
  obtain ⟨b', w1, w2, w3, w4, w5, w6, w7, -⟩ := Circ.write_law b _ _ n d hbi b4 hd
  have hul := Circ.cont_length b'
  have htot : b'.ccont.length = b.ccont.length := by
    have := congrArg List.length w5
    rw [splice_length _ _ _ (by rw [List.length_append]; omega), List.length_append, List.length_append] at this
    omega
  have hset : s.list.set pre.length b' = pre ++ b' :: post := by rw [b1]; exact split_set ..
  have hmain : (histOf (pre ++ b' :: post) s.maxungettable).length = s.dhist.length ∧
      histOf (pre ++ b' :: post) s.maxungettable ++ flat (pre ++ b' :: post) =
        splice (s.dhist ++ s.dcont) (s.dhist.length + off).toNat d := by
    by_cases hp : pre = []
    · subst hp
      rw [flat_nil, List.nil_append] at hcont
      simp only [flat_nil, List.length_nil, Int.natCast_zero, Int.sub_zero] at b41 b42 w5
      have hdh : s.dhist = lastN s.maxungettable b.chist := by simp [dhist, b1, histOf]
      have hdl := lastN_length s.maxungettable b.chist
      rw [← hdh] at hdl
      have hx : s.dhist ++ s.dcont = ((b.chist ++ b.ccont) ++ flat post).drop (b.chist.length - s.maxungettable) := by
        rw [hcont, hdh, lastN, List.append_assoc, List.drop_append,
          show b.chist.length - s.maxungettable - b.chist.length = 0 by omega, List.drop_zero]
      have hx' : histOf ([] ++ b' :: post) s.maxungettable ++ flat ([] ++ b' :: post) =
          ((b'.chist ++ b'.ccont) ++ flat post).drop (b'.chist.length - s.maxungettable) := by
        rw [List.nil_append, histOf, flat_cons, lastN, List.append_assoc, List.drop_append,
          show b'.chist.length - s.maxungettable - b'.chist.length = 0 by omega, List.drop_zero]
      refine ⟨?_, ?_⟩
      · rw [List.nil_append, histOf, hdh, lastN_length, lastN_length, w3]
      · rw [hx', hx, w5, w3, ← splice_append_left _ _ _ _ (by rw [List.length_append]; omega)]
        have e : ((s.dhist.length : Int) + off).toNat =
            ((b.chist.length : Int) + off).toNat - (b.chist.length - s.maxungettable) := by
          split at hdl <;> omega
        rw [e, splice_drop]
        · split at hdl <;> omega
        · simp only [List.length_append]; omega
    · have b3 : ((flat pre).length : Int) ≤ off := by
        rcases b3 with b3 | b3
        · exact absurd b3 hp
        · exact b3
      have hh : histOf (pre ++ b' :: post) s.maxungettable = s.dhist := by
        unfold dhist
        rw [b1]
        cases pre with
        | nil => exact absurd rfl hp
        | cons c cs => simp [histOf]
      refine ⟨by rw [hh], ?_⟩
      rw [hh]
      have e2 : ((b.chist.length : Int) + (off - ((flat pre).length : Int))).toNat =
          b.chist.length + (off - (flat pre).length).toNat := by omega
      rw [e2, splice_append_right] at w5
      have w5' := (List.append_inj w5 w3).2
      have e1 : ((s.dhist.length : Int) + off).toNat = (s.dhist ++ flat pre).length + (off - (flat pre).length).toNat := by
        rw [List.length_append]; omega
      rw [e1, hcont, ← List.append_assoc, splice_append_right, splice_append_left _ _ _ _ (by omega), ← w5', flat_append,
        flat_cons, List.append_assoc]
  have hcl' : (flat (pre ++ b' :: post)).length = s.dcont.length := by
    rw [hcont]
    simp only [flat_append, flat_cons, List.length_append]; omega
  refine ⟨{ s with list := pre ++ b' :: post }, by rw [w1]; simp only [Option.map_some, hset], ⟨?_, ?_, ?_, h.gran⟩, hmain.1,
    hmain.2, ?_, ?_, ?_⟩
  · intro x hx
    rcases List.mem_append.mp hx with hx | hx
    · exact h.subs x (by rw [b1]; simp [hx])
    · rcases List.mem_cons.mp hx with rfl | hx
      · exact w2
      · exact h.subs x (by rw [b1]; simp [hx])
  · dsimp only
    rw [hcl', h.used]; rfl
  · intro hx; simp at hx
  · have : dhist { s with list := pre ++ b' :: post } = histOf (pre ++ b' :: post) s.maxungettable := rfl
    rw [this, hmain.1]; exact a1
  · have : dcont { s with list := pre ++ b' :: post } = flat (pre ++ b' :: post) := rfl
    rw [this, hcl']; exact a2
  · intro _
    exact ⟨pre, b', post, rfl, b2, b3, w6⟩

theorem optgettable_law (l : List Circ) (h : ∀ b ∈ l, b.CInv) :
    optgettable l ≤ (flat l).length ∧ (flat l ≠ [] → 0 < optgettable l) := by
  induction l with
  | nil => simp [optgettable, flat_nil]
  | cons b bs ih =>
    have hb := (inferInstance : Lawful Circ).optgettable_law b (h b (by simp))
    have hb1 : b.optgettable ≤ b.ccont.length := hb.1
    have hb2 : b.ccont ≠ [] → 0 < b.optgettable := hb.2
    have hbs := ih (fun x hx => h x (by simp [hx]))
    rw [optgettable, flat_cons, List.length_append]
    by_cases hz : b.optgettable ≠ 0
    · rw [if_pos hz]; exact ⟨by omega, fun _ => by omega⟩
    · rw [if_neg hz]
      have hc : b.ccont = [] := by
        cases hcc : b.ccont with
        | nil => rfl
        | cons x xs => have := hb2 (by rw [hcc]; simp); omega
      rw [hc, List.nil_append]
      exact ⟨by have := hbs.1; simp; omega, hbs.2⟩

instance : Lawful Dyn where
  Inv := DInv
  hist := dhist
  cont := dcont
  At := DAt
  NegOk _ := False
  PeekOk s off n := n ≤ s.optpeekable off ∨ off = 0
  used_eq s h := h.used
  ungettable_eq := ungettable_eq
  optgettable_law s h := optgettable_law s.list h.subs
  get_law s n h hn := by
    obtain ⟨p, s', e1, e2, e3, e4, e5⟩ := get_law s n h hn
    exact ⟨p, s', e1, e2, e3, e4, e5, Nat.le_refl _⟩
  unget_law := unget_law
  zap_law s h := ⟨⟨by simp [Store.zap, zap], rfl, fun _ => rfl, h.gran⟩, rfl, rfl⟩
  optallocable_law s h _ := by
    have : ∀ x, 0 < if x = 0 then unlimited else x := by
      intro x
      split
      · decide
      · omega
    exact this _
  alloc_law s n h _ := by
    obtain ⟨p, s', g, e1, e2, e3, e4, e5, e6⟩ := alloc_law s n h
    exact ⟨p, s', g, e1, e2, e3, e4, e5, e6, Nat.le_add_right _ _⟩
  unalloc_law := unalloc_law
  optpeekable_law := optpeekable_law
  mutablepeek_law s off n h h0 h1 hn hneg h2 := by
    have h3 : 0 ≤ off := by
      by_cases h3 : off < 0
      · exact absurd (hneg h3) id
      · omega
    have hb := (optpeekable_law s off h h0 h1).2
    obtain ⟨p, s', e1, e2, e3, e4, e5, e6⟩ := peek_law s off n h h3 hn (by
      have h2 : n ≤ s.optpeekable off := h2
      omega) (Or.inl h2)
    exact ⟨p, s', e1, e2, e4 h2, e5, rfl, e6, id⟩
  peek_law s off n h h0 h1 hn hneg h2 := by
    have h3 : 0 ≤ off := by
      by_cases h3 : off < 0
      · exact absurd (hneg h3) id
      · omega
    obtain ⟨p, s', e1, e2, e3, e4, e5, e6⟩ := peek_law s off n h h3 hn h1 h2
    exact ⟨p, s', e1, e2, e3, fun h => by omega, e5, e6⟩
  at_bound s p off n ha := ⟨ha.1, ha.2.1⟩
  at_add s p off n k h ha hk := by
    obtain ⟨a1, a2, a3⟩ := ha
    refine ⟨by omega, by omega, ?_⟩
    intro h0
    obtain ⟨pre, b, post, b1, b2, b3, b4⟩ := a3 (by omega)
    refine ⟨pre, b, post, b1, b2, ?_, ?_⟩
    · rcases b3 with b3 | b3
      · exact Or.inl b3
      · exact Or.inr (by omega)
    · have := (inferInstance : Lawful Circ).at_add b ⟨0, p.idx⟩ _ n k (h.subs b (by rw [b1]; simp)) b4 hk
      have e : off + (k : Int) - ((flat pre).length : Int) = off - ((flat pre).length : Int) + k := by omega
      rw [e]; exact this
  read_law := read_law
  write_law s p off n d h ha hd := by
    obtain ⟨s', e1, e2, e3, e4, e5⟩ := write_law s p off n d h ha hd
    exact ⟨s', e1, e2, e3, rfl, e4, e5, id⟩

theorem histOf_append (l : List Circ) (b : Circ) (m : Nat) (h : l = [] → m = 0) : histOf (l ++ [b]) m = histOf l m := by
  cases l with
  | nil => simp [histOf, h rfl, lastN_zero]
  | cons c cs => simp [histOf]

theorem stealLoop_law (l : List Circ) : ∀ (dst src : Dyn) (n : Nat), dst.DInv → src.DInv → src.list = l →
    n ≤ src.dcont.length → ∃ d s c, stealLoop dst src l n = (d, s, c) ∧ d.DInv ∧ s.DInv ∧ c ≤ n ∧
      d.dcont = dst.dcont ++ src.dcont.take (n - c) ∧ s.dcont = src.dcont.drop (n - c) ∧ d.dhist = dst.dhist ∧
      ((s = src ∧ c = n) ∨ s.dhist = []) := by
  induction l with
  | nil =>
    intro dst src n hd hs hl hn
    exact ⟨dst, src, n, rfl, hd, hs, Nat.le_refl _, by simp, by simp, rfl, Or.inl ⟨rfl, rfl⟩⟩
  | cons b bs ih =>
    intro dst src n hd hs hl hn
    rw [stealLoop]
    by_cases hg : b.totalused > n
    · rw [if_pos hg]
      exact ⟨dst, src, n, rfl, hd, hs, Nat.le_refl _, by simp, by simp, rfl, Or.inl ⟨rfl, rfl⟩⟩
    rw [if_neg hg]
    have hcl := Circ.cont_length b
    have hsc : src.dcont = b.ccont ++ flat bs := by rw [dcont, hl, flat_cons]
    have hsu := hs.used
    rw [hl, flat_cons, List.length_append] at hsu
    dsimp only
    generalize hs1 : ({ src with list := bs, totalused := src.totalused - b.totalused, maxungettable := 0 } : Dyn) = s1
    generalize hd1 : ({ dst with list := dst.list ++ [b], totalused := dst.totalused + b.totalused } : Dyn) = d1
    have hs1i : s1.DInv := by
      rw [← hs1]
      refine ⟨fun x hx => hs.subs x (by rw [hl]; exact List.mem_cons_of_mem _ hx), ?_, fun _ => rfl, hs.gran⟩
      dsimp only; omega
    have hd1i : d1.DInv := by
      rw [← hd1]
      refine ⟨?_, ?_, by intro hx; simp at hx, hd.gran⟩
      · intro x hx
        rcases List.mem_append.mp hx with hx | hx
        · exact hd.subs x hx
        · rw [List.mem_singleton.mp hx]; exact hs.subs b (by rw [hl]; simp)
      · dsimp only
        rw [flat_append, flat_cons, flat_nil, List.append_nil, List.length_append, hd.used, hcl]
    have hd1c : d1.dcont = dst.dcont ++ b.ccont := by
      rw [← hd1]; simp [dcont, flat_append, flat_cons, flat_nil]
    have hs1c : s1.dcont = flat bs := by rw [← hs1]; rfl
    have hd1h : d1.dhist = dst.dhist := by
      rw [← hd1]; exact histOf_append _ _ _ hd.max
    have hs1h : s1.dhist = [] := by
      rw [← hs1, dhist]
      cases bs with
      | nil => rfl
      | cons c cs => exact lastN_zero _
    by_cases hz : n - b.totalused = 0
    · rw [if_pos hz]
      refine ⟨d1, s1, 0, rfl, hd1i, hs1i, Nat.zero_le _, ?_, ?_, hd1h, Or.inr hs1h⟩
      · rw [hd1c, hsc, List.take_append_of_le_length (by omega), List.take_of_length_le (by omega)]
      · rw [hs1c, hsc, show n - 0 = b.ccont.length by omega, List.drop_left]
    · rw [if_neg hz]
      obtain ⟨d, s, c, e1, e2, e3, e4, e5, e6, e7, e8⟩ := ih d1 s1 (n - b.totalused) hd1i hs1i (by rw [← hs1]) (by
        rw [hs1c]; rw [hsc, List.length_append] at hn; omega)
      refine ⟨d, s, c, e1, e2, e3, by omega, ?_, ?_, by rw [e7, hd1h], Or.inr ?_⟩
      · rw [e5, hd1c, hs1c, hsc, List.take_append, List.take_of_length_le (l := b.ccont) (by omega), List.append_assoc]
        congr 3; omega
      · rw [e6, hs1c, hsc, List.drop_append, List.drop_of_length_le (l := b.ccont) (by omega), List.nil_append]
        congr 1; omega
      · rcases e8 with ⟨rfl, -⟩ | e8
        · exact hs1h
        · exact e8

/-- `merge` between dynamic buffers. -/
theorem merge_law (dst src : Dyn) (n : Nat) (hd : dst.DInv) (hs : src.DInv) (hn : n ≤ src.dcont.length) (hu : n ≤ unlimited) :
    ∃ d s, merge dst src n = some (d, s) ∧ d.DInv ∧ s.DInv ∧ d.dcont = dst.dcont ++ src.dcont.take n ∧
      s.dcont = src.dcont.drop n ∧ (∃ k, d.dhist = dst.dhist.drop k) ∧
      ∃ k, s.dhist = (src.dhist ++ src.dcont.take n).drop k := by
  unfold merge
  by_cases h0 : n = 0
  · subst h0
    rw [if_pos rfl]
    exact ⟨dst, src, rfl, hd, hs, by simp, by simp, ⟨0, by simp⟩, 0, by simp⟩
  rw [if_neg h0]
  obtain ⟨d, s, c, e1, e2, e3, e4, e5, e6, e7, e8⟩ := stealLoop_law src.list dst src n hd hs rfl hn
  simp only [e1]
  by_cases hc : c = 0
  · subst hc
    rw [if_pos rfl]
    refine ⟨d, s, rfl, e2, e3, e5, e6, ⟨0, by simp [e7]⟩, ?_⟩
    rcases e8 with ⟨-, h⟩ | e8
    · omega
    · exact ⟨_, by rw [e8]; exact (List.drop_length).symm⟩
  · rw [if_neg hc]
    obtain ⟨d', s', f1, f2, f3, f4, f5, ⟨k, f6⟩, -, -, ⟨k2, f7⟩⟩ := basicmerge_law d s c e2 e3 (by
      show c ≤ s.dcont.length
      rw [e6, List.length_drop]; omega) (by show c ≤ unlimited; omega)
    have f4 : d'.dcont = d.dcont ++ s.dcont.take c := f4
    have f5 : s'.dcont = s.dcont.drop c := f5
    have f6 : d'.dhist = d.dhist.drop k := f6
    have f7 : s'.dhist = (s.dhist ++ s.dcont.take c).drop k2 := f7
    refine ⟨d', s', f1, f2, f3, ?_, ?_, ⟨k, by rw [f6, e7]⟩, ?_⟩
    · rw [f4, e5, e6, List.append_assoc, ← List.take_add]
      congr 2; omega
    · rw [f5, e6, List.drop_drop]; congr 1; omega
    · rcases e8 with ⟨rfl, rfl⟩ | e8
      · exact ⟨k2, f7⟩
      · rw [e8, List.nil_append] at f7
        refine ⟨src.dhist.length + (n - c) + k2, ?_⟩
        rw [f7, e6]
        have e9 : src.dcont.take n = src.dcont.take (n - c) ++ (src.dcont.drop (n - c)).take c := by
          rw [← List.take_add]; congr 1; omega
        rw [e9, ← List.drop_drop, ← List.append_assoc]
        congr 1
        have e10 : src.dhist.length + (n - c) = (src.dhist ++ src.dcont.take (n - c)).length := by
          rw [List.length_append, List.length_take]; omega
        rw [e10, List.drop_left]

end Dyn
end Wv.Buf
