import Verif.Props.UniConn
/- Messages of UniConf connections that need not be made of escaped arguments. -/
namespace Props
open Wv Wv.Tcl Wv.UniConn Spec.UniConn

namespace Ln

/-- Bytes that are read as one message. -/
structure Line (b : List Byte) : Prop where
  scan : ∀ r, gwLoop newlines {} (b ++ 10 :: r) = ({}, b, 10 :: r)
  head : ∃ c cs, b = c :: cs ∧ c ≠ 34 ∧ newlines.contains c = false
  nul : 0 ∉ b

def wire (bs : List (List Byte)) : List Byte := bs.flatMap fun b => b ++ [10]

theorem line_body (m : Msg) (h : CStrings m) : Line (Uc.body m) := ⟨Uc.gwLoop_body m, Uc.body_head m, Uc.body_nul h⟩

theorem getword_line (lead : List Byte) (hl : ∀ c ∈ lead, newlines.contains c = true) {b : List Byte} (h : Line b) :
    getword newlines false (lead ++ (b ++ [10])) = some (b, [10]) := by
  unfold getword
  rw [dropWhile_leading lead _ hl]
  obtain ⟨c, cs, hb, h34, hn⟩ := h.head
  have h1 := h.scan []
  unfold getwordRaw
  have e : (b ++ [10]).dropWhile newlines.contains = c :: (cs ++ [10]) := by
    rw [hb, List.cons_append, List.dropWhile_cons, hn]
    simp
  rw [e]
  rw [hb] at h1 ⊢
  simp only [List.cons_append] at h1
  simp [h34, h1]

theorem getword_inside (lead : List Byte) (hl : ∀ c ∈ lead, newlines.contains c = true) {b : List Byte} (hb0 : Line b) (P Q : List Byte)
    (h : b = P ++ 10 :: Q) : getword newlines false (lead ++ (P ++ [10])) = none := by
  unfold getword
  rw [dropWhile_leading lead _ hl]
  obtain ⟨c, cs, hb, h34, hn⟩ := hb0.head
  have h1 := hb0.scan []
  rw [h] at h1
  have h2 := Uc.gwLoop_inside (split := newlines) (by decide) P (Q ++ 10 :: []) Q {} rfl (by
    rw [List.append_assoc, List.cons_append] at h1; rw [h1])
  obtain ⟨p, ps, hp⟩ : ∃ p ps, P ++ [10] = p :: ps := by cases P <;> simp
  have hpc : p = c := by
    have h3 : p :: (ps ++ Q) = c :: cs := by
      rw [← hb, h, ← List.cons_append, ← hp]; simp
    exact (List.cons.inj h3).1
  subst hpc
  unfold getwordRaw
  rw [hp] at h2 ⊢
  rw [List.dropWhile_cons, hn]
  simp only [Bool.false_eq_true, if_false, beq_iff_eq, h34]
  rcases h2.2.2 with h3 | h3
  · simp [h3]
  · simp [h3]

/-- What holds between calls: the messages `bs` have not been given to the program, the bytes `future` have not
    arrived. -/
def Inv (bs : List (List Byte)) (future : List Byte) (c : Conn) : Prop :=
  c.closed = false ∧ ∃ lead L, (∀ x ∈ lead, newlines.contains x = true) ∧ c.msgbuf = lead ++ L ∧
    L ++ (c.inbuf ++ future) = wire bs ∧
    (L = [] ∨ ∃ b bs' P Q, bs = b :: bs' ∧ L = P ++ [10] ∧ b = P ++ 10 :: Q)

theorem readmsg_inv (future : List Byte) (bs : List (List Byte)) (hc : ∀ b ∈ bs, Line b) : ∀ (n : Nat) (c : Conn),
    c.inbuf.length = n → Inv bs future c →
    ((readmsg c).1 = none ∧ Inv bs future (readmsg c).2 ∧
      (∀ b bs', bs = b :: bs' → future.length > (wire bs').length)) ∨
    (∃ b bs', bs = b :: bs' ∧ (readmsg c).1 = some b ∧ Inv bs' future (readmsg c).2) := by
  intro n
  induction n using Nat.strongRecOn with
  | _ n ih =>
  intro c hn ⟨hcl, lead, L, hl, hm, hw, hL⟩
  have hnone : getword newlines false c.msgbuf = none := by
    rw [hm]
    rcases hL with rfl | ⟨b, bs', P, Q, e, rfl, hb⟩
    · rw [List.append_nil]; exact Uc.getword_lead_none lead hl
    · exact getword_inside lead hl (hc b (by rw [e]; simp)) P Q hb
  rw [readmsg, hnone]
  simp only
  by_cases h10 : 10 ∈ c.inbuf
  · obtain ⟨l, rest, hin, hl10⟩ := Uc.split_line c.inbuf h10
    have hgl : getline c = some (l, rest) := by
      unfold getline
      rw [if_pos (by simpa using h10), hin, (Uc.first_line l rest hl10).1, (Uc.first_line l rest hl10).2]
    rw [hgl]
    simp only
    -- the message these lines belong to
    obtain ⟨m, ms', hms⟩ : ∃ m ms', bs = m :: ms' := by
      cases bs with
      | nil =>
        have := congrArg List.length hw
        rw [hin] at this
        simp [wire] at this
      | cons m ms' => exact ⟨m, ms', rfl⟩
    have hmb : m ++ 10 :: wire ms' = wire bs := by
      rw [hms]; simp [wire]
    obtain ⟨B, hB⟩ : ∃ B, m = L ++ B := by
      rcases hL with rfl | ⟨m', ms'', P, Q, h1, rfl, hb⟩
      · exact ⟨m, by simp⟩
      · rw [hms] at h1
        obtain ⟨rfl, rfl⟩ := List.cons.inj h1
        exact ⟨Q, by rw [hb]; simp⟩
    have hrest : l ++ 10 :: (rest ++ future) = B ++ 10 :: wire ms' := by
      have h1 : L ++ (l ++ 10 :: (rest ++ future)) = L ++ (B ++ 10 :: wire ms') := by
        rw [← List.append_assoc L B, ← hB, hmb, ← hw, hin]; simp
      exact List.append_cancel_left h1
    have hm0 := hc m (by rw [hms]; simp)
    have hnul : 0 ∉ m := hm0.nul
    have hlB : ∀ x ∈ l, x ∈ m := by
      by_cases hb10 : 10 ∈ B
      · obtain ⟨a, b, h1, h2⟩ := Uc.split_line B hb10
        rw [h1, List.append_assoc, List.cons_append] at hrest
        have := (Uc.line_unique hl10 h2 hrest).1
        intro x hx
        rw [hB, h1, ← this]; simp [hx]
      · have := (Uc.line_unique hl10 hb10 hrest).1
        intro x hx
        rw [hB, ← this]; simp [hx]
    have hcs : l.takeWhile (· != 0) = l := Uc.takeWhile_all fun x hx => by
      simp only [bne_iff_ne]
      exact fun h0 => hnul (h0 ▸ hlB x hx)
    rw [hcs]
    by_cases hb10 : 10 ∈ B
    · -- more lines are needed
      obtain ⟨a, b, h1, h2⟩ := Uc.split_line B hb10
      rw [h1, List.append_assoc, List.cons_append] at hrest
      obtain ⟨rfl, h3⟩ := Uc.line_unique hl10 h2 hrest
      have hlt : rest.length < n := by rw [← hn, hin]; simp; omega
      have hI : Inv bs future { c with msgbuf := c.msgbuf ++ (l ++ [10]), inbuf := rest } := by
        refine ⟨hcl, lead, L ++ (l ++ [10]), hl, by simp [hm], ?_, Or.inr ⟨m, ms', L ++ l, b, hms, by simp, ?_⟩⟩
        · rw [← hw, hin]; simp
        · rw [hB, h1]; simp
      exact ih rest.length hlt _ rfl hI
    · -- the message is complete
      obtain ⟨rfl, h3⟩ := Uc.line_unique hl10 hb10 hrest
      right
      have hg : getword newlines false (c.msgbuf ++ (l ++ [10])) = some (m, [10]) := by
        rw [hm, hB]
        have := getword_line lead hl hm0
        rw [hB] at this
        simpa using this
      refine ⟨m, ms', hms, ?_, ?_⟩
      · rw [readmsg]; simp only [hg]
      · rw [readmsg]; simp only [hg]
        exact ⟨hcl, [10], [], by decide, by simp, by simpa using h3, Or.inl rfl⟩
  · have hgl : getline c = none := by
      unfold getline
      rw [if_neg (by simpa using h10), hcl]
      simp
    rw [hgl]
    simp only [hcl, Bool.false_eq_true, if_false]
    refine Or.inl ⟨trivial, ⟨hcl, lead, L, hl, hm, hw, hL⟩, ?_⟩
    intro m ms' hms
    have hmb : m ++ 10 :: wire ms' = wire bs := by
      rw [hms]; simp [wire]
    obtain ⟨B, hB⟩ : ∃ B, m = L ++ B := by
      rcases hL with rfl | ⟨m', ms'', P, Q, h1, rfl, hb⟩
      · exact ⟨m, by simp⟩
      · rw [hms] at h1
        obtain ⟨rfl, rfl⟩ := List.cons.inj h1
        exact ⟨Q, by rw [hb]; simp⟩
    have hrest : c.inbuf ++ future = B ++ 10 :: wire ms' := by
      have h1 : L ++ (c.inbuf ++ future) = L ++ (B ++ 10 :: wire ms') := by
        rw [← List.append_assoc L B, ← hB, hmb, ← hw]
      exact List.append_cancel_left h1
    refine Decidable.byContradiction fun hlt => ?_
    have hlen := congrArg List.length hrest
    simp only [List.length_append, List.length_cons] at hlen
    have h10' : (10 : Byte) ∈ (c.inbuf ++ future).take c.inbuf.length := by
      rw [hrest]
      rw [List.take_append]
      rw [List.mem_append]
      right
      obtain ⟨k, hk⟩ : ∃ k, c.inbuf.length - B.length = k + 1 := ⟨c.inbuf.length - B.length - 1, by omega⟩
      rw [hk]; simp
    rw [List.take_left' rfl] at h10'
    exact h10 h10'

theorem arrive_inv {bs : List (List Byte)} {b future : List Byte} {c : Conn} (h : Inv bs (b ++ future) c) : Inv bs future (arrive c b) := by
  obtain ⟨hcl, lead, L, hl, hm, hw, hL⟩ := h
  exact ⟨hcl, lead, L, hl, hm, by rw [← hw]; simp [arrive], hL⟩

/-- More is written. -/
theorem write_inv {bs : List (List Byte)} {future : List Byte} {c : Conn} (h : Inv bs future c) (more : List (List Byte)) :
    Inv (bs ++ more) (future ++ wire more) c := by
  obtain ⟨hcl, lead, L, hl, hm, hw, hL⟩ := h
  refine ⟨hcl, lead, L, hl, hm, ?_, ?_⟩
  · rw [← List.append_assoc c.inbuf, ← List.append_assoc L, hw]; simp [wire]
  · rcases hL with h | ⟨b, bs', P, Q, e, h⟩
    · exact Or.inl h
    · exact Or.inr ⟨b, bs' ++ more, P, Q, by rw [e]; rfl, h⟩

theorem new_inv : Inv [] [] {} := ⟨rfl, [], [], by simp, rfl, rfl, Or.inl rfl⟩

end Ln
end Props
