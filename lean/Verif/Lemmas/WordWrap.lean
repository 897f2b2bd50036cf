import Verif.Model.WordWrap
import Verif.Spec.WordWrap
import Verif.Lemmas.Encoder
import Mathlib.Data.List.Forall2
namespace Wv.WordWrap
open Spec.WordWrap

/-- column after a text -/
def endCol : Nat → List Byte → Nat
  | col, [] => col
  | col, c :: cs => endCol (adv col c) cs

def endMark : Bool → List Byte → Bool
  | p, [] => p
  | _, c :: cs => endMark (blank c) cs

theorem endCol_append (col : Nat) (a b : List Byte) : endCol col (a ++ b) = endCol (endCol col a) b := by
  induction a generalizing col with
  | nil => rfl
  | cons c a ih => simp [endCol, ih]

theorem endMark_append (p : Bool) (a b : List Byte) : endMark p (a ++ b) = endMark (endMark p a) b := by
  induction a generalizing p with
  | nil => rfl
  | cons c a ih => simp [endMark, ih]

theorem marks_append (p : Bool) (a b : List Byte) : marks p (a ++ b) = marks p a ++ marks (endMark p a) b := by
  induction a generalizing p with
  | nil => rfl
  | cons c a ih =>
    by_cases h : blank c <;> simp [marks, endMark, h, ih]

theorem fits_append (w col : Nat) (a b : List Byte) : fits w col (a ++ b) ↔ fits w col a ∧ fits w (endCol col a) b := by
  induction a generalizing col with
  | nil =>
    simp only [List.nil_append, fits, endCol]
    constructor
    · intro h
      refine ⟨?_, h⟩
      cases b <;> simp [fits] at h
      · exact h
      · exact h.1
    · exact fun h => h.2
  | cons c a ih => simp [fits, endCol, ih, and_assoc]

theorem fits_end (w col : Nat) (a : List Byte) (h : fits w col a) : endCol col a ≤ w := by
  induction a generalizing col with
  | nil => exact h
  | cons c a ih => exact ih _ h.2

theorem endCol_mono (col : Nat) (l : List Byte) (h : 10 ∉ l) : col + l.length ≤ endCol col l := by
  induction l generalizing col with
  | nil => simp [endCol]
  | cons c l ih =>
    have hc : c ≠ 10 := fun e => h (by simp [e])
    have hl : 10 ∉ l := fun e => h (by simp [e])
    have := ih (adv col c) hl
    have ha : col + 1 ≤ adv col c := by
      unfold adv; split
      · contradiction
      · split <;> omega
    simp only [List.length_cons, endCol]; omega

theorem endCol_word (col : Nat) (l : List Byte) (h : ∀ c ∈ l, blank c = false) : endCol col l = col + l.length := by
  induction l generalizing col with
  | nil => simp [endCol]
  | cons c l ih =>
    have hc : blank c = false := h c (by simp)
    simp [blank] at hc
    rw [endCol, ih _ (fun d hd => h d (by simp [hd]))]
    simp [adv, hc]; omega

theorem fits_of_end (w col : Nat) (l : List Byte) (h : 10 ∉ l) (he : endCol col l ≤ w) : fits w col l := by
  induction l generalizing col with
  | nil => exact he
  | cons c l ih =>
    refine ⟨?_, ih _ (fun e => h (by simp [e])) he⟩
    have := endCol_mono col (c :: l) h
    simp at this
    have h2 : endCol col (c :: l) ≤ w := he
    omega

theorem marks_blank (l : List Byte) (p : Bool) (h : ∀ c ∈ l, blank c = true) : marks p l = [] := by
  induction l generalizing p with
  | nil => rfl
  | cons c l ih =>
    simp [marks, h c (by simp)]
    exact ih _ (fun d hd => h d (by simp [hd]))

theorem endMark_blank (l : List Byte) (p : Bool) (h : ∀ c ∈ l, blank c = true) (hne : l ≠ []) : endMark p l = true := by
  induction l generalizing p with
  | nil => contradiction
  | cons c l ih =>
    by_cases hl : l = []
    · subst hl; simp [endMark, h c (by simp)]
    · exact ih _ (fun d hd => h d (by simp [hd])) hl

/-- Invariant. `inp` is the input so far, `out` the output so far, `w` the width asked for. -/
structure WInv (w : Nat) (inp out : List Byte) (s : St) : Prop where
  nonl : 10 ∉ s.line
  fitsOut : fits w 0 out
  col : endCol (endCol 0 out) s.line ≤ w
  wordle : s.wordindex ≤ s.line.length
  pre : ∀ c ∈ s.line.take s.wordindex, blank c = true
  word : s.inword = true → (∀ c ∈ s.line.drop s.wordindex, blank c = false) ∧ s.width = endCol (endCol 0 out) s.line
  noword : s.inword = false → (∀ c ∈ s.line, blank c = true) ∧
    (s.width = endCol (endCol 0 out) s.line ∨ w < s.width)
  same : List.Forall₂ (fun a b => a.1 = b.1 ∧ (a.2 = true → b.2 = true)) (marks true inp) (marks true (out ++ s.line))
  sep : endMark true inp = true → s.inword = false ∧ (endMark true (out ++ s.line) = true ∨ w ≤ s.width)

theorem inv_init (w : Nat) : WInv w [] [] {} where
  nonl := by simp
  fitsOut := Nat.zero_le _
  col := Nat.zero_le _
  wordle := Nat.le_refl _
  pre := by simp
  word := by simp
  noword := by simp [endCol]
  same := List.Forall₂.nil
  sep := by simp [endMark]

theorem inv_flush {w inp out s} (h : WInv w inp out s) :
    WInv w inp (out ++ (flushline s).2) (flushline s).1 := by
  have hf : fits w 0 (out ++ s.line) :=
    (fits_append ..).mpr ⟨h.fitsOut, fits_of_end w _ _ h.nonl h.col⟩
  have hcol : endCol 0 (out ++ s.line) = endCol (endCol 0 out) s.line := endCol_append ..
  refine ⟨by simp [flushline], hf, ?_, by simp [flushline], by simp [flushline], by simp [flushline], ?_, ?_, ?_⟩
  · simp only [flushline, endCol]; rw [hcol]; exact h.col
  · intro _
    simp only [flushline, endCol, hcol]
    refine ⟨by simp, ?_⟩
    cases hi : s.inword
    · exact (h.noword hi).2
    · exact Or.inl (h.word hi).2
  · simpa [flushline] using h.same
  · intro he
    have := h.sep he
    exact ⟨rfl, by simpa [flushline] using this.2⟩

/-- storing a blank that fits, or dropping it -/
theorem inv_blank {w inp out s} (h : WInv w inp out s) (hi : s.inword = false) (c : Byte) (hc : c ≠ 10)
    (hb : blank c = true) (nw : Nat) (hnw : nw = adv s.width c) :
    WInv w (inp ++ [c]) out
      (if nw ≤ w then { s with width := nw, line := s.line ++ [c] } else { s with width := nw }) := by
  have hadv : s.width + 1 ≤ adv s.width c := by
    unfold adv; split
    · contradiction
    · split <;> omega
  obtain ⟨hn1, hn2⟩ := h.noword hi
  have hpre : ∀ x ∈ s.line.take s.wordindex, blank x = true := h.pre
  have hm : marks true (inp ++ [c]) = marks true inp := by
    rw [marks_append]; simp [marks, hb]
  by_cases hle : nw ≤ w
  · rw [if_pos hle]
    have hw : s.width = endCol (endCol 0 out) s.line := by
      rcases hn2 with h | h
      · exact h
      · omega
    have hcol : endCol (endCol 0 out) (s.line ++ [c]) = nw := by
      rw [endCol_append, hnw, hw]; rfl
    refine ⟨?_, h.fitsOut, by simp only [hcol]; exact hle, ?_, ?_, by simp [hi], ?_, ?_, ?_⟩
    · simp [h.nonl, Ne.symm hc]
    · simp; exact Nat.le_succ_of_le h.wordle
    · intro x hx
      simp only at hx
      rw [List.take_append_of_le_length h.wordle] at hx
      exact hpre x hx
    · intro _
      refine ⟨?_, Or.inl hcol.symm⟩
      intro x hx
      simp at hx
      rcases hx with hx | rfl
      · exact hn1 x hx
      · exact hb
    · rw [hm]
      simp only [← List.append_assoc]
      rw [marks_append _ (out ++ s.line)]
      simp only [marks, hb, if_true, List.append_nil]
      exact h.same
    · intro _
      refine ⟨hi, Or.inl ?_⟩
      simp only [← List.append_assoc]
      rw [endMark_append]; simp [endMark, hb]
  · rw [if_neg hle]
    refine ⟨h.nonl, h.fitsOut, h.col, h.wordle, h.pre, by simp [hi], ?_, ?_, ?_⟩
    · intro _
      exact ⟨hn1, Or.inr (by simp; omega)⟩
    · rw [hm]; exact h.same
    · intro _
      exact ⟨hi, Or.inr (by simp; omega)⟩

theorem inv_step {w inp out s} (hw : 1 ≤ w) (h : WInv w inp out s) (c : Byte) :
    WInv w (inp ++ [c]) (out ++ (step w s c).2) (step w s c).1 := by
  unfold step
  by_cases h10 : c = 10
  · subst h10
    have hb : blank 10 = true := by decide
    rw [if_pos rfl]
    have hm : marks true (inp ++ [10]) = marks true inp := by
      rw [marks_append]; simp [marks, hb]
    have key : ∀ t : List Byte, 10 ∉ t → endCol (endCol 0 out) t ≤ w →
        List.Forall₂ (fun a b => a.1 = b.1 ∧ (a.2 = true → b.2 = true)) (marks true inp) (marks true (out ++ t)) →
        WInv w (inp ++ [10]) (out ++ (t ++ [10])) { line := [], width := 0, wordindex := 0, inword := false } := by
      intro t ht hcol hsame
      have hec : endCol 0 (out ++ (t ++ [10])) = 0 := by
        rw [endCol_append, endCol_append]; simp [endCol, adv]
      refine ⟨by simp, ?_, by simp only [endCol]; omega, by simp, by simp, by simp, ?_, ?_, ?_⟩
      · rw [fits_append]
        refine ⟨h.fitsOut, ?_⟩
        rw [fits_append]
        refine ⟨fits_of_end _ _ _ ht hcol, hcol, ?_⟩
        simp [adv, fits]
      · intro _
        refine ⟨by simp, Or.inl ?_⟩
        simp only [endCol, hec]
      · rw [hm, List.append_nil, ← List.append_assoc, marks_append]
        simp only [marks, hb, if_true, List.append_nil]
        exact hsame
      · intro _
        refine ⟨rfl, Or.inl ?_⟩
        rw [List.append_nil, ← List.append_assoc, endMark_append]; simp [endMark, hb]
    cases hi : s.inword
    · simp only [Bool.false_eq_true, if_false, flushline]
      apply key [] (by simp)
      · simp only [endCol]; exact fits_end _ _ _ h.fitsOut
      · have hs := h.same
        rw [marks_append, marks_blank s.line _ (h.noword hi).1, List.append_nil] at hs
        rw [List.append_nil]; exact hs
    · simp only [if_true, flushline]
      exact key s.line h.nonl h.col h.same
  rw [if_neg h10]
  by_cases h32 : c = 32
  · rw [if_pos h32]
    have hb : blank c = true := by rw [h32]; decide
    have hadv : ∀ n, n + 1 = adv n c := by intro n; rw [h32]; simp [adv]
    cases hi : s.inword
    · simp only [Bool.false_eq_true, if_false, List.append_nil]
      have := inv_blank h hi c h10 hb (s.width + 1) (hadv _)
      exact this
    · simp only [if_true]
      have := inv_blank (inv_flush h) rfl c h10 hb ((flushline s).1.width + 1) (hadv _)
      exact this
  rw [if_neg h32]
  by_cases h9 : c = 9
  · rw [if_pos h9]
    have hb : blank c = true := by rw [h9]; decide
    have hadv : ∀ n, (n + 8) / 8 * 8 = adv n c := by intro n; rw [h9]; simp [adv]
    cases hi : s.inword
    · simp only [Bool.false_eq_true, if_false, List.append_nil]
      have := inv_blank h hi c h10 hb _ (hadv s.width)
      exact this
    · simp only [if_true]
      have := inv_blank (inv_flush h) rfl c h10 hb _ (hadv (flushline s).1.width)
      exact this
  rw [if_neg h9]
  have hb : blank c = false := by simp [blank, h10, h32, h9]
  have hadv : ∀ n, adv n c = n + 1 := by intro n; simp [adv, h10, h9]
  have hmi : marks true (inp ++ [c]) = marks true inp ++ [(c, endMark true inp)] := by
    rw [marks_append]; simp [marks, hb]
  have hei : endMark true (inp ++ [c]) = false := by rw [endMark_append]; simp [endMark, hb]
  -- storing the character on a line that has room
  have store : ∀ (out : List Byte) (s : St), WInv w inp out s → s.width < w →
      (endMark true inp = true → endMark true (out ++ s.line) = true) →
      WInv w (inp ++ [c]) out
        (let s := if !s.inword then { s with inword := true, wordindex := s.line.length } else s
         { s with width := s.width + 1, line := s.line ++ [c] }) := by
    intro out s h hlt hsep
    have hwid : s.width = endCol (endCol 0 out) s.line := by
      cases hi : s.inword
      · rcases (h.noword hi).2 with h | h
        · exact h
        · omega
      · exact (h.word hi).2
    have hcol : endCol (endCol 0 out) (s.line ++ [c]) = s.width + 1 := by
      rw [endCol_append, ← hwid]; exact hadv _
    have hsame : List.Forall₂ (fun a b => a.1 = b.1 ∧ (a.2 = true → b.2 = true)) (marks true (inp ++ [c]))
        (marks true (out ++ (s.line ++ [c]))) := by
      rw [hmi, ← List.append_assoc, marks_append]
      simp only [marks, hb, Bool.false_eq_true, if_false]
      exact List.rel_append h.same (List.Forall₂.cons ⟨rfl, hsep⟩ List.Forall₂.nil)
    cases hi : s.inword
    · simp only [Bool.not_false, if_true]
      refine ⟨by simp [h.nonl, Ne.symm h10], h.fitsOut, by simp only [hcol]; omega, by simp, ?_, ?_, by simp, hsame,
        by simp [hei]⟩
      · intro x hx
        simp only [List.take_left] at hx
        exact (h.noword hi).1 x hx
      · intro _
        refine ⟨?_, hcol.symm⟩
        intro x hx
        simp only [List.drop_left, List.mem_singleton] at hx
        subst hx; exact hb
    · simp only [Bool.not_true, Bool.false_eq_true, if_false]
      have hle := h.wordle
      refine ⟨by simp [h.nonl, Ne.symm h10], h.fitsOut, by simp only [hcol]; omega, by simp; omega, ?_, ?_, by simp [hi], hsame,
        by simp [hei]⟩
      · intro x hx
        simp only at hx
        rw [List.take_append_of_le_length hle] at hx
        exact h.pre x hx
      · intro _
        refine ⟨?_, hcol.symm⟩
        intro x hx
        simp only at hx
        rw [List.drop_append_of_le_length hle] at hx
        simp only [List.mem_append, List.mem_singleton] at hx
        rcases hx with hx | rfl
        · exact (h.word hi).1 x hx
        · exact hb
  by_cases hge : s.width ≥ w
  · rw [if_pos hge]
    have hnl : blank 10 = true := by decide
    cases hi : s.inword
    · -- discard trailing whitespace
      simp only [Bool.not_false, if_true]
      obtain ⟨hb1, hb2⟩ := h.noword hi
      have hec : endCol 0 (out ++ [10]) = 0 := by rw [endCol_append]; simp [endCol, adv]
      have h' : WInv w inp (out ++ [10]) { s with line := [], wordindex := 0, width := 0 } := by
        refine ⟨by simp, ?_, by simp only [endCol, hec]; omega, by simp, by simp, by simp [hi], ?_, ?_, ?_⟩
        · rw [fits_append]
          refine ⟨h.fitsOut, ?_⟩
          simp [fits, adv, fits_end _ _ _ h.fitsOut]
        · intro _; exact ⟨by simp, Or.inl (by simp only [endCol, hec])⟩
        · have hs := h.same
          rw [marks_append, marks_blank s.line _ hb1, List.append_nil] at hs
          rw [List.append_nil, marks_append]
          simpa [marks, hnl] using hs
        · intro _
          refine ⟨hi, Or.inl ?_⟩
          rw [List.append_nil, endMark_append]; simp [endMark, hnl]
      have := store (out ++ [10]) _ h' (by simp; omega) (fun _ => by
        simp only [List.append_nil]; rw [endMark_append]; simp [endMark, hnl])
      simpa [hi] using this
    · simp only [Bool.not_true, Bool.false_eq_true, if_false]
      obtain ⟨hw1, hw2⟩ := h.word hi
      have hnosep : endMark true inp = false := by
        cases he : endMark true inp
        · rfl
        · have := (h.sep he).1; rw [hi] at this; simp at this
      by_cases hwi : s.wordindex = 0
      · -- hard line break
        simp only [hwi, if_true, flushline]
        have hec : endCol 0 (out ++ (s.line ++ [10])) = 0 := by
          rw [endCol_append, endCol_append]; simp [endCol, adv]
        have h' : WInv w inp (out ++ (s.line ++ [10])) { line := [], wordindex := 0, width := 0, inword := false } := by
          refine ⟨by simp, ?_, by simp only [endCol, hec]; omega, by simp, by simp, by simp, ?_, ?_, ?_⟩
          · rw [fits_append]
            refine ⟨h.fitsOut, ?_⟩
            rw [fits_append]
            exact ⟨fits_of_end _ _ _ h.nonl h.col, h.col, by simp [adv, fits]⟩
          · intro _; exact ⟨by simp, Or.inl (by simp only [endCol, hec])⟩
          · rw [List.append_nil, ← List.append_assoc, marks_append]
            simpa [marks, hnl] using h.same
          · intro he; rw [hnosep] at he; simp at he
        have := store _ _ h' (by simp; omega) (fun he => by rw [hnosep] at he; simp at he)
        simpa using this
      · -- soft line break
        simp only [hwi, if_false]
        have hle := h.wordle
        have hsplit : s.line = s.line.take s.wordindex ++ s.line.drop s.wordindex := (List.take_append_drop _ _).symm
        have hne : s.line.take s.wordindex ≠ [] := by
          intro he
          have := congrArg List.length he
          simp at this
          rcases this with h0 | h0
          · exact hwi h0
          · rw [h0] at hle; simp at hle; exact hwi hle
        have hnlt : 10 ∉ s.line.take s.wordindex := fun hm => h.nonl (List.mem_of_mem_take hm)
        have hcw : endCol (endCol 0 out) s.line =
            endCol (endCol 0 out) (s.line.take s.wordindex) + (s.line.drop s.wordindex).length := by
          conv_lhs => rw [hsplit, endCol_append]
          exact endCol_word _ _ hw1
        have hmono := endCol_mono (endCol 0 out) _ hnlt
        have hlen : 1 ≤ (s.line.take s.wordindex).length := List.length_pos_iff.mpr hne
        have hcol := h.col
        have hec : endCol 0 (out ++ [10]) = 0 := by rw [endCol_append]; simp [endCol, adv]
        have hcd : endCol 0 (s.line.drop s.wordindex) = (s.line.drop s.wordindex).length := by
          rw [endCol_word _ _ hw1]; simp
        have hsame : List.Forall₂ (fun a b => a.1 = b.1 ∧ (a.2 = true → b.2 = true)) (marks true inp)
            (marks true (out ++ [10] ++ s.line.drop s.wordindex)) := by
          have hs := h.same
          rw [hsplit, ← List.append_assoc, marks_append, marks_append _ out, marks_blank _ _ h.pre, List.append_nil,
            endMark_append, endMark_blank _ _ h.pre hne] at hs
          rw [marks_append, marks_append _ out, endMark_append]
          simpa [marks, endMark, hnl] using hs
        have h' : WInv w inp (out ++ [10])
            { s with line := s.line.drop s.wordindex, wordindex := 0, width := (s.line.drop s.wordindex).length } := by
          refine ⟨fun hm => h.nonl (List.mem_of_mem_drop hm), ?_, ?_, by simp, by simp, ?_, by simp [hi], hsame, ?_⟩
          · rw [fits_append]
            refine ⟨h.fitsOut, ?_⟩
            simp [fits, adv, fits_end _ _ _ h.fitsOut]
          · simp only [hec, hcd]; omega
          · intro _
            refine ⟨by simpa using hw1, ?_⟩
            simp only [hec, hcd]
          · intro he; rw [hnosep] at he; simp at he
        have := store _ _ h' (by simp only; omega) (fun he => by rw [hnosep] at he; simp at he)
        simpa [hi] using this
  · rw [if_neg hge]
    simp only [List.append_nil]
    have := store out s h (by omega) (fun he => by
      rcases (h.sep he).2 with h1 | h1
      · exact h1
      · omega)
    exact this

theorem inv_loop {w} (hw : 1 ≤ w) (l : List Byte) : ∀ {inp out s}, WInv w inp out s →
    WInv w (inp ++ l) (out ++ (loop w s l).2) (loop w s l).1 := by
  induction l with
  | nil => intro inp out s h; simpa [loop] using h
  | cons c l ih =>
    intro inp out s h
    have := ih (inv_step hw h c)
    simpa [loop, List.append_assoc] using this

theorem inv_feed {w} (hw : 1 ≤ w) (cs : List (List Byte × Bool)) : ∀ {inp} (e : Enc St) (o : List Byte),
    WInv w inp o e.st → e.okay = true → e.finished = false →
    WInv w (inp ++ flat cs) ((encoder w).feed e ⟨[], o⟩ cs).2.1.out ((encoder w).feed e ⟨[], o⟩ cs).1.st ∧
    ((encoder w).feed e ⟨[], o⟩ cs).2.1.inb = [] ∧
    ((encoder w).feed e ⟨[], o⟩ cs).1.okay = true ∧ ((encoder w).feed e ⟨[], o⟩ cs).1.finished = false := by
  induction cs with
  | nil => intro inp e o h hok hfin; simpa [EncImpl.feed, hok, hfin] using h
  | cons c cs ih =>
    obtain ⟨c, fl⟩ := c
    intro inp e o h hok hfin
    simp only [EncImpl.feed, List.nil_append, flat_cons]
    by_cases hc : (!c.isEmpty || fl) = true
    · have henc : (encoder w).encode e ⟨c, o⟩ fl false = (encoder w).encode' e ⟨c, o⟩ fl := by
        simp [EncImpl.encode, hok, hfin, hc]
      rw [henc]
      have h1 := inv_loop hw c h
      cases fl
      · simp only [encoder, Bool.false_eq_true, if_false, List.append_nil]
        have := ih { e with st := (loop w e.st c).1 } (o ++ (loop w e.st c).2) h1 hok hfin
        simpa [encoder, List.append_assoc] using this
      · simp only [encoder, if_true]
        have := ih { e with st := (flushline (loop w e.st c).1).1 } (o ++ (loop w e.st c).2 ++ (flushline (loop w e.st c).1).2)
          (inv_flush h1) hok hfin
        simpa [encoder, List.append_assoc] using this
    · have hc' : c = [] ∧ fl = false := by simpa using hc
      obtain ⟨rfl, rfl⟩ := hc'
      have henc : (encoder w).encode e ⟨[], o⟩ false false = (e, ⟨[], o⟩, false) := by
        simp [EncImpl.encode, hok, hfin]
      rw [henc]
      simpa using ih e o h hok hfin

end Wv.WordWrap
