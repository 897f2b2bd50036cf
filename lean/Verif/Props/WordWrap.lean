import Verif.Lemmas.WordWrap
/- C45: word wrapping. -/
namespace Props
open Wv Spec Spec.WordWrap

/-- C45 (width): whatever the text, the way it is cut into `encode()` calls and the flushes in between, the output never
    goes beyond column `w` (with tabs at multiples of eight). -/
theorem C45_width (w : Nat) (hw : 1 ≤ w) (cs : List (List Byte × Bool)) :
    fits w 0 ((WordWrap.encoder w).feed WordWrap.new {} cs).2.1.out :=
  (WordWrap.inv_feed hw cs WordWrap.new [] (WordWrap.inv_init w) rfl rfl).1.fitsOut

/-- C45 (memory): the number of cells of the line buffer in use (`curindex`) never exceeds its size `w`, after any calls
    `cs` and then any part `l` of the text of one more call. Each character adds at most one cell, so every cell written
    is inside the buffer. -/
theorem C45_line_in_bounds (w : Nat) (hw : 1 ≤ w) (cs : List (List Byte × Bool)) (l : List Byte) :
    (WordWrap.loop w ((WordWrap.encoder w).feed WordWrap.new {} cs).1.st l).1.line.length ≤ w := by
  have h := WordWrap.inv_loop hw l (WordWrap.inv_feed hw cs WordWrap.new [] (WordWrap.inv_init w) rfl rfl).1
  have h1 := WordWrap.endCol_mono (WordWrap.endCol 0 (((WordWrap.encoder w).feed WordWrap.new {} cs).2.1.out ++
    (WordWrap.loop w ((WordWrap.encoder w).feed WordWrap.new {} cs).1.st l).2)) _ h.nonl
  have h2 := h.col
  simp only [WordWrap.new] at *
  omega

/-- C45 (words): after a final flush the output has the non-blank characters of the input, in order, and what was
    separated stays separated. -/
theorem C45_words_kept (w : Nat) (hw : 1 ≤ w) (cs : List (List Byte × Bool)) :
    sameWords (flat cs) ((WordWrap.encoder w).feed WordWrap.new {} (cs ++ [([], true)])).2.1.out := by
  obtain ⟨h, -, hok, hfin⟩ := WordWrap.inv_feed hw cs WordWrap.new [] (WordWrap.inv_init w) rfl rfl
  have hlast := WordWrap.inv_flush h
  have heq : ((WordWrap.encoder w).feed WordWrap.new {} (cs ++ [([], true)])).2.1.out =
      ((WordWrap.encoder w).feed WordWrap.new {} cs).2.1.out ++
        (WordWrap.flushline ((WordWrap.encoder w).feed WordWrap.new {} cs).1.st).2 := by
    rw [feed_append]
    have he : ((WordWrap.encoder w).feed WordWrap.new {} cs).1.okay = true := hok
    have hf : ((WordWrap.encoder w).feed WordWrap.new {} cs).1.finished = false := hfin
    have hi : ((WordWrap.encoder w).feed WordWrap.new {} cs).2.1.inb = [] := by
      exact (WordWrap.inv_feed hw cs WordWrap.new [] (WordWrap.inv_init w) rfl rfl).2.1
    generalize (WordWrap.encoder w).feed WordWrap.new {} cs = g at he hf hi
    obtain ⟨⟨ok, fin, st⟩, ⟨inb, out⟩, rs⟩ := g
    simp only at he hf hi
    subst he hf hi
    simp [EncImpl.feed, EncImpl.encode, WordWrap.encoder, WordWrap.loop]
  have := hlast.same
  simp only [WordWrap.flushline, List.append_nil] at this
  unfold sameWords
  rw [heq]
  simpa [WordWrap.flushline] using this

/-- The statement that two words stay separated is not empty: "ab c" and "abc" differ, and "a b" wraps to "a\nb". -/
example : ¬ sameWords [97, 98, 32, 99] [97, 98, 99] := by
  simp [sameWords, marks, blank]
example : ((WordWrap.encoder 2).feed WordWrap.new {} [([97, 32, 98, 99], false), ([], true)]).2.1.out =
    [97, 10, 98, 99] := by decide +kernel
example : ((WordWrap.encoder 2).feed WordWrap.new {} [([97, 98, 99], false), ([], true)]).2.1.out =
    [97, 98, 10, 99] := by decide +kernel

/-- C45, needs a positive width: with `maxwidth` 0 the first visible character is stored in a line buffer of no
    cells. -/
theorem C45_zero_width_fails :
    ¬ ∀ cs, ((WordWrap.encoder 0).feed WordWrap.new {} cs).1.st.line.length ≤ 0 := by
  intro h
  exact absurd (h [([97], false)]) (by decide +kernel)

end Props
