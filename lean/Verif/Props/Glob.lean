import Verif.Lemmas.Glob
/-
C64: a file name pattern and the regular expression it is translated to match the same strings.
-/
namespace Props
open Wv Wv.Glob Spec Spec.Glob

/-- Every pattern (Spec/Glob) is translated to a regular expression that the C library accepts, and that is found in exactly the
    strings which the pattern matches as a whole: `*` any characters but slashes, `?` one, sets, braces with their alternatives, nested
    in any way, and the other characters themselves, also those that are special in an expression. Sets match no slash where the
    sets do not have it, or the string has none.

    What is missing: a set whose characters include the slash (any `[!...]` but a few) matches it (C64_slash_fails); and what
    `G.Sound` excludes: `[^^` (C64_caret_fails) and, which `G.Ok` does not have, `[!]...]` (C64_bracket_fails). -/
theorem C64_match_partial (g : G) (hk : g.Ok false) (hs : g.Sound) :
    ∃ r re, toRegex g.text = some r ∧ Ere.parse r = some re ∧ ∀ s, (Ere.Found re s ↔ g.Matches false s) ∧
      (g.NoSlash ∨ 47 ∉ s → (Ere.Found re s ↔ g.Matches true s)) := by
  refine ⟨94 :: Lemmas.Glob.gout g ++ [36], _, ?_, Lemmas.Glob.whole_parse g hk hs, fun s => ?_⟩
  · unfold toRegex
    have := Lemmas.Glob.conv_ok g false [] (2 * g.text.length + 1) hk (Or.inl rfl) (Nat.le_refl _)
    rw [List.append_nil] at this
    rw [this]; rfl
  · exact ⟨Lemmas.Glob.whole_found g hs s, fun h => (Lemmas.Glob.whole_found g hs s).trans (Lemmas.Glob.strict_iff g s h).symm⟩

/-- `a*[0-9].{cc,h}`: it is such a pattern, it matches "ab7.h" and not "a/7.h". -/
example : ∃ g : G, g.Ok false ∧ g.Sound ∧ g.NoSlash ∧ g.text = [97, 42, 91, 48, 45, 57, 93, 46, 123, 99, 99, 44, 104, 125] ∧
    toRegex g.text = some [94, 97, 40, 91, 94, 47, 93, 42, 41, 40, 91, 48, 45, 57, 93, 41, 92, 46, 40, 99, 99, 124, 104, 41, 36] ∧
    g.Matches true [97, 98, 55, 46, 104] ∧ ¬ g.Matches true [97, 47, 55, 46, 104] := by
  refine ⟨.lit 97 (.star (.set [48, 45, 57] (.lit 46 (.alt (.more (.lit 99 (.lit 99 .done)) (.one (.lit 104 .done))) .done)))),
    ?_, ?_, ?_, ?_, ?_, ?_, ?_⟩
  · simp only [G.Ok, A.Ok]
    exact ⟨by decide, by decide, by decide, by decide, by decide, by decide, ⟨_, _, rfl, by decide, by decide, by decide⟩, by decide,
      by decide, by decide, by decide, by decide, by decide, by decide,
      ⟨⟨by decide, by decide, by decide, by decide, by decide, by decide, by decide, by decide, by decide, by decide, by decide,
        by decide, trivial⟩, by decide, by decide, by decide, by decide, by decide, by decide, trivial⟩, trivial⟩
  · simp [G.Sound, A.Sound, Ere.items, Ere.classStart]
  · simp [G.NoSlash, A.NoSlash, inSet, Ere.items, Ere.classStart, Ere.Item.has]
  · simp [G.text, A.text]
  · decide +kernel
  · simp only [G.Matches, A.Matches]
    refine ⟨_, rfl, [98], _, rfl, by decide, 55, _, rfl, ?_, by decide, _, rfl, [104], [], rfl, Or.inr ⟨_, rfl, rfl⟩, rfl⟩
    simp [inSet, Ere.items, Ere.classStart, Ere.Item.has]
  · simp only [G.Matches, A.Matches]
    rintro ⟨_, h, w, r, h2, hw, c, r2, rfl, hc, -, r3, rfl, -⟩
    cases h
    rcases w with _ | ⟨x, w⟩
    · cases h2
    · rw [List.cons_append] at h2
      obtain ⟨rfl, -⟩ := List.cons.inj h2
      simp at hw

/-- A pattern is refused just if it is not one: a set or a brace is not closed, there is nothing behind a backslash, or a set has a
    slash in it. -/
theorem C64_errors (p : List UInt8) : toRegex p = none ↔ ¬ ∃ g : G, g.Ok false ∧ g.text = p := by
  constructor
  · rintro h ⟨g, hk, rfl⟩
    have := Lemmas.Glob.conv_ok g false [] (2 * g.text.length + 1) hk (Or.inl rfl) (Nat.le_refl _)
    rw [List.append_nil] at this
    simp [toRegex, this] at h
  · intro h
    unfold toRegex
    cases hc : conv (2 * p.length + 1) false .normal p with
    | none => rfl
    | some q =>
      obtain ⟨g, hk, e, hs⟩ := Lemmas.Glob.conv_reads _ _ _ _ _ _ hc
      refine absurd ⟨g, hk, ?_⟩ h
      rcases hs with hs | ⟨hs, -⟩
      · rw [hs, List.append_nil] at e; exact e.symm
      · cases hs

/-- `{a,b` and `[a/]` are refused. -/
example : toRegex [123, 97, 44, 98] = none ∧ toRegex [91, 97, 47, 93] = none := by decide +kernel

/-- More steps than `toRegex` allows itself change nothing. -/
theorem C64_enough_steps (p : List UInt8) (n : Nat) (hn : 2 * p.length + 1 ≤ n) :
    conv n false .normal p = conv (2 * p.length + 1) false .normal p := by
  by_cases h : ∃ g : G, g.Ok false ∧ g.text = p
  · obtain ⟨g, hk, rfl⟩ := h
    have h1 := Lemmas.Glob.conv_ok g false [] (2 * g.text.length + 1) hk (Or.inl rfl) (Nat.le_refl _)
    have h2 := Lemmas.Glob.conv_ok g false [] n hk (Or.inl rfl) hn
    rw [List.append_nil] at h1 h2
    rw [h1, h2]
  · have : ∀ m, conv m false .normal p = none := by
      intro m
      cases hc : conv m false .normal p with
      | none => rfl
      | some q =>
        obtain ⟨g, hk, e, hs⟩ := Lemmas.Glob.conv_reads _ _ _ _ _ _ hc
        refine absurd ⟨g, hk, ?_⟩ h
        rcases hs with hs | ⟨hs, -⟩
        · rw [hs, List.append_nil] at e; exact e.symm
        · cases hs
    rw [this, this]

/-- `[!a]` matches a slash, which glob(7) forbids. -/
theorem C64_slash_fails : ∃ g : G, g.Ok false ∧ g.Sound ∧ ∃ r re s, toRegex g.text = some r ∧ Ere.parse r = some re ∧ Ere.Found re s ∧
    ¬ g.Matches true s := by
  have hk : (G.notSet [97] .done).Ok false := by simp [G.Ok]
  have hs : (G.notSet [97] .done).Sound := by simp [G.Sound, Ere.items]
  obtain ⟨r, re, h1, h2, h3⟩ := C64_match_partial _ hk hs
  refine ⟨_, hk, hs, r, re, [47], h1, h2, (h3 _).1.mpr ?_, ?_⟩
  · simp [G.Matches, inSet, Ere.items, Ere.Item.has]
  · simp [G.Matches]

/-- `[^^a]`, where `^` is one of the characters, becomes `(\^|[^a])`, and so matches "z". -/
theorem C64_caret_fails : ∃ g : G, g.Ok false ∧ g.text = [91, 94, 94, 97, 93] ∧ ∃ r re, toRegex g.text = some r ∧
    Ere.parse r = some re ∧ Ere.Found re [122] ∧ ¬ g.Matches false [122] := by
  refine ⟨.caretSet [94, 97] .done, by simp [G.Ok], by simp [G.text], [94, 40, 92, 94, 124, 91, 94, 97, 93, 41, 36], _, by decide +kernel,
    rfl, ⟨[], [122], [], rfl, ?_⟩, ?_⟩
  · exact .seq (u := []) .bol (.seq (u := [122]) (v := []) (.altR (.seq (u := [122]) (v := []) (.set (by decide)) .eps))
      (.seq (u := []) (v := []) .eol .eps))
  · simp [G.Matches, inSet, Ere.items, Ere.classStart, Ere.Item.has]

/-- `[!]a]`, any character but `]` and `a`, becomes `^([^])a]$`, in which the parenthesis is not closed. -/
theorem C64_bracket_fails : ∃ r, toRegex [91, 33, 93, 97, 93] = some r ∧ (Ere.parse r).isNone := by
  refine ⟨[94, 40, 91, 94, 93, 41, 97, 93, 36], by decide +kernel, ?_⟩
  decide +kernel

end Props
