import Verif.Lemmas.Format
/-
C61: formatting a string.
-/
namespace Props
open Wv Wv.Format
open Spec.Format (Field Piece Arg Fill)

namespace FormatFacts

theorem or3 (n : Nat) : n ≤ n ||| 3 ∧ n ||| 3 ≤ n + 3 := by
  constructor
  · exact Nat.left_le_or
  · have := Nat.or_lt_two_pow (x := n % 4) (y := 3) (n := 2) (by omega) (by omega)
    have e : n ||| 3 = n / 4 * 4 + (n % 4 ||| 3) := by
      have h1 : (n ||| 3) % 4 = (n % 4 ||| 3) := by
        have := Nat.or_mod_two_pow (a := n) (b := 3) (n := 2)
        simpa using this
      have h2 : (n ||| 3) / 4 = n / 4 := by
        have := Nat.or_div_two_pow (a := n) (b := 3) (n := 2)
        simpa using this
      omega
    omega

theorem format_eq (ps : List Piece) (args : List Arg) (hg : Spec.Format.Good args 0 ps)
    (hl : ∀ i, (Spec.Format.shown args i).length < 2 ^ 31) (ht : Spec.Format.reserved args 0 ps < 2 ^ 31)
    (hz : (0 : Byte) ∉ Spec.Format.out args 0 ps) :
    format (Spec.Format.write ps) (args.map Arg.value) =
      if (Spec.Format.out args 0 ps).length + 1 ≤ room (Spec.Format.reserved args 0 ps) then
        some (Spec.Format.out args 0 ps) else none := by
  have h1 := Lemmas.Format.items_write args ps 0 _ hg (Nat.le_refl _)
  have h2 := Lemmas.Format.size_eq args ps 0 0 hg hl (by omega) (by omega)
  have h3 := Lemmas.Format.render_eq args ps 0 hg
  have e : args.map Arg.value ++ List.replicate (20 - (args.map Arg.value).length) none = Lemmas.Format.argv args := by
    simp [Lemmas.Format.argv]
  rw [format, doFormat, e, h1, Option.bind_some, h2, Option.bind_some, Int.zero_add, if_neg (by omega), h3, Option.bind_some,
    Int.toNat_natCast, Lemmas.Format.takeWhile_all _ hz]

theorem show_length (f : Field) (s : List Byte) :
    (f.show s).length = max f.width (Spec.Format.cut f.prec s).length := by
  unfold Field.show
  cases f.fill <;> simp <;> omega

theorem show_reserved (f : Field) (s : List Byte) (h : f.prec = 0 ∨ f.width ≤ f.prec) :
    (f.show s).length = f.reserved s := by
  rw [show_length]
  unfold Field.reserved Spec.Format.cut
  by_cases h0 : f.prec = 0
  · simp [h0]
  · rw [if_neg h0, if_neg h0, List.length_take]; omega

theorem out_length (args : List Arg) (ps : List Piece) (k : Nat) (hg : Spec.Format.Good args k ps)
    (hr : Spec.Format.Roomy ps) : (Spec.Format.out args k ps).length = Spec.Format.reserved args k ps := by
  induction ps generalizing k with
  | nil => rfl
  | cons p ps ih =>
    have hr' : Spec.Format.Roomy ps := fun f hf => hr f (List.mem_cons_of_mem _ hf)
    cases p with
    | text t => simp only [Spec.Format.out, Spec.Format.reserved, List.length_append, ih k hg.2 hr']
    | percent => simp only [Spec.Format.out, Spec.Format.reserved, List.length_cons, ih k hg hr']; omega
    | field f =>
      simp only [Spec.Format.out, Spec.Format.reserved, List.length_append, ih _ hg.2.2.2 hr',
        show_reserved f _ (hr f (List.mem_cons_self ..))]
    | char n =>
      obtain ⟨-, ⟨c, hc⟩, hg⟩ := hg
      simp only [Spec.Format.out, Spec.Format.reserved, List.length_append, ih _ hg hr', hc, List.length_singleton]

end FormatFacts

/-- C61: the text a format gives is its pieces in order, each field filled with its own argument, taken literally: a field
    is padded to its width on the side its fill says, cut to its precision, and uses the next argument or the one it names;
    a null string or one not given shows as "(nil)"; a character is the byte with its code. This needs no field to be
    wider than its precision (`Roomy`). -/
theorem C61_format_partial (ps : List Piece) (args : List Arg) (hg : Spec.Format.Good args 0 ps) (hr : Spec.Format.Roomy ps)
    (hl : ∀ i, (Spec.Format.shown args i).length < 2 ^ 31) (ht : (Spec.Format.out args 0 ps).length < 2 ^ 31)
    (hz : (0 : Byte) ∉ Spec.Format.out args 0 ps) :
    format (Spec.Format.write ps) (args.map Arg.value) = some (Spec.Format.out args 0 ps) := by
  have he := FormatFacts.out_length args ps 0 hg hr
  rw [FormatFacts.format_eq ps args hg hl (by omega) hz, if_pos]
  have := (FormatFacts.or3 (header + Spec.Format.reserved args 0 ps + 1)).1
  unfold room
  omega

/-- "[%-6s|%05s|%4.4s|%s|%$2s|%c]%%" given "abc", "42", "formatted", nothing and 'X'. -/
example : ∃ (ps : List Piece) (args : List Arg), Spec.Format.Good args 0 ps ∧ Spec.Format.Roomy ps ∧
    Spec.Format.write ps = "[%-6s|%05s|%4.4s|%s|%$2s|%c]%%".toList.map ch ∧
    Spec.Format.out args 0 ps = "[abc   |00042|form|(nil)|42|X]%".toList.map ch ∧
    format (Spec.Format.write ps) (args.map Arg.value) = some ("[abc   |00042|form|(nil)|42|X]%".toList.map ch) := by
  refine ⟨[.text [ch '['], .field ⟨.left, 6, 0, 0⟩, .text [ch '|'], .field ⟨.zeros, 5, 0, 0⟩, .text [ch '|'],
    .field ⟨.right, 4, 4, 0⟩, .text [ch '|'], .field ⟨.right, 0, 0, 0⟩, .text [ch '|'], .field ⟨.right, 0, 0, 2⟩,
    .text [ch '|'], .char 0, .text [ch ']'], .percent],
    [.str (some ("abc".toList.map ch)), .str (some ("42".toList.map ch)), .str (some ("formatted".toList.map ch)), .str none,
      .code (ch 'X')], ?_, ?_, ?_, ?_, ?_⟩
  · simp only [Spec.Format.Good, Spec.Format.which, Spec.Format.after]
    refine ⟨by decide, by decide, by decide, by decide, by decide, by decide, by decide, by decide, by decide, by decide,
      by decide, by decide, by decide, by decide, by decide, by decide, by decide, by decide, by decide, by decide, by decide,
      by decide, ⟨ch 'X', rfl⟩, by decide, trivial⟩
  · intro f hf
    simp only [List.mem_cons, Piece.field.injEq, reduceCtorEq, List.not_mem_nil, or_false, false_or] at hf
    rcases hf with rfl | rfl | rfl | rfl | rfl <;> decide
  · decide +kernel
  · decide +kernel
  · decide +kernel

/-- C61 (arguments are not formats): "%s" gives back its argument, whatever is in it. -/
theorem C61_literal (s : List Byte) (hz : (0 : Byte) ∉ s) (hl : s.length < 2 ^ 31) :
    format [ch '%', ch 's'] [some s] = some s := by
  have h := C61_format_partial [.field ⟨.right, 0, 0, 0⟩] [.str (some s)]
    (by simp [Spec.Format.Good, Spec.Format.which]) (by simp [Spec.Format.Roomy])
    (by
      intro i
      unfold Spec.Format.shown
      cases i with
      | zero => simpa [Arg.value] using hl
      | succ i => simp)
    (by simpa [Spec.Format.out, Spec.Format.shown, Spec.Format.which, Arg.value, Field.show, Spec.Format.cut] using hl)
    (by simpa [Spec.Format.out, Spec.Format.shown, Spec.Format.which, Arg.value, Field.show, Spec.Format.cut] using hz)
  simpa [Spec.Format.write, Piece.write, Spec.Format.optional, Spec.Format.out, Spec.Format.shown, Spec.Format.which,
    Arg.value, Field.show, Spec.Format.cut] using h

example : format [ch '%', ch 's'] [some [ch '%', ch 's', ch '%']] = some [ch '%', ch 's', ch '%'] := by decide +kernel

/-- C61 (appending): "%s%s" gives one argument after the other. -/
theorem C61_append (a b : List Byte) (hz : (0 : Byte) ∉ a ++ b) (hl : (a ++ b).length < 2 ^ 31) :
    format [ch '%', ch 's', ch '%', ch 's'] [some a, some b] = some (a ++ b) := by
  have h := C61_format_partial [.field ⟨.right, 0, 0, 0⟩, .field ⟨.right, 0, 0, 0⟩] [.str (some a), .str (some b)]
    (by simp [Spec.Format.Good, Spec.Format.which, Spec.Format.after]) (by simp [Spec.Format.Roomy])
    (by
      intro i
      unfold Spec.Format.shown
      rw [List.length_append] at hl
      match i with
      | 0 => simp [Arg.value]; omega
      | 1 => simp [Arg.value]; omega
      | i + 2 => simp)
    (by simpa [Spec.Format.out, Spec.Format.shown, Spec.Format.which, Spec.Format.after, Arg.value, Field.show,
      Spec.Format.cut] using hl)
    (by simpa [Spec.Format.out, Spec.Format.shown, Spec.Format.which, Spec.Format.after, Arg.value, Field.show,
      Spec.Format.cut] using hz)
  simpa [Spec.Format.write, Piece.write, Spec.Format.optional, Spec.Format.out, Spec.Format.shown, Spec.Format.which,
    Spec.Format.after, Arg.value, Field.show, Spec.Format.cut] using h

/-- C61 (memory): the formatter reserves no more than its precision for a field, but writes the whole width. When that makes
    the text more than three bytes longer than what was reserved, it is written past the end of the buffer. -/
theorem C61_overflow (ps : List Piece) (args : List Arg) (hg : Spec.Format.Good args 0 ps)
    (hl : ∀ i, (Spec.Format.shown args i).length < 2 ^ 31) (ht : Spec.Format.reserved args 0 ps < 2 ^ 31)
    (hz : (0 : Byte) ∉ Spec.Format.out args 0 ps)
    (ho : Spec.Format.reserved args 0 ps + 3 < (Spec.Format.out args 0 ps).length) :
    format (Spec.Format.write ps) (args.map Arg.value) = none := by
  rw [FormatFacts.format_eq ps args hg hl ht hz, if_neg]
  have := (FormatFacts.or3 (header + Spec.Format.reserved args 0 ps + 1)).2
  unfold room
  omega

/-- C61 (memory): the text always fits when the formatter reserved enough for it. -/
theorem C61_fits (ps : List Piece) (args : List Arg) (hg : Spec.Format.Good args 0 ps)
    (hl : ∀ i, (Spec.Format.shown args i).length < 2 ^ 31) (ht : Spec.Format.reserved args 0 ps < 2 ^ 31)
    (hz : (0 : Byte) ∉ Spec.Format.out args 0 ps)
    (ho : (Spec.Format.out args 0 ps).length ≤ Spec.Format.reserved args 0 ps) :
    format (Spec.Format.write ps) (args.map Arg.value) = some (Spec.Format.out args 0 ps) := by
  rw [FormatFacts.format_eq ps args hg hl ht hz, if_pos]
  have := (FormatFacts.or3 (header + Spec.Format.reserved args 0 ps + 1)).1
  unfold room
  omega

/-- C61: the example in the formatter's own documentation writes past the end of its buffer: "%s%10.2s%-10s" of "foo",
    "blue" and 1234, said to give "foo        bl1234      ". -/
theorem C61_documented_example_fails :
    format ("%s%10.2s%-10s".toList.map ch) [some ("foo".toList.map ch), some ("blue".toList.map ch),
      some ("1234".toList.map ch)] = none ∧
    Spec.Format.out [.str (some ("foo".toList.map ch)), .str (some ("blue".toList.map ch)), .str (some ("1234".toList.map ch))] 0
      [.field ⟨.right, 0, 0, 0⟩, .field ⟨.right, 10, 2, 0⟩, .field ⟨.left, 10, 0, 0⟩] = "foo        bl1234      ".toList.map ch := by
  constructor <;> decide +kernel

/-- C61: a character conversion of an empty or null string does not give a blank: it ends the text there. -/
theorem C61_blank_character_fails :
    format ("a%cb".toList.map ch) [some []] = some [ch 'a'] ∧ format ("a%cb".toList.map ch) [none] = some [ch 'a'] := by
  constructor <;> decide +kernel

/-- C61: a precision written after the argument's number is ignored. -/
theorem C61_precision_after_number_fails :
    format ("%$1.2s".toList.map ch) [some ("blue".toList.map ch)] = some ("blue".toList.map ch) := by decide +kernel

end Props
