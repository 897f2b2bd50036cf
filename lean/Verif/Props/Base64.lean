import Verif.Lemmas.Base64Spec
/-
C01 - C03: base64. A caller drives an encoder through `EncImpl.run` (a list of chunks, each with a flush flag, then
`finish`) and a decoder through `EncImpl.feed`.
-/
namespace Props
open Wv Wv.Base64

/-- C01: encode any data in any chunks, decode the text in any chunks: the data comes back, no side reports an error.
    On the encoder side: all input was consumed, `isok()` holds, `finish()` returned true, and each `encode()` of a
    non-empty chunk without flush returned true. -/
theorem C01_base64_roundtrip (cs ds : List (List Byte × Bool)) :
    let r := encoder.run newEncoder cs
    flat ds = r.2.1.out →
    (decoder.feed newDecoder {} ds).2.1.out = flat cs ∧
    (decoder.feed newDecoder {} ds).1.okay = true ∧
    r.2.1.inb = [] ∧ r.1.okay = true ∧ r.2.2.2 = true ∧
    ((∀ c ∈ cs, c.1 ≠ [] ∧ c.2 = false) → ∀ b ∈ r.2.2.1, b = true) := by
  obtain ⟨e, rs, h, hok, hrs⟩ := run_encoder cs
  simp only [h]
  intro hd
  obtain ⟨h1, h2⟩ := feed_decoder ds newDecoder [] rfl rfl
  obtain ⟨t1, t2, -⟩ := decLoop_text (flat cs)
  rw [hd] at h1 h2
  refine ⟨?_, ?_, trivial, hok, trivial, hrs⟩
  · simpa [t1] using h1
  · exact h2 (by rw [← (decLoop_flags (text (flat cs)) newDecoder rfl).1]; exact t2)

-- "Hello" in three chunks; the text cut after each '='.
example : (encoder.run newEncoder [(str ['H', 'e'], false), (str ['l'], false), (str ['l', 'o'], false)]).2.1.out =
    flat [(str ['S', 'G', 'V', 's', 'b', 'G', '8'], false), (str ['='], true)] := by decide +kernel

/-- C02: the text is RFC 4648 base64, whatever the chunks. -/
theorem C02_base64_is_rfc4648 (cs : List (List Byte × Bool)) :
    (encoder.run newEncoder cs).2.1.out = Spec.Base64.encode (flat cs) := by
  obtain ⟨e, rs, h, -⟩ := run_encoder cs
  rw [h]; exact Spec.Base64.text_eq _

example : (encoder.run newEncoder [(str ['H', 'e'], false), (str ['l'], false), (str ['l', 'o'], false)]).2.1.out =
    str ['S', 'G', 'V', 's', 'b', 'G', '8', '='] := by decide +kernel

/-- C03 (output): the bytes put out are those RFC 4648 assigns to the digits before the first foreign character, white
    space skipped, whatever the chunks. -/
theorem C03_output (ds : List (List Byte × Bool)) :
    (decoder.feed newDecoder {} ds).2.1.out = Spec.Base64.decode (flat ds) := by
  have := (feed_decoder ds newDecoder [] rfl rfl).1
  simp only [List.nil_append] at this
  rw [← Spec.Base64.decLoop_decode]; exact this

/-- C03 (chunking): two ways to cut the same text give the same output. -/
theorem C03_output_chunk_invariant (ds ds' : List (List Byte × Bool)) (h : flat ds = flat ds') :
    (decoder.feed newDecoder {} ds).2.1.out = (decoder.feed newDecoder {} ds').2.1.out := by
  rw [C03_output, C03_output, h]

example : flat [(str ['S', 'G', 'V'], false), (str ['s', '!', '='], true)] =
    flat [(str ['S'], true), (str ['G', 'V', 's', '!', '='], false)] := by decide

/-- C03 (white space): removing the white space changes neither the output nor, in one call, the error status. -/
theorem C03_whitespace (ds ds' : List (List Byte × Bool))
    (h : (flat ds).filter (fun c => !Spec.Base64.isWs c) = (flat ds').filter (fun c => !Spec.Base64.isWs c)) :
    (decoder.feed newDecoder {} ds).2.1.out = (decoder.feed newDecoder {} ds').2.1.out := by
  rw [C03_output, C03_output]
  simp only [Spec.Base64.decode]
  rw [← Spec.Base64.leadingDigits_filter, h, Spec.Base64.leadingDigits_filter]

/-- C03 (errors, one call): the decoder reports an error exactly when the text is not made of digits and white space
    followed by '=' and white space. -/
theorem C03_status_one_call (t : List Byte) (flush : Bool) (h : t ≠ [] ∨ flush = true) :
    (decoder.encode newDecoder ⟨t, []⟩ flush false).1.okay = Spec.Base64.wellFormed false t := by
  have he : decoder.encode newDecoder ⟨t, []⟩ flush false = dec_encode newDecoder ⟨t, []⟩ flush := by
    have : (!t.isEmpty || flush) = true := by rcases h with h | h <;> simp [h]
    simp only [EncImpl.encode, newDecoder, decoder, Bool.not_false, Bool.and_self, Bool.true_and, this, if_true,
      Bool.false_eq_true, if_false]
  rw [he, dec_encode]
  exact Spec.Base64.decLoop_okay t newDecoder rfl

/-- C03 (errors, any chunks): a foreign byte before any '=' is always reported. -/
theorem C03_garbage_rejected (ds : List (List Byte × Bool)) (pre post : List Byte) (c : Byte)
    (h : flat ds = pre ++ c :: post) (hpre : ch '=' ∉ pre) (hc : c ≠ ch '=')
    (hws : Spec.Base64.isWs c = false) (hd : Spec.Base64.valueOf? c = none) :
    (decoder.feed newDecoder {} ds).1.okay = false := by
  have := Spec.Base64.decLoop_not_finished (flat ds) newDecoder rfl rfl ⟨pre, c, post, h, hpre, hc, hws, hd⟩
  exact Spec.Base64.feed_decoder_bad ds newDecoder [] rfl rfl this.1 this.2

example : ∃ pre c post, flat [(str ['S', 'G'], false), (str ['!', '='], true)] = pre ++ c :: post ∧ ch '=' ∉ pre ∧
    c ≠ ch '=' ∧ Spec.Base64.isWs c = false ∧ Spec.Base64.valueOf? c = none :=
  ⟨str ['S', 'G'], ch '!', str ['='], by decide +kernel⟩

/-- C03 (errors, any chunks): a text that is fine in one call is fine in any chunks. -/
theorem C03_accepts (ds : List (List Byte × Bool)) (h : Spec.Base64.wellFormed false (flat ds) = true) :
    (decoder.feed newDecoder {} ds).1.okay = true := by
  refine (feed_decoder ds newDecoder [] rfl rfl).2 ?_
  rw [Spec.Base64.decLoop_okay _ _ rfl]; exact h

example : Spec.Base64.wellFormed false (flat [(str ['S', 'G', '\n'], false), (str ['=', ' ', '='], true)]) = true := by
  decide +kernel

/-- C03, negative part: the error status *does* depend on chunking once an '=' was seen: "YQ==!" is an error in one
    call and no error when cut after "YQ==" (the decoder is then finished and no longer looks at its input). -/
theorem C03_status_chunk_dependent_fails :
    ¬ ∀ ds ds' : List (List Byte × Bool), flat ds = flat ds' →
      (decoder.feed newDecoder {} ds).1.okay = (decoder.feed newDecoder {} ds').1.okay := by
  intro h
  have := h [(str ['Y', 'Q', '=', '=', '!'], false)] [(str ['Y', 'Q', '=', '='], false), (str ['!'], false)]
    (by decide +kernel)
  revert this
  decide +kernel

theorem lookup_digit (c : Byte) (v : Nat) (h : Spec.Base64.valueOf? c = some v) : v < 64 ∧ c = alphabetAt v := by
  have h1 := List.find?_some h
  have h2 := List.mem_of_find?_eq_some h
  rw [List.mem_range] at h2
  exact ⟨h2, by rw [alphabetAt_digit v h2]; exact (by simpa using h1 : Spec.Base64.digit v = c).symm⟩

/-- The state after `n` digits. -/
def afterDigits (n : Nat) : DState :=
  if n % 4 = 0 then .atbit0 else if n % 4 = 1 then .atbit2 else if n % 4 = 2 then .atbit4 else .atbit6

theorem decLoop_digits (t : List Byte) : ∀ (e : Enc DSt) (k : Nat), e.st.state = afterDigits k →
    (∀ c ∈ t, Spec.Base64.isWs c = true ∨ (Spec.Base64.valueOf? c).isSome) →
    (decLoop e t).2.2.2 = true ∧ (decLoop e t).1.okay = e.okay ∧ (decLoop e t).1.finished = e.finished ∧
    (decLoop e t).1.st.state = afterDigits (k + (Spec.Base64.leadingDigits t).length) := by
  induction t with
  | nil => intro e k h _; exact ⟨rfl, rfl, rfl, h⟩
  | cons c t ih =>
    intro e k h hall
    have ht : ∀ c ∈ t, Spec.Base64.isWs c = true ∨ (Spec.Base64.valueOf? c).isSome := fun c hc => hall c (by simp [hc])
    by_cases hw : Spec.Base64.isWs c = true
    · have hl : lookup c = 65 := by
        have : ∀ c : Byte, Spec.Base64.isWs c = true → lookup c = 65 := by
          intro c; revert c; exact forall_byte (by decide +kernel)
        exact this c hw
      rw [decLoop, hl, Spec.Base64.leadingDigits, if_pos hw]
      simpa using ih e k h ht
    · have hv := (hall c (by simp)).resolve_left hw
      obtain ⟨v, hv⟩ := Option.isSome_iff_exists.mp hv
      obtain ⟨hlt, hc⟩ := lookup_digit c v hv
      rw [Spec.Base64.leadingDigits, if_neg hw, hv, hc, decLoop_alpha e v hlt, h]
      simp only [List.length_cons]
      have hk : k + ((Spec.Base64.leadingDigits t).length + 1) = k + 1 + (Spec.Base64.leadingDigits t).length := by omega
      rw [hk]
      have h4 : k % 4 = 0 ∨ k % 4 = 1 ∨ k % 4 = 2 ∨ k % 4 = 3 := by omega
      rcases h4 with h4 | h4 | h4 | h4
      · have : afterDigits k = .atbit0 := by simp [afterDigits, h4]
        simp only [this]
        refine ih _ (k + 1) ?_ ht
        simp [afterDigits, show (k + 1) % 4 = 1 by omega]
      · have : afterDigits k = .atbit2 := by simp [afterDigits, h4]
        simp only [this]
        refine ih _ (k + 1) ?_ ht
        simp [afterDigits, show (k + 1) % 4 = 2 by omega]
      · have : afterDigits k = .atbit4 := by simp [afterDigits, h4]
        simp only [this]
        refine ih _ (k + 1) ?_ ht
        simp [afterDigits, show (k + 1) % 4 = 3 by omega]
      · have : afterDigits k = .atbit6 := by simp [afterDigits, h4]
        simp only [this]
        refine ih _ (k + 1) ?_ ht
        simp [afterDigits, show (k + 1) % 4 = 0 by omega]

/-- C03 (incomplete text): a flush of a text of digits and white space returns true exactly when the number of digits is
    a multiple of four, and is no permanent error in either case. -/
theorem C03_incomplete_reported (t : List Byte)
    (h : ∀ c ∈ t, Spec.Base64.isWs c = true ∨ (Spec.Base64.valueOf? c).isSome) :
    (decoder.encode newDecoder ⟨t, []⟩ true false).2.2 = decide ((Spec.Base64.leadingDigits t).length % 4 = 0) ∧
    (decoder.encode newDecoder ⟨t, []⟩ true false).1.okay = true := by
  have he : decoder.encode newDecoder ⟨t, []⟩ true false = dec_encode newDecoder ⟨t, []⟩ true := by
    simp only [EncImpl.encode, newDecoder, decoder, Bool.not_false, Bool.and_self, Bool.true_and, Bool.or_true, if_true,
      Bool.false_eq_true, if_false]
  obtain ⟨h1, h2, -, h4⟩ := decLoop_digits t newDecoder 0 rfl h
  rw [he]
  simp only [dec_encode, h1, h2, h4, Nat.zero_add]
  refine ⟨?_, rfl⟩
  generalize (Spec.Base64.leadingDigits t).length = n
  have h4 : n % 4 = 0 ∨ n % 4 = 1 ∨ n % 4 = 2 ∨ n % 4 = 3 := by omega
  rcases h4 with h4 | h4 | h4 | h4 <;> simp [afterDigits, h4]

example : ∀ c ∈ str ['S', 'G', ' ', 'V'], Spec.Base64.isWs c = true ∨ (Spec.Base64.valueOf? c).isSome := by decide +kernel

end Props
