import Verif.Lemmas.Hex
/- C04: hexadecimal encoder and decoder. -/
namespace Props
open Wv Wv.Hex

/-- C04 (encoder): two digits per byte, high digit first, in the chosen case, whatever the chunks. -/
theorem C04_hex_encodes (upper : Bool) (cs : List (List Byte × Bool)) :
    let r := (encoder upper).run newEncoder cs
    r.2.1.out = Spec.Hex.encode upper (flat cs) ∧ r.2.1.out.length = 2 * (flat cs).length ∧ r.1.okay = true ∧
    r.2.2.2 = true := by
  obtain ⟨rs, h, -⟩ := (encoder_pure upper).feed cs newEncoder [] rfl rfl
  have hl : ∀ l, (encLoop upper l).length = 2 * l.length := by
    intro l; induction l with
    | nil => rfl
    | cons c l ih => simp [encLoop, ih]; omega
  simp only [EncImpl.run, show ({} : Io) = ⟨[], []⟩ from rfl, h]
  simp [EncImpl.finish, newEncoder, encoder, ← encLoop_spec, hl, Enc.setfinished]

/-- C04 (round trip): decoding, in any chunks, any text that is the encoding of the data once white space is removed
    gives the data back without error, and a final flush succeeds. -/
theorem C04_hex_roundtrip (upper : Bool) (cs ds : List (List Byte × Bool))
    (h : (flat ds).filter (fun c => !Spec.Hex.isWs c) = ((encoder upper).run newEncoder cs).2.1.out) :
    let r := decoder.feed newDecoder {} ds
    r.2.1.out = flat cs ∧ r.1.okay = true ∧ (decoder.encode r.1 {} true false).2.2 = true := by
  rw [(C04_hex_encodes upper cs).1] at h
  obtain ⟨h1, h2⟩ := feed_decoder ds newDecoder [] rfl rfl
  obtain ⟨s1, s2, s3⟩ := decLoop_spec (flat ds) newDecoder rfl (by decide)
  obtain ⟨e1, e2, e3, e4⟩ := encode_ok upper (flat cs)
  simp only [newDecoder, Bool.false_eq_true, if_false, List.nil_append, Nat.zero_add] at h1 h2 s1 s2 s3 ⊢
  have hok : (decLoop { st := {} } (flat ds)).1.okay = true := by rw [s2, ← all_filter, h, e2]
  have h2nd := s3 hok
  rw [← leadingDigits_filter, h, e3] at h2nd
  have hfin := (decLoop_flags (flat ds) { st := {} } rfl rfl).2.2
  refine ⟨?_, ?_, ?_⟩
  · exact h1.trans (by rw [s1, ← leadingDigits_filter, h, e1])
  · rw [show ({} : Io) = ⟨[], []⟩ from rfl, h2]; exact hok
  · rw [show ({} : Io) = ⟨[], []⟩ from rfl, h2]
    simp only [EncImpl.encode, hok, hfin, decoder, decLoop, h2nd]
    rfl

example : (flat [(str ['4', ' ', '8'], false), (str ['6', 'f', '\n'], true)]).filter (fun c => !Spec.Hex.isWs c) =
    ((encoder false).run newEncoder [(str ['H'], true), (str ['o'], false)]).2.1.out := by decide +kernel

/-- C04 (decoder): the output never depends on the chunks and is the bytes of the leading digits; the decoder is in
    error exactly when a character is neither a hex digit (of either case) nor white space. -/
theorem C04_hex_decodes (ds : List (List Byte × Bool)) :
    (decoder.feed newDecoder {} ds).2.1.out = Spec.Hex.pairs (Spec.Hex.leadingDigits (flat ds)) ∧
    (decoder.feed newDecoder {} ds).1.okay = (flat ds).all (fun c => Spec.Hex.isWs c || (Spec.Hex.value? c).isSome) := by
  obtain ⟨h1, h2⟩ := feed_decoder ds newDecoder [] rfl rfl
  obtain ⟨s1, s2, s3⟩ := decLoop_spec (flat ds) newDecoder rfl (by decide)
  refine ⟨?_, ?_⟩
  · exact h1.trans (by simpa [newDecoder] using s1)
  · rw [show ({} : Io) = ⟨[], []⟩ from rfl, h2]; exact s2

example : (decoder.feed newDecoder {} [(str ['4', 'F', 'g', '1', '1'], false)]).2.1.out = [79] ∧
    (decoder.feed newDecoder {} [(str ['4', 'F', 'g', '1', '1'], false)]).1.okay = false := by decide +kernel

/-- C04 (odd digits): after any chunks, a flush succeeds exactly when no foreign character was met and the number of
    digits is even. -/
theorem C04_hex_odd_reported (ds : List (List Byte × Bool)) :
    (decoder.encode (decoder.feed newDecoder {} ds).1 {} true false).2.2 =
      ((flat ds).all (fun c => Spec.Hex.isWs c || (Spec.Hex.value? c).isSome) &&
        decide ((Spec.Hex.leadingDigits (flat ds)).length % 2 = 0)) := by
  obtain ⟨h1, h2⟩ := feed_decoder ds newDecoder [] rfl rfl
  obtain ⟨s1, s2, s3⟩ := decLoop_spec (flat ds) newDecoder rfl (by decide)
  have hfin := (decLoop_flags (flat ds) newDecoder rfl rfl).2.2
  rw [show ({} : Io) = ⟨[], []⟩ from rfl, h2, ← s2]
  cases hok : (decLoop newDecoder (flat ds)).1.okay
  · simp [EncImpl.encode, hok]
  · have h2nd := s3 hok
    simp only [newDecoder, Bool.false_eq_true, if_false, Nat.zero_add] at h2nd
    simp only [EncImpl.encode, hok, hfin, decoder, decLoop]
    simp only [newDecoder] at h2nd ⊢
    simp only [h2nd]
    generalize (Spec.Hex.leadingDigits (flat ds)).length = n
    have : n % 2 = 0 ∨ n % 2 = 1 := by omega
    rcases this with h | h <;> simp [h]

example : (decoder.encode (decoder.feed newDecoder {} [(str ['4', 'F', '1'], false)]).1 {} true false).2.2 = false ∧
    (decoder.encode (decoder.feed newDecoder {} [(str ['4'], true), (str ['F'], false)]).1 {} true false).2.2 = true := by
  decide +kernel

end Props
