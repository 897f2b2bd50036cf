import Verif.Lemmas.Backslash
/- C05: backslash escaping. -/
namespace Props
open Wv Wv.Backslash

/-- C05 (partial: `Good` excludes the sets holding a character with a meaning after a backslash, see the negation
    below; and no flush is asked of the decoder in the middle of the text): escaping in any chunks, then unescaping in
    any chunks followed by one flush, gives the data back, without error. -/
theorem C05_backslash_roundtrip_partial (nasties : List Byte) (hn : Spec.Backslash.Good nasties)
    (cs ds : List (List Byte × Bool))
    (h : flat ds = ((encoder nasties).run newEncoder cs).2.1.out) (hfl : ∀ d ∈ ds, d.2 = false) :
    let r := decoder.feed newDecoder {} ds
    let f := decoder.encode r.1 r.2.1 true false
    r.2.1.out = flat cs ∧ f.2.1.out = flat cs ∧ f.2.2 = true ∧ f.1.okay = true := by
  obtain ⟨rs, he, -⟩ := (encoder_pure nasties).feed cs newEncoder [] rfl rfl
  have ho : ((encoder nasties).run newEncoder cs).2.1.out = encLoop nasties (flat cs) := by
    simp only [EncImpl.run, show ({} : Io) = ⟨[], []⟩ from rfl, he]
    simp [EncImpl.finish, newEncoder, encoder, Enc.setfinished]
  rw [ho] at h
  obtain ⟨rs', hd⟩ := decoder_pure.feed ds newDecoder [] hfl rfl rfl (by simp [DInv, newDecoder])
  rw [h, show newDecoder.st = {} from rfl, decLoop_encLoop _ hn] at hd
  simp only [show ({} : Io) = ⟨[], []⟩ from rfl, hd]
  simp [EncImpl.encode, newDecoder, decoder, dec_encode, flushtmp, decLoop]

example : Spec.Backslash.Good defaultNasties := by unfold Spec.Backslash.Good; decide +kernel

-- a quote, a newline, a NUL and a byte over 127, cut in the middle of the escape sequences
example : flat [(str ['\\', '"', '\\'], false), (str ['n', '\\', 'x', '0'], false),
      (str ['0', '\\', 'x', 'f', 'f'], false)] =
    ((encoder defaultNasties).run newEncoder [([34, 10, 0], false), ([255], true)]).2.1.out := by decide +kernel

/-- C05: the escaped text is printable (apart from the characters the caller asked to escape). -/
theorem C05_backslash_printable (nasties : List Byte) (cs : List (List Byte × Bool)) :
    ∀ d ∈ ((encoder nasties).run newEncoder cs).2.1.out, isprint d = true ∨ d ∈ nasties := by
  obtain ⟨rs, he, -⟩ := (encoder_pure nasties).feed cs newEncoder [] rfl rfl
  have ho : ((encoder nasties).run newEncoder cs).2.1.out = encLoop nasties (flat cs) := by
    simp only [EncImpl.run, show ({} : Io) = ⟨[], []⟩ from rfl, he]
    simp [EncImpl.finish, newEncoder, encoder, Enc.setfinished]
  rw [ho]
  exact encLoop_printable _ _

/-- C05: what the decoder makes of any text (escaped or not) does not depend on the chunks, as long as flush is only
    asked at the end. -/
theorem C05_decoder_chunk_invariant (ds ds' : List (List Byte × Bool)) (h : flat ds = flat ds')
    (hfl : ∀ d ∈ ds, d.2 = false) (hfl' : ∀ d ∈ ds', d.2 = false) :
    let r := decoder.feed newDecoder {} ds
    let r' := decoder.feed newDecoder {} ds'
    r.2.1 = r'.2.1 ∧ decoder.encode r.1 r.2.1 true false = decoder.encode r'.1 r'.2.1 true false := by
  obtain ⟨rs, hd⟩ := decoder_pure.feed ds newDecoder [] hfl rfl rfl (by simp [DInv, newDecoder])
  obtain ⟨rs', hd'⟩ := decoder_pure.feed ds' newDecoder [] hfl' rfl rfl (by simp [DInv, newDecoder])
  simp only [show ({} : Io) = ⟨[], []⟩ from rfl, hd, hd', h]
  exact ⟨trivial, trivial⟩

example : flat [(str ['\\', '1'], false), (str ['2', '\\'], false)] = flat [(str ['\\', '1', '2', '\\'], false)] := by
  decide

/-- C05, negative part: with the documented condition only (the set contains the backslash) the round trip is false:
    if 'n' is to be escaped, it comes back as a newline. -/
theorem C05_backslash_roundtrip_fails :
    ¬ ∀ (nasties : List Byte), ch '\\' ∈ nasties → ∀ data : List Byte,
      (decoder.feed newDecoder {} [(((encoder nasties).run newEncoder [(data, true)]).2.1.out, true)]).2.1.out = data := by
  intro h
  have := h (str ['\\', 'n']) (by decide) (str ['n'])
  revert this
  decide +kernel

end Props
