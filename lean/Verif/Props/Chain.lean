import Verif.Lemmas.ChainInst
/- C09: chains of encoders. -/
namespace Props
open Wv Wv.Chain Spec.Chain

/-- C09: a chain driven with any sequence of `encode` calls and then `finish()` writes what its elements compute one
    after the other. Each call has data or asks for a flush (other calls do nothing), and the chain left nothing in the
    caller's input buffer. `P` is what the elements need of the flush flags; `finish` adds one flush. -/
theorem C09_chain_composes (P : List Bool → Prop) (xs : List Elem) (D : List Byte → Prop)
    (Fs : List (List Byte → List Byte)) (h : Stages P xs D Fs)
    (cs : List (List Byte × Bool)) (hne : ∀ c ∈ cs, c.1 ≠ [] ∨ c.2 = true)
    (hP : P (cs.map Prod.snd ++ [true])) (hD : D (flat cs))
    (hin : (chain.feed { st := xs } {} cs).2.1.inb = []) :
    (chain.run { st := xs } cs).2.1.out = composed Fs (flat cs) := by
  have := chain_run cs hne { st := xs } [] [] (stages_frame h) rfl rfl hin
  simp only [EncImpl.run]
  rw [show ({} : Io) = ⟨[], []⟩ from rfl, this]
  have := chainS_stages h cs [] hP (by simpa using hD)
  simpa using this

/-- C09: base64 encoder, hex encoder, hex decoder, base64 decoder in a chain: the identity, for all data in all chunks
    and flushes. -/
theorem C09_encoders_then_decoders (upper : Bool) (cs : List (List Byte × Bool))
    (hne : ∀ c ∈ cs, c.1 ≠ [] ∨ c.2 = true) :
    let xs : List Elem := [⟨Base64.encoder, Base64.newEncoder, []⟩, ⟨Hex.encoder upper, Hex.newEncoder, []⟩,
      ⟨Hex.decoder, Hex.newDecoder, []⟩, ⟨Base64.decoder, Base64.newDecoder, []⟩]
    (chain.run { st := xs } cs).2.1.out = flat cs := by
  intro xs
  have hst : Stages anyFlags xs (fun _ => True) [Base64.text, Hex.encLoop upper,
      fun t => Spec.Hex.pairs (Spec.Hex.leadingDigits t), fun t => (Base64.decLoop Base64.newDecoder t).2.2.1] :=
    .cons _ _ _ (fun _ => True) _ _ rfl b64enc_frame b64enc_computes (fun _ _ => trivial)
      (.cons _ _ _ (fun _ => True) _ _ rfl (hexenc_frame upper) (hexenc_computes upper) (fun _ _ => trivial)
        (.cons _ _ _ (fun _ => True) _ _ rfl hexdec_frame hexdec_computes (fun _ _ => trivial)
          (.cons _ _ _ (fun _ => True) _ _ rfl b64dec_frame b64dec_computes (fun _ _ => trivial) (.nil _))))
  have hin : ∀ (cs : List (List Byte × Bool)) (e : Enc (List Elem)) (o : List Byte),
      (∃ b rest, e.st = ⟨Base64.encoder, b, []⟩ :: rest ∨ ∃ out, e.st = ⟨Base64.encoder, b, out⟩ :: rest) →
      e.okay = true → e.finished = false →
      (∀ b out rest, e.st = ⟨Base64.encoder, b, out⟩ :: rest → b.okay = true ∧ b.finished = false) →
      (∀ c ∈ cs, c.1 ≠ [] ∨ c.2 = true) →
      (chain.feed e ⟨[], o⟩ cs).2.1.inb = [] := by
    intro cs
    induction cs with
    | nil => intro e o _ _ _ _ _; rfl
    | cons c cs ih =>
      obtain ⟨c, fl⟩ := c
      intro e o hst hok hfin hb hne
      obtain ⟨b, rest, hst⟩ := hst
      have hst : ∃ out, e.st = ⟨Base64.encoder, b, out⟩ :: rest := by
        rcases hst with h | h
        · exact ⟨_, h⟩
        · exact h
      obtain ⟨out, hst⟩ := hst
      obtain ⟨hbo, hbf⟩ := hb b out rest hst
      have hc : (!c.isEmpty || fl) = true := by
        have := hne (c, fl) (by simp)
        rcases this with h | h <;> simp at h <;> simp [h]
      have henc : chain.encode e ⟨c, o⟩ fl false = chain.encode' e ⟨c, o⟩ fl := by
        simp only [EncImpl.encode, hok, hfin, Bool.not_false, Bool.true_and, hc, if_true, Bool.false_eq_true, if_false]
      simp only [EncImpl.feed, List.nil_append]
      rw [henc]
      have hbe : ∀ out, Base64.encoder.encode b ⟨c, out⟩ fl false = Base64.enc_encode b ⟨c, out⟩ fl := by
        intro out
        simp only [EncImpl.encode, hbo, hbf, Bool.not_false, Bool.true_and, hc, if_true, Bool.false_eq_true, if_false,
          Base64.encoder]
      simp only [chain, hst, go, Bool.false_eq_true, if_false, hbe, Base64.enc_encode]
      apply ih
      · exact ⟨_, _, Or.inr ⟨_, rfl⟩⟩
      · exact hok
      · exact hfin
      · intro b' out' rest' h'
        simp only [List.cons.injEq, Elem.mk.injEq, heq_eq_eq, true_and] at h'
        obtain ⟨⟨rfl, -⟩, -⟩ := h'
        exact ⟨hbo, hbf⟩
      · exact fun c hc => hne c (by simp [hc])
  have h1 := C09_chain_composes anyFlags xs _ _ hst cs hne trivial trivial
    (hin cs _ [] ⟨_, _, Or.inl rfl⟩ rfl rfl (by
      intro b out rest h
      simp only [xs, List.cons.injEq, Elem.mk.injEq, heq_eq_eq, true_and] at h
      obtain ⟨⟨rfl, -⟩, -⟩ := h
      exact ⟨rfl, rfl⟩) hne)
  rw [h1]
  simp only [composed]
  rw [Hex.encLoop_spec, (Hex.encode_ok upper _).1]
  exact (Base64.decLoop_text (flat cs)).1

/-- Each element in turn accepts the flush of what the previous one gave it, and then finishes successfully. -/
inductive AllFinish : List Elem → List Byte → Prop
  | nil (t) : AllFinish [] t
  | cons (x : Elem) (xs t)
      (hflush : (x.I.encode x.e ⟨t, x.out⟩ true false).2.2 = true)
      (hfinish : (x.I.finish (x.I.encode x.e ⟨t, x.out⟩ true false).1 (x.I.encode x.e ⟨t, x.out⟩ true false).2.1).2.2 = true)
      (hrest : AllFinish xs
        (x.I.finish (x.I.encode x.e ⟨t, x.out⟩ true false).1 (x.I.encode x.e ⟨t, x.out⟩ true false).2.1).2.1.out) :
      AllFinish (x :: xs) t

theorem go_allFinish (xs : List Elem) : ∀ t, (go true true xs t).2.2.2 = true ↔ AllFinish xs t := by
  induction xs with
  | nil => intro t; exact ⟨fun _ => .nil t, fun _ => rfl⟩
  | cons x xs ih =>
    intro t
    simp only [go, if_true, Bool.and_eq_true]
    constructor
    · rintro ⟨⟨h1, h2⟩, h3⟩
      exact .cons x xs t h1 h2 ((ih _).mp h3)
    · rintro (_ | ⟨_, _, _, h1, h2, h3⟩)
      exact ⟨⟨h1, h2⟩, (ih _).mpr h3⟩

/-- C09 (success): finish() of a working chain returns true exactly when every element accepted its flush and finished. -/
theorem C09_finish_reports (e : Enc (List Elem)) (io : Io) (hok : e.okay = true) (hf : e.finished = false) :
    (chain.finish e io).2.2 = true ↔ AllFinish e.st [] := by
  rw [← go_allFinish]
  simp [EncImpl.finish, hok, hf, chain]

example : (chain.finish { st := [⟨Hex.decoder, Hex.newDecoder, []⟩] } {}).2.2 = true ∧
    (chain.finish (chain.feed { st := [⟨Hex.decoder, Hex.newDecoder, []⟩] } {} [(str ['4'], false)]).1 {}).2.2 = false := by
  decide +kernel

/-- C09 (pass through): the passthrough encoder writes its input unchanged and counts the bytes since it was made. -/
theorem C09_passthrough_counts (cs : List (List Byte × Bool)) :
    (passthrough.feed { st := 0 } {} cs).2.1 = ⟨[], flat cs⟩ ∧
    (passthrough.feed { st := 0 } {} cs).1.st = (flat cs).length := by
  have h : ∀ (cs : List (List Byte × Bool)) (n : Nat) (o : List Byte),
      (passthrough.feed { st := n } ⟨[], o⟩ cs).2.1 = ⟨[], o ++ flat cs⟩ ∧
      (passthrough.feed { st := n } ⟨[], o⟩ cs).1.st = n + (flat cs).length := by
    intro cs
    induction cs with
    | nil => intro n o; simp [EncImpl.feed]
    | cons c cs ih =>
      obtain ⟨c, fl⟩ := c
      intro n o
      have he : ∃ r, passthrough.encode { st := n } ⟨c, o⟩ fl false = ({ st := n + c.length }, ⟨[], o ++ c⟩, r) := by
        unfold EncImpl.encode
        cases c with
        | nil => cases fl <;> exact ⟨_, by simp [passthrough]; rfl⟩
        | cons a c => exact ⟨_, by simp [passthrough]; rfl⟩
      obtain ⟨r, he⟩ := he
      simp only [EncImpl.feed, List.nil_append, he, ih, flat_cons, List.length_append, List.append_assoc, true_and]
      omega
  simpa using h cs 0 []

end Props
