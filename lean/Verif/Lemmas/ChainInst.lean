import Verif.Lemmas.Chain
import Verif.Lemmas.Base64Spec
import Verif.Lemmas.Hex
import Verif.Lemmas.Backslash
import Verif.Lemmas.Xor
/- The concrete encoders as stages of a chain. -/
namespace Wv.Chain
open Spec.Chain

/-- Any flush flags. -/
def anyFlags : List Bool → Prop := fun _ => True

theorem b64enc_frame : AppendOnly Base64.encoder where
  encode e inb out fl := by simp [Base64.encoder, Base64.enc_encode]
  finish e inb out := by simp [Base64.encoder, Base64.enc_finish]

theorem b64dec_frame : AppendOnly Base64.decoder where
  encode e inb out fl := by simp [Base64.decoder, Base64.dec_encode]
  finish e inb out := by simp [Base64.decoder]

theorem hexenc_frame (u : Bool) : AppendOnly (Hex.encoder u) where
  encode e inb out fl := by simp [Hex.encoder]
  finish e inb out := by simp [Hex.encoder]

theorem hexdec_frame : AppendOnly Hex.decoder where
  encode e inb out fl := by simp [Hex.decoder]
  finish e inb out := by simp [Hex.decoder]

theorem xor_frame (k : List Byte) : AppendOnly (Xor.encoder k) where
  encode e inb out fl := by simp [Xor.encoder]
  finish e inb out := by simp [Xor.encoder]

theorem bsenc_frame (n : List Byte) : AppendOnly (Backslash.encoder n) where
  encode e inb out fl := by simp [Backslash.encoder]
  finish e inb out := by simp [Backslash.encoder]

theorem bsdec_frame : AppendOnly Backslash.decoder where
  encode e inb out fl := by simp [Backslash.decoder, Backslash.dec_encode, List.append_assoc]
  finish e inb out := by simp [Backslash.decoder]

theorem b64enc_computes : Computes anyFlags Base64.encoder Base64.newEncoder (fun _ => True) Base64.text := by
  intro cs _ _
  obtain ⟨e, rs, h, -⟩ := Base64.run_encoder cs
  rw [h]

theorem finish_default_out {σ} (I : EncImpl σ) (h : I.finish' = fun e io => (e, io, true)) (e : Enc σ) (io : Io) :
    (I.finish e io).2.1.out = io.out := by
  simp only [EncImpl.finish, h]; split <;> rfl

theorem b64dec_computes : Computes anyFlags Base64.decoder Base64.newDecoder (fun _ => True)
    (fun t => (Base64.decLoop Base64.newDecoder t).2.2.1) := by
  intro cs _ _
  simp only [EncImpl.run]
  rw [finish_default_out _ rfl]
  exact (Base64.feed_decoder cs Base64.newDecoder [] rfl rfl).1

theorem hexenc_computes (u : Bool) : Computes anyFlags (Hex.encoder u) Hex.newEncoder (fun _ => True) (Hex.encLoop u) := by
  intro cs _ _
  obtain ⟨rs, h, -⟩ := (Hex.encoder_pure u).feed cs Hex.newEncoder [] rfl rfl
  simp only [EncImpl.run]
  rw [finish_default_out _ rfl, show ({} : Io) = ⟨[], []⟩ from rfl, h]
  simp

theorem hexdec_computes : Computes anyFlags Hex.decoder Hex.newDecoder (fun _ => True)
    (fun t => Spec.Hex.pairs (Spec.Hex.leadingDigits t)) := by
  intro cs _ _
  simp only [EncImpl.run]
  rw [finish_default_out _ rfl]
  rw [show ({} : Io) = ⟨[], []⟩ from rfl, (Hex.feed_decoder cs Hex.newDecoder [] rfl rfl).1]
  have := (Hex.decLoop_spec (flat cs) Hex.newDecoder rfl (by decide)).1
  rw [this]
  simp [Hex.newDecoder]

end Wv.Chain
