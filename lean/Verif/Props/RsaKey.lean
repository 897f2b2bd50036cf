import Verif.Model.RsaKey
import Verif.Props.Hex
/-!
C128: RSA keys and their text.
-/
namespace Props
open Wv Wv.RsaKey
open Spec.RsaKey

namespace RsaP

theorem hexOf_eq (b : List Byte) : hexOf b = Spec.Hex.encode false b := by
  rw [← Hex.encLoop_spec]
  unfold hexOf EncImpl.encode EncImpl.finish
  simp [Hex.encoder, Hex.newEncoder, Enc.setfinished]

theorem hexOf_for (b : List Byte) : HexFor (hexOf b) b := by
  obtain ⟨h1, h2, h3, _⟩ := Hex.encode_ok false b
  rw [hexOf_eq]
  refine ⟨fun c hc => ?_, h3, h1⟩
  have := List.all_eq_true.1 h2 c hc
  simpa using this

theorem flush_eq (t : List Byte) : (Hex.decoder.encode Hex.newDecoder ⟨t, []⟩ true true).2.1.out = (Hex.decLoop Hex.newDecoder t).2.2.1 ∧
    (Hex.decoder.encode Hex.newDecoder ⟨t, []⟩ true true).2.2 = (((Hex.decLoop Hex.newDecoder t).1.okay && !(Hex.decLoop Hex.newDecoder t).1.finished) &&
      ((Hex.decLoop Hex.newDecoder t).2.2.2 && !(Hex.decLoop Hex.newDecoder t).1.st.issecond)) := by
  have fin : ∀ (e : Enc Hex.DSt) (io : Io), Hex.decoder.finish e io = (e.setfinished, io, e.okay && !e.finished) := by
    intro e io
    unfold EncImpl.finish Hex.decoder
    dsimp only
    cases e.okay && !e.finished <;> rfl
  have enc : Hex.decoder.encode Hex.newDecoder ⟨t, []⟩ true true =
      (let r := Hex.decoder.encode' Hex.newDecoder ⟨t, []⟩ true
       let f := Hex.decoder.finish r.1 r.2.1
       (f.1, f.2.1, f.2.2 && r.2.2)) := by
    unfold EncImpl.encode
    have h : (Hex.newDecoder.okay && !Hex.newDecoder.finished && (!t.isEmpty || true)) = true := by simp [Hex.newDecoder]
    dsimp only
    rw [if_pos h]
    rfl
  rw [enc]
  dsimp only
  rw [fin]
  exact ⟨rfl, rfl⟩

theorem unhex_iff (t b : List Byte) : unhex t = some b ↔ HexFor t b ∧ b ≠ [] := by
  obtain ⟨s1, s2, s3⟩ := Hex.decLoop_spec t Hex.newDecoder rfl (by decide)
  obtain ⟨f1, _, f3⟩ := Hex.decLoop_flags t Hex.newDecoder rfl rfl
  have out : (Hex.decoder.encode Hex.newDecoder ⟨t, []⟩ true true).2.1.out = Spec.Hex.pairs (Spec.Hex.leadingDigits t) := by
    rw [show Spec.Hex.leadingDigits t = (if Hex.newDecoder.st.issecond then [Hex.newDecoder.st.first] else []) ++ Spec.Hex.leadingDigits t from rfl, ← s1]
    exact (flush_eq t).1
  have ok : (Hex.decoder.encode Hex.newDecoder ⟨t, []⟩ true true).2.2 = true ↔
      (∀ c ∈ t, Spec.Hex.isWs c = true ∨ (Spec.Hex.value? c).isSome = true) ∧ (Spec.Hex.leadingDigits t).length % 2 = 0 := by
    have key : (Hex.decoder.encode Hex.newDecoder ⟨t, []⟩ true true).2.2 = ((Hex.decLoop Hex.newDecoder t).1.okay && !(Hex.decLoop Hex.newDecoder t).1.st.issecond) := by
      rw [(flush_eq t).2, f1, f3]
      cases (Hex.decLoop Hex.newDecoder t).1.okay <;> simp
    rw [key]
    constructor
    · intro h
      simp only [Bool.and_eq_true] at h
      have s3' := s3 h.1
      rw [s2, List.all_eq_true] at h
      refine ⟨fun c hc => by simpa using h.1 c hc, ?_⟩
      rw [s3'] at h
      have := h.2
      simp [Hex.newDecoder] at this
      exact this
    · intro ⟨h1, h2⟩
      have hk : (Hex.decLoop Hex.newDecoder t).1.okay = true := by
        rw [s2, List.all_eq_true]
        intro c hc
        simpa using h1 c hc
      rw [hk, s3 hk]
      simp [Hex.newDecoder, h2]
  unfold unhex
  dsimp only
  rw [out]
  by_cases hk : (Hex.decoder.encode Hex.newDecoder ⟨t, []⟩ true true).2.2 = true
  · rw [hk]
    have h := ok.1 hk
    constructor
    · intro hu
      split at hu
      · cases hu
      · rename_i hne
        injection hu with hu
        subst hu
        exact ⟨⟨h.1, h.2, rfl⟩, fun e => hne (by rw [e]; rfl)⟩
    · intro ⟨⟨_, _, hb⟩, hne⟩
      rw [hb, if_neg (by cases b <;> simp_all)]
  · constructor
    · intro hu
      rw [if_pos (by simp [hk])] at hu
      cases hu
    · intro ⟨⟨h1, h2, _⟩, _⟩
      exact absurd (ok.2 ⟨h1, h2⟩) hk

theorem unhex_hexOf {b : List Byte} (h : b ≠ []) : unhex (hexOf b) = some b := (unhex_iff _ _).2 ⟨hexOf_for b, h⟩

end RsaP

open RsaP

/-- The sample library keeps the contract. -/
theorem RsaP.sample_good : sample.Good := ⟨fun p => ⟨by simp [sample], rfl⟩, fun p s => ⟨by simp [sample], rfl⟩, fun p => rfl, fun p s => rfl⟩

variable {P S : Type}

/-- A private key that is written in a form for private keys and read again is the same key; written in a form for public keys it is its public part. -/
theorem C128_roundtrip_partial (L : Lib P S) (hL : L.Good) (p : P) (s : S) (k : Obj P S) (hk : k = ⟨some (p, some s), some true⟩) :
    (∃ t, encode L k .hex = some t ∧ decode L .hex t = k) ∧
    (∃ t, encode L k .pem = some t ∧ decode L .pem t = k) ∧
    (∃ t, encode L k .pubHex = some t ∧ decode L .pubHex t = ⟨some (p, none), some false⟩) ∧
    (∃ t, encode L k .pubPem = some t ∧ decode L .pubPem t = ⟨some (p, none), some false⟩) := by
  subst hk
  refine ⟨⟨_, rfl, ?_⟩, ⟨_, rfl, ?_⟩, ⟨_, rfl, ?_⟩, ⟨_, rfl, ?_⟩⟩
  · simp [decode, unhex_hexOf (hL.priv p s).1, (hL.priv p s).2]
  · simp [decode, hL.pemPriv]
  · simp [decode, unhex_hexOf (hL.pub p).1, (hL.pub p).2]
  · simp [decode, hL.pemPub]

/-- The same for a public key, in the forms for public keys. -/
theorem C128_public_partial (L : Lib P S) (hL : L.Good) (p : P) (k : Obj P S) (hk : k = ⟨some (p, none), some false⟩) :
    (∃ t, encode L k .pubHex = some t ∧ decode L .pubHex t = k) ∧ (∃ t, encode L k .pubPem = some t ∧ decode L .pubPem t = k) := by
  subst hk
  refine ⟨⟨_, rfl, ?_⟩, ⟨_, rfl, ?_⟩⟩
  · simp [decode, unhex_hexOf (hL.pub p).1, (hL.pub p).2]
  · simp [decode, hL.pemPub]

example : encode sample ⟨some (8, some 7), some true⟩ .hex = some (str ['0', '2', '0', '8', '0', '7']) ∧ encode sample ⟨some (8, some 7), some true⟩ .pubHex = some (str ['0', '1', '0', '8']) ∧
    (decode sample .hex (str ['0', '2', '\n', '0', '8', '0', '7', '\n']) : Obj UInt8 UInt8) = ⟨some (8, some 7), some true⟩ := by decide +kernel

/-- Which key a hexadecimal text is read as: the one the library reads from the bytes written, with digits of either case and white space anywhere; otherwise the
    object has no key. The same for a public key. -/
theorem C128_reads (L : Lib P S) (t : List Byte) :
    (∀ p s, (decode L .hex t).rsa = some (p, s) ↔ ∃ b v, HexFor t b ∧ b ≠ [] ∧ L.readPriv b = some (p, v) ∧ s = some v) ∧
    (∀ p s, (decode L .pubHex t).rsa = some (p, s) ↔ ∃ b, HexFor t b ∧ b ≠ [] ∧ L.readPub b = some p ∧ s = none) := by
  have hu : ∀ b, (HexFor t b ∧ b ≠ []) ↔ unhex t = some b := fun b => (unhex_iff t b).symm
  refine ⟨fun p s => ?_, fun p s => ?_⟩
  · have e : (∃ b v, HexFor t b ∧ b ≠ [] ∧ L.readPriv b = some (p, v) ∧ s = some v) ↔ ∃ b v, unhex t = some b ∧ L.readPriv b = some (p, v) ∧ s = some v := by
      simp only [← hu, and_assoc]
    rw [e]
    unfold decode
    cases h : unhex t with
    | none => simp
    | some b =>
      cases hr : L.readPriv b with
      | none => simp [hr]
      | some r =>
        obtain ⟨q, v⟩ := r
        constructor
        · intro hh
          simp [hr] at hh
          exact ⟨b, v, rfl, (by rw [hr, hh.1]), hh.2.symm⟩
        · rintro ⟨b', v', hb, h1, h2⟩
          injection hb with hb
          subst hb
          rw [hr] at h1
          injection h1 with h1
          injection h1 with h3 h4
          subst h3 h4 h2
          simp [hr]
  · have e : (∃ b, HexFor t b ∧ b ≠ [] ∧ L.readPub b = some p ∧ s = none) ↔ ∃ b, unhex t = some b ∧ L.readPub b = some p ∧ s = none := by
      simp only [← hu, and_assoc]
    rw [e]
    unfold decode
    cases h : unhex t with
    | none => simp
    | some b =>
      cases hr : L.readPub b with
      | none => simp [hr]
      | some q =>
        constructor
        · intro hh
          simp [hr] at hh
          exact ⟨b, rfl, (by rw [hr, hh.1]), hh.2.symm⟩
        · rintro ⟨b', hb, h1, h2⟩
          injection hb with hb
          subst hb
          rw [hr] at h1
          injection h1 with h1
          subst h1 h2
          simp [hr]

/-- A key read from a text is good exactly if it is there, and its private numbers, if it is private, fit; with a text that is not a key it is not good. -/
theorem C128_isok (L : Lib P S) (mode : Mode) (t : List Byte) :
    isok L (decode L mode t) = some (match (decode L mode t).rsa with | none => false | some (_, none) => true | some (p, some s) => L.check p s) := by
  have key : ∀ k : Obj P S, (k.rsa = none ∨ (∃ p, k = ⟨some (p, none), some false⟩) ∨ ∃ p s, k = ⟨some (p, some s), some true⟩) →
      isok L k = some (match k.rsa with | none => false | some (_, none) => true | some (p, some s) => L.check p s) := by
    rintro k (h | ⟨p, rfl⟩ | ⟨p, s, rfl⟩)
    · unfold isok
      rw [h]
    · rfl
    · simp [isok]
  apply key
  cases mode <;> simp only [decode]
  · cases L.readPemPriv t with
    | none => exact Or.inl rfl
    | some r => exact Or.inr (Or.inr ⟨r.1, r.2, rfl⟩)
  · cases L.readPemPub t with
    | none => exact Or.inl rfl
    | some r => exact Or.inr (Or.inl ⟨r, rfl⟩)
  · cases unhex t with
    | none => exact Or.inl rfl
    | some b =>
      dsimp only
      cases L.readPriv b with
      | none => exact Or.inl rfl
      | some r => exact Or.inr (Or.inr ⟨r.1, r.2, rfl⟩)
  · cases unhex t with
    | none => exact Or.inl rfl
    | some b =>
      dsimp only
      cases L.readPub b with
      | none => exact Or.inl rfl
      | some r => exact Or.inr (Or.inl ⟨r, rfl⟩)

example : isok sample (decode sample .hex (str ['0', '2', '0', '8', '0', '7'])) = some true ∧ isok sample (decode sample .hex (str ['0', '2', '0', '8', '0', '8'])) = some false ∧
    isok sample (decode sample .hex (str ['0', '2', '0', '8', '0'])) = some false ∧ isok sample (decode sample .pubHex (str ['0', '1', '0', '8'])) = some true := by decide +kernel

/-- The forms for public keys tell nothing about the private numbers, whatever the object is, and neither does the hexadecimal form of a key that is marked as public. -/
theorem C128_secret (L : Lib P S) (p : P) (v w : Option S) (f g : Option Bool) :
    encode L ⟨some (p, v), f⟩ .pubHex = encode L ⟨some (p, w), g⟩ .pubHex ∧ encode L ⟨some (p, v), f⟩ .pubPem = encode L ⟨some (p, w), g⟩ .pubPem ∧
    encode L ⟨some (p, v), some false⟩ .hex = encode L ⟨some (p, w), some false⟩ .hex ∧ copy (⟨some (p, v), some false⟩ : Obj P S) = copy ⟨some (p, w), some false⟩ :=
  ⟨rfl, rfl, rfl, rfl⟩

/-- The objects a program can have: those of the constructors, where a key is only said to be private if it is, and those that were copied from one that has a key, or read. -/
inductive RsaP.Made (L : Lib P S) : Obj P S → Prop
  | blank : RsaP.Made L blank
  | ofRsa (r : Option (Rsa P S)) (priv : Bool) (h : priv = true → ∀ k, r = some k → k.2.isSome = true) : RsaP.Made L (ofRsa r priv)
  | generate (r : Option (P × S)) : RsaP.Made L (generate r)
  | ofText (t : Option (List Byte)) (priv : Bool) : RsaP.Made L (ofText L t priv)
  | copy (k k' : Obj P S) (h : RsaP.Made L k) (hc : copy k = some k') : RsaP.Made L k'
  | decode (k : Obj P S) (h : RsaP.Made L k) (mode : Mode) (t : Option (List Byte)) : RsaP.Made L (decodeStr L k mode t)

theorem RsaP.made_inv {L : Lib P S} {k : Obj P S} (h : RsaP.Made L k) :
    k.rsa = none ∨ (∃ p v, k = ⟨some (p, v), some false⟩) ∨ ∃ p s, k = ⟨some (p, some s), some true⟩ := by
  have dec : ∀ (mode : Mode) (t : List Byte), (decode L mode t).rsa = none ∨ (∃ p v, decode L mode t = ⟨some (p, v), some false⟩ ∧ (mode = .pubHex ∨ mode = .pubPem)) ∨
      ∃ p s, decode L mode t = ⟨some (p, some s), some true⟩ ∧ (mode = .hex ∨ mode = .pem) := by
    intro mode t
    cases mode <;> simp only [decode]
    · cases L.readPemPriv t with
      | none => exact Or.inl rfl
      | some r => exact Or.inr (Or.inr ⟨r.1, r.2, rfl, Or.inr trivial⟩)
    · cases L.readPemPub t with
      | none => exact Or.inl rfl
      | some r => exact Or.inr (Or.inl ⟨r, none, rfl, Or.inr trivial⟩)
    · cases unhex t with
      | none => exact Or.inl rfl
      | some b =>
        dsimp only
        cases L.readPriv b with
        | none => exact Or.inl rfl
        | some r => exact Or.inr (Or.inr ⟨r.1, r.2, rfl, Or.inl trivial⟩)
    · cases unhex t with
      | none => exact Or.inl rfl
      | some b =>
        dsimp only
        cases L.readPub b with
        | none => exact Or.inl rfl
        | some r => exact Or.inr (Or.inl ⟨r, none, rfl, Or.inl trivial⟩)
  induction h with
  | blank => exact Or.inl rfl
  | ofRsa r priv h =>
    cases r with
    | none => exact Or.inl rfl
    | some r =>
      obtain ⟨p, v⟩ := r
      cases priv with
      | false => exact Or.inr (Or.inl ⟨p, v, rfl⟩)
      | true =>
        have := h rfl _ rfl
        cases v with
        | none => cases this
        | some s => exact Or.inr (Or.inr ⟨p, s, rfl⟩)
  | generate r =>
    cases r with
    | none => exact Or.inl rfl
    | some r => exact Or.inr (Or.inr ⟨r.1, r.2, rfl⟩)
  | ofText t priv =>
    unfold ofText decodeStr
    cases t with
    | none => exact Or.inl rfl
    | some t =>
      dsimp only
      by_cases ht : t.isEmpty
      · rw [if_pos ht]; exact Or.inl rfl
      · rw [if_neg ht]
        cases priv with
        | false =>
          rcases dec .pubHex t with h | ⟨p, v, h, _⟩ | ⟨p, s, h, h' | h'⟩
          · exact Or.inl h
          · exact Or.inr (Or.inl ⟨p, v, by simp [h]⟩)
          · cases h'
          · cases h'
        | true =>
          rcases dec .hex t with h | ⟨p, v, h, h' | h'⟩ | ⟨p, s, h, _⟩
          · exact Or.inl h
          · cases h'
          · cases h'
          · exact Or.inr (Or.inr ⟨p, s, by simp [h]⟩)
  | copy k k' h hc ih =>
    rcases ih with h1 | ⟨p, v, h1⟩ | ⟨p, s, h1⟩
    · unfold copy at hc
      rw [h1] at hc
      left
      split at hc
      · cases hc
      · injection hc with hc
        rw [← hc]; rfl
      · injection hc with hc
        rw [← hc]; rfl
    · subst h1
      injection hc with hc
      exact Or.inr (Or.inl ⟨p, none, hc.symm⟩)
    · subst h1
      injection hc with hc
      exact Or.inr (Or.inr ⟨p, s, hc.symm⟩)
  | decode k h mode t ih =>
    unfold decodeStr
    cases t with
    | none => exact ih
    | some t =>
      dsimp only
      by_cases ht : t.isEmpty
      · rw [if_pos ht]; exact ih
      · rw [if_neg ht]
        rcases dec mode t with h | ⟨p, v, h, _⟩ | ⟨p, s, h, _⟩
        · exact Or.inl h
        · exact Or.inr (Or.inl ⟨p, v, h⟩)
        · exact Or.inr (Or.inr ⟨p, s, h⟩)

/-- No object that a program can have, however it came about, makes `isok` or `encode` misbehave; and one that has a key can be copied. A copy has the same text as
    the original in all forms that are right for it, and is good exactly if the original is. -/
theorem C128_defined (L : Lib P S) (k : Obj P S) (h : RsaP.Made L k) :
    (isok L k).isSome = true ∧ (∀ mode, (encode L k mode).isSome = true) ∧
    (k.rsa.isSome = true → ∃ k', copy k = some k' ∧ isok L k' = isok L k ∧ ∀ mode, mode ≠ .pem ∨ k.priv = some true → encode L k' mode = encode L k mode) := by
  rcases RsaP.made_inv h with h1 | ⟨p, v, rfl⟩ | ⟨p, s, rfl⟩
  · unfold isok encode
    rw [h1]
    simp
  · refine ⟨rfl, fun mode => ?_, fun _ => ⟨_, rfl, rfl, fun mode hm => ?_⟩⟩
    · cases mode <;> first | rfl | (cases v <;> rfl)
    · cases mode with
      | pem =>
        rcases hm with hm | hm
        · exact absurd rfl hm
        · cases hm
      | _ => rfl
  · refine ⟨rfl, fun mode => ?_, fun _ => ⟨_, rfl, rfl, fun mode hm => rfl⟩⟩
    cases mode <;> rfl

example : RsaP.Made sample (⟨some (8, some 7), some true⟩ : Obj UInt8 UInt8) := RsaP.Made.generate (some (8, 7))

/-- The constructor from a string reads it as the kind of key it is told; no string and an empty one give no key. -/
theorem C128_ofText (L : Lib P S) (priv : Bool) :
    (∀ t, (ofText L (some t) priv).rsa = if t = [] then none else (decode L (if priv then .hex else .pubHex) t).rsa) ∧
    (∀ t, (ofText L t priv).priv = some priv) ∧ (ofText L none priv).rsa = none := by
  refine ⟨fun t => ?_, fun t => rfl, rfl⟩
  unfold ofText decodeStr
  cases t <;> rfl

/-- Reading a text into an object leaves nothing of the key it had, except that an empty string does nothing. -/
theorem C128_replaces (L : Lib P S) (k k' : Obj P S) (mode : Mode) (t : List Byte) (h : t ≠ []) : decodeStr L k mode (some t) = decodeStr L k' mode (some t) := by
  unfold decodeStr
  cases t with
  | nil => exact absurd rfl h
  | cons c t => rfl

/-- DISAGREEMENT: a key that was made with the mark of a public one, from a structure that has the private numbers, gives them away in the private PEM form; in
    the hexadecimal form it does not. -/
theorem C128_pem_fails (L : Lib P S) (p : P) (s : S) : encode L (ofRsa (some (p, some s)) false) .pem = some (L.pemPriv p s) ∧
    encode L (ofRsa (some (p, some s)) false) .hex = some (hexOf (L.derPub p)) := ⟨rfl, rfl⟩

/-- DISAGREEMENT: copying a blank object reads a field that was never set. -/
theorem C128_copy_fails : copy (blank : Obj P S) = none ∧ copy (ofRsa none true : Obj P S) = none := ⟨rfl, rfl⟩

/-- DISAGREEMENT: a public key written in the private hexadecimal form is written as a public one, without a word, and is then not read as a private one; in the
    private PEM form it is empty. -/
theorem C128_form_fails : ∃ (L : Lib UInt8 UInt8), L.Good ∧ ∃ (k : Obj UInt8 UInt8) (t : List Byte), isok L k = some true ∧ encode L k .hex = some t ∧
    t ≠ [] ∧ isok L (decode L .hex t) = some false ∧ encode L k .pem = some [] :=
  ⟨sample, RsaP.sample_good, ⟨some (8, none), some false⟩, str ['0', '1', '0', '8'], by decide +kernel⟩

/-- DISAGREEMENT: an object made with the mark of a private key, from a structure without the private numbers, is not good, and writing its hexadecimal form asks
    for an enormous buffer. -/
theorem C128_mark_fails (L : Lib P S) (p : P) : isok L (ofRsa (some (p, none)) true) = some false ∧ encode L (ofRsa (some (p, none)) true) .hex = none := ⟨rfl, rfl⟩

/-- DISAGREEMENT: reading an empty string does not replace the key, although every other text that is not a key does. -/
theorem C128_empty_fails (L : Lib P S) (k : Obj P S) (mode : Mode) : decodeStr L k mode (some []) = k := rfl

end Props
