import Verif.Model.Base64
import Verif.Spec.Base64
import Verif.Lemmas.Basic
import Verif.Lemmas.Encoder
namespace Wv.Base64

theorem lookup_alphabetAt : ∀ i, i < 64 → lookup (alphabetAt i) = (i : Int) := by decide +kernel

theorem alphabetAt_digit : ∀ i, i < 64 → alphabetAt i = Spec.Base64.digit i := by decide +kernel

theorem encLoop_append (s : ESt) (a b : List Byte) :
    encLoop s (a ++ b) = ((encLoop (encLoop s a).1 b).1, (encLoop s a).2 ++ (encLoop (encLoop s a).1 b).2) := by
  induction a generalizing s with
  | nil => simp [encLoop]
  | cons c cs ih => simp [encLoop, ih]

theorem encoder_pure : encoder.Pure encLoop where
  enc e io fl := ⟨_, rfl, by rintro rfl; simp⟩
  nil _ := rfl
  app := encLoop_append

/-- The bits held between two bytes fit the state. -/
def EInv (s : ESt) : Prop :=
  match s.state with
  | .atbit0 => s.bits = 0
  | .atbit2 => s.bits < 4
  | .atbit4 => s.bits < 16

theorem byte_lt (c : Byte) : c.toNat < 256 := UInt8.toNat_lt c

theorem encByte_inv (s : ESt) (c : Byte) (h : EInv s) : EInv (encByte s c).1 := by
  obtain ⟨st, bits⟩ := s
  have hc := byte_lt c
  cases st <;> simp only [encByte, EInv] at *
  · rw [show (3:Nat) = 2^2-1 from rfl, and_mask]; omega
  · rw [show (15:Nat) = 2^4-1 from rfl, and_mask]; omega

theorem encLoop_inv (s : ESt) (l : List Byte) (h : EInv s) : EInv (encLoop s l).1 := by
  induction l generalizing s with
  | nil => simpa [encLoop]
  | cons c cs ih => simp only [encLoop]; exact ih _ (encByte_inv s c h)

/-- Every index used on the `alphabet` table is below 64. -/
theorem enc_index_lt (s : ESt) (c : Byte) (h : EInv s) :
    let bits := (s.bits <<< 8) ||| c.toNat
    (s.state = .atbit0 → bits >>> 2 < 64) ∧ (s.state = .atbit2 → bits >>> 4 < 64 ∧ s.bits <<< 4 < 64) ∧
    (s.state = .atbit4 → bits >>> 6 < 64 ∧ bits &&& 0x3f < 64 ∧ s.bits <<< 2 < 64) := by
  have hc := byte_lt c
  simp only [shl_or _ _ 8 (show c.toNat < 2^8 by omega)]
  simp only [shr, Nat.shiftLeft_eq]
  rw [show (0x3f:Nat) = 2^6-1 from rfl, and_mask]
  unfold EInv at h
  refine ⟨fun hs => ?_, fun hs => ?_, fun hs => ?_⟩ <;> rw [hs] at h <;> simp at h <;> omega

/-- Full group of three bytes. -/
theorem encLoop_three (a b c : Byte) (l : List Byte) :
    encLoop {} (a :: b :: c :: l) = ((encLoop {} l).1,
      alphabetAt (a.toNat / 4) :: alphabetAt (a.toNat % 4 * 16 + b.toNat / 16) ::
      alphabetAt (b.toNat % 16 * 4 + c.toNat / 64) :: alphabetAt (c.toNat % 64) :: (encLoop {} l).2) := by
  have ha := byte_lt a
  have hb := byte_lt b
  have hc := byte_lt c
  simp only [encLoop, encByte, shl_or _ _ 8 (show a.toNat < 2^8 by omega), shl_or _ _ 8 (show b.toNat < 2^8 by omega),
    shl_or _ _ 8 (show c.toNat < 2^8 by omega), shr]
  rw [show (3:Nat) = 2^2-1 from rfl, show (15:Nat) = 2^4-1 from rfl, show (63:Nat) = 2^6-1 from rfl]
  simp only [and_mask]
  simp only [List.cons_append, List.nil_append]
  refine Prod.ext rfl ?_
  simp only
  congr 1
  · congr 1; omega
  congr 1
  · congr 1; omega
  congr 1
  · congr 1; omega
  congr 1
  · congr 1; omega

/-- Text produced by a whole run, as a recursive function. -/
def text (data : List Byte) : List Byte :=
  (encLoop {} data).2 ++ (enc_finish { st := (encLoop {} data).1 } {}).2.1.out

theorem text_nil : text [] = [] := by decide
theorem text_one (a : Byte) : text [a] =
    [alphabetAt (a.toNat / 4), alphabetAt (a.toNat % 4 * 16), ch '=', ch '='] := by
  have ha := byte_lt a
  simp only [text, encLoop, encByte, enc_finish, shl_or _ _ 8 (show a.toNat < 2^8 by omega)]
  simp only [shr, Nat.shiftLeft_eq]
  rw [show (3:Nat) = 2^2-1 from rfl, and_mask]
  simp
theorem text_two (a b : Byte) : text [a, b] =
    [alphabetAt (a.toNat / 4), alphabetAt (a.toNat % 4 * 16 + b.toNat / 16), alphabetAt (b.toNat % 16 * 4), ch '='] := by
  have ha := byte_lt a
  have hb := byte_lt b
  simp only [text, encLoop, encByte, enc_finish, shl_or _ _ 8 (show a.toNat < 2^8 by omega),
    shl_or _ _ 8 (show b.toNat < 2^8 by omega)]
  simp only [shr, Nat.shiftLeft_eq]
  rw [show (3:Nat) = 2^2-1 from rfl, show (15:Nat) = 2^4-1 from rfl]
  simp only [and_mask, List.append_nil, List.nil_append, List.cons_append]
  congr 1
  · congr 1; omega
  congr 1
  · congr 1; omega
  congr 1
  · congr 1; omega
theorem text_three (a b c : Byte) (l : List Byte) : text (a :: b :: c :: l) =
    alphabetAt (a.toNat / 4) :: alphabetAt (a.toNat % 4 * 16 + b.toNat / 16) ::
      alphabetAt (b.toNat % 16 * 4 + c.toNat / 64) :: alphabetAt (c.toNat % 64) :: text l := by
  simp only [text, encLoop_three, List.cons_append]

/-- induction in steps of three -/
theorem three_induction {p : List Byte → Prop} (h0 : p []) (h1 : ∀ a, p [a]) (h2 : ∀ a b, p [a, b])
    (h3 : ∀ a b c l, p l → p (a :: b :: c :: l)) : ∀ l, p l
  | [] => h0
  | [a] => h1 a
  | [a, b] => h2 a b
  | a :: b :: c :: l => h3 a b c l (three_induction h0 h1 h2 h3 l)

theorem run_encoder (cs : List (List Byte × Bool)) :
    ∃ e rs, encoder.run newEncoder cs = (e, ⟨[], text (flat cs)⟩, rs, true) ∧ e.okay = true ∧
      ((∀ c ∈ cs, c.1 ≠ [] ∧ c.2 = false) → ∀ r ∈ rs, r = true) := by
  obtain ⟨rs, h, hr⟩ := encoder_pure.feed cs newEncoder [] rfl rfl
  refine ⟨{ finished := true, st := (encLoop {} (flat cs)).1 }, rs, ?_, rfl, hr⟩
  simp only [EncImpl.run, show ({} : Io) = ⟨[], []⟩ from rfl, h]
  simp only [EncImpl.finish, newEncoder, encoder, enc_finish, Bool.not_false, Bool.and_self, if_true, text,
      List.nil_append, Enc.setfinished]

/-! ### decoder -/

theorem decLoop_append (a b : List Byte) : ∀ (e : Enc DSt), decLoop e (a ++ b) =
    if (decLoop e a).2.2.2 then
      let r := decLoop (decLoop e a).1 b
      (r.1, r.2.1, (decLoop e a).2.2.1 ++ r.2.2.1, r.2.2.2)
    else ((decLoop e a).1, (decLoop e a).2.1 ++ b, (decLoop e a).2.2.1, false) := by
  induction a with
  | nil => intro e; simp [decLoop]
  | cons c cs ih =>
    intro e
    simp only [List.cons_append, decLoop]
    by_cases h1 : lookup c = -1
    · simp [h1]
    · by_cases h2 : lookup c = 64
      · simp only [h2, show ¬ ((64:Int) = -1) by decide, if_true, if_false, ih]
      · by_cases h3 : lookup c = 65
        · simp only [h3, show ¬ ((65:Int) = -1) by decide, show ¬ ((65:Int) = 64) by decide, if_true, if_false, ih]
        · simp only [h1, h2, h3, if_false]
          split
          · exact ih _
          · simp only [ih]; split <;> simp
          · simp only [ih]; split <;> simp
          · simp only [ih]; split <;> simp
          · simp

/-- The flag and the loop result agree with the encoder flags. -/
theorem decLoop_flags (l : List Byte) : ∀ (e : Enc DSt), e.okay = true →
    ((decLoop e l).2.2.2 = (decLoop e l).1.okay) ∧
    ((decLoop e l).2.2.2 = true → (decLoop e l).2.1 = []) ∧
    ((decLoop e l).1.finished = true → e.finished = false → (decLoop e l).1.st.state = .pad) ∧
    (e.st.state = .pad → (decLoop e l).2.2.1 = [] ∧ (decLoop e l).1.st.state = .pad) := by
  induction l with
  | nil => intro e h; simp [decLoop, h]; intro h1 h2; simp [h1] at h2
  | cons c cs ih =>
    intro e h
    simp only [decLoop]
    by_cases h1 : lookup c = -1
    · simp [h1, Enc.seterror]; intro h1 h2; simp [h1] at h2
    · by_cases h2 : lookup c = 64
      · simp only [h2, show ¬ ((64:Int) = -1) by decide, if_true, if_false]
        have := ih { e with finished := true, st := { e.st with state := .pad } } h
        refine ⟨this.1, this.2.1, fun _ _ => (this.2.2.2 rfl).2, fun _ => this.2.2.2 rfl⟩
      · by_cases h3 : lookup c = 65
        · simp only [h3, show ¬ ((65:Int) = -1) by decide, show ¬ ((65:Int) = 64) by decide, if_true, if_false]
          exact ih e h
        · simp only [h1, h2, h3, if_false]
          rcases hs : e.st.state with _ | _ | _ | _ | _ <;> simp only
          · have := ih { e with st := ⟨.atbit2, e.st.bits <<< 6 ||| (lookup c).toNat⟩ } h
            exact ⟨this.1, this.2.1, this.2.2.1, by simp⟩
          · have := ih { e with st := ⟨.atbit4, (e.st.bits <<< 6 ||| (lookup c).toNat) &&& 15⟩ } h
            exact ⟨this.1, this.2.1, this.2.2.1, by simp⟩
          · have := ih { e with st := ⟨.atbit6, (e.st.bits <<< 6 ||| (lookup c).toNat) &&& 3⟩ } h
            exact ⟨this.1, this.2.1, this.2.2.1, by simp⟩
          · have := ih { e with st := ⟨.atbit0, 0⟩ } h
            exact ⟨this.1, this.2.1, this.2.2.1, by simp⟩
          · simp [hs]

/-- Output and error status of the decoder, in terms of the one-call loop. -/
theorem feed_decoder (cs : List (List Byte × Bool)) : ∀ (e : Enc DSt) (o : List Byte),
    e.okay = true → e.finished = false →
    (decoder.feed e ⟨[], o⟩ cs).2.1.out = o ++ (decLoop e (flat cs)).2.2.1 ∧
    ((decLoop e (flat cs)).1.okay = true → (decoder.feed e ⟨[], o⟩ cs).1.okay = true) := by
  induction cs with
  | nil => intro e o h _; simp [EncImpl.feed, decLoop, h]
  | cons c cs ih =>
    obtain ⟨c, fl⟩ := c
    intro e o hok hfin
    simp only [EncImpl.feed, List.nil_append, flat_cons]
    by_cases hc : (!c.isEmpty || fl) = true
    · have henc : decoder.encode e ⟨c, o⟩ fl false = dec_encode e ⟨c, o⟩ fl := by
        simp [EncImpl.encode, hok, hfin, hc, decoder]
      rw [henc]
      simp only [dec_encode]
      obtain ⟨hf1, hf2, hf3, hf4⟩ := decLoop_flags c e hok
      rw [decLoop_append]
      rcases hres : decLoop e c with ⟨e', rest, o', ok⟩
      rw [hres] at hf1 hf2 hf3 hf4
      simp only at hf1 hf2 hf3 hf4 ⊢
      cases hokk : ok with
      | false =>
        simp only [Bool.false_eq_true, if_false]
        rw [hokk] at hf1
        have := feed_inactive decoder cs e' ⟨rest, o ++ o'⟩ (Or.inl hf1.symm)
        refine ⟨this.2, fun h => ?_⟩
        rw [← hf1] at h; simp at h
      | true =>
        simp only [if_true]
        rw [hokk] at hf1
        have hr := hf2 hokk
        subst hr
        cases hfin' : e'.finished with
        | false =>
          have := ih e' (o ++ o') hf1.symm hfin'
          refine ⟨by rw [this.1, List.append_assoc], this.2⟩
        | true =>
          have := feed_inactive decoder cs e' ⟨[], o ++ o'⟩ (Or.inr hfin')
          have hpad := hf3 hfin' hfin
          have h4 := (decLoop_flags (flat cs) e' hf1.symm).2.2.2 hpad
          refine ⟨by rw [this.2, h4.1]; simp, fun _ => by rw [this.1]; exact hf1.symm⟩
    · have hc' : c = [] ∧ fl = false := by simpa using hc
      obtain ⟨rfl, rfl⟩ := hc'
      have henc : decoder.encode e ⟨[], o⟩ false false = (e, ⟨[], o⟩, false) := by
        simp [EncImpl.encode, hok, hfin]
      rw [henc]
      simpa using ih e o hok hfin

theorem decLoop_alpha (e : Enc DSt) (i : Nat) (hi : i < 64) (l : List Byte) : decLoop e (alphabetAt i :: l) =
      let bits := e.st.bits * 64 + i
      match e.st.state with
      | .atbit0 => decLoop { e with st := ⟨.atbit2, bits⟩ } l
      | .atbit2 =>
        let (e', r, o, ok) := decLoop { e with st := ⟨.atbit4, bits % 16⟩ } l
        (e', r, UInt8.ofNat (bits / 16) :: o, ok)
      | .atbit4 =>
        let (e', r, o, ok) := decLoop { e with st := ⟨.atbit6, bits % 4⟩ } l
        (e', r, UInt8.ofNat (bits / 4) :: o, ok)
      | .atbit6 =>
        let (e', r, o, ok) := decLoop { e with st := ⟨.atbit0, 0⟩ } l
        (e', r, UInt8.ofNat bits :: o, ok)
      | .pad => ({ e with okay := false, st := { e.st with bits := bits } }, l, [], false) := by
  rw [decLoop, lookup_alphabetAt i hi]
  simp only [show ¬ ((i:Int) = -1) by omega, show ¬ ((i:Int) = 64) by omega, show ¬ ((i:Int) = 65) by omega, if_false,
    Int.toNat_natCast, shl_or _ _ 6 (show i < 2^6 by omega), shr]
  rw [show (3:Nat) = 2^2-1 from rfl, show (15:Nat) = 2^4-1 from rfl]
  simp only [and_mask]
  rfl

theorem decLoop_eq (e : Enc DSt) (l : List Byte) : decLoop e (ch '=' :: l) =
    decLoop { e with finished := true, st := { e.st with state := .pad } } l := by
  rw [decLoop, show lookup (ch '=') = 64 from by decide]; rfl

theorem ofNat_eq (c : Byte) (n : Nat) (h : n % 256 = c.toNat) : UInt8.ofNat n = c := by
  apply UInt8.toNat_inj.mp
  simp [UInt8.toNat_ofNat', h]

theorem decLoop_text (data : List Byte) :
    (decLoop newDecoder (text data)).2.2.1 = data ∧ (decLoop newDecoder (text data)).2.2.2 = true ∧
    ((decLoop newDecoder (text data)).1.st.state = .pad ∨ (decLoop newDecoder (text data)).1.st.state = .atbit0) := by
  induction data using three_induction with
  | h0 => decide
  | h1 a =>
    have ha := byte_lt a
    rw [text_one, decLoop_alpha _ _ (by omega)]
    simp only [newDecoder]
    rw [decLoop_alpha _ _ (by omega)]
    simp only [decLoop_eq]
    simp only [decLoop]
    refine ⟨?_, trivial, by simp⟩
    congr 1
    apply ofNat_eq; omega
  | h2 a b =>
    have ha := byte_lt a
    have hb := byte_lt b
    rw [text_two, decLoop_alpha _ _ (by omega)]
    simp only [newDecoder]
    rw [decLoop_alpha _ _ (by omega)]
    simp only
    rw [decLoop_alpha _ _ (by omega)]
    simp only [decLoop_eq]
    simp only [decLoop]
    refine ⟨?_, trivial, by simp⟩
    congr 1
    · apply ofNat_eq; omega
    congr 1
    · apply ofNat_eq; omega
  | h3 a b c l ih =>
    have ha := byte_lt a
    have hb := byte_lt b
    have hc := byte_lt c
    rw [text_three, decLoop_alpha _ _ (by omega)]
    simp only [newDecoder]
    rw [decLoop_alpha _ _ (by omega)]
    simp only
    rw [decLoop_alpha _ _ (by omega)]
    simp only
    rw [decLoop_alpha _ _ (by omega)]
    simp only
    refine ⟨?_, ih.2.1, ih.2.2⟩
    have e1 := ih.1
    simp only [newDecoder] at e1
    rw [e1]
    congr 1
    · apply ofNat_eq; omega
    congr 1
    · apply ofNat_eq; omega
    congr 1
    · apply ofNat_eq; omega

end Wv.Base64
