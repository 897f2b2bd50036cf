import Verif.Lemmas.Base64
/- The model against Spec.Base64. -/
namespace Spec.Base64
open Wv

theorem bitsOf_length (w n : Nat) : (bitsOf w n).length = w := by
  induction w generalizing n with
  | zero => rfl
  | succ w ih => simp [bitsOf, ih]

theorem bitsOf_add (a b n : Nat) : bitsOf (a + b) n = bitsOf a (n / 2 ^ b) ++ bitsOf b n := by
  induction b generalizing n with
  | zero => simp [bitsOf]
  | succ b ih =>
    rw [← Nat.add_assoc, bitsOf, ih, bitsOf, Nat.div_div_eq_div_mul, Nat.pow_succ', List.append_assoc]

theorem foldl_val (l : List Bool) (x : Nat) :
    l.foldl (fun a b => 2 * a + b.toNat) x = x * 2 ^ l.length + valOf l := by
  induction l generalizing x with
  | nil => simp [valOf]
  | cons b l ih =>
    simp only [List.foldl_cons, valOf, List.length_cons]
    rw [ih, ih (2 * 0 + b.toNat), Nat.pow_succ']
    rw [← Nat.mul_assoc, Nat.add_mul]; simp [Nat.mul_comm, Nat.add_assoc]

theorem valOf_append (a b : List Bool) : valOf (a ++ b) = valOf a * 2 ^ b.length + valOf b := by
  rw [valOf, List.foldl_append, foldl_val]; rfl

theorem valOf_bitsOf (w n : Nat) : valOf (bitsOf w n) = n % 2 ^ w := by
  induction w generalizing n with
  | zero => simp [bitsOf, valOf]; omega
  | succ w ih =>
    rw [bitsOf, valOf_append, ih]
    have : valOf [n % 2 == 1] = n % 2 := by
      rcases Nat.mod_two_eq_zero_or_one n with h | h <;> simp [valOf, h]
    rw [this, Nat.pow_succ', Nat.mod_mul]
    simp; omega

theorem groups_cons (g r : List Bool) (h : g.length = 6) : groups (g ++ r) = g :: groups r := by
  match g, h with
  | b :: g, h =>
    rw [List.cons_append, groups]
    have h1 : (b :: (g ++ r)).take 6 = b :: g := by
      rw [← List.cons_append, List.take_left' h]
    have h2 : (b :: (g ++ r)).drop 6 = r := by
      rw [← List.cons_append, List.drop_left' h]
    have h3 : 6 - (b :: (g ++ r)).length = 0 := by simp at h ⊢; omega
    rw [h1, h2, h3]; simp

theorem groups_last (g : List Bool) (h : g ≠ []) (h6 : g.length ≤ 6) :
    groups g = [g ++ List.replicate (6 - g.length) false] := by
  match g, h with
  | b :: g, _ =>
    rw [groups]
    have h1 : (b :: g).take 6 = b :: g := List.take_of_length_le h6
    have h2 : (b :: g).drop 6 = [] := List.drop_eq_nil_of_le h6
    rw [h1, h2, groups]

theorem stream_nil : stream [] = [] := rfl
theorem stream_cons (a l) : stream (a :: l) = bitsOf 8 a.toNat ++ stream l := rfl

theorem bits8_62 (n : Nat) : bitsOf 8 n = bitsOf 6 (n / 4) ++ bitsOf 2 n := bitsOf_add 6 2 n
theorem bits8_44 (n : Nat) : bitsOf 8 n = bitsOf 4 (n / 16) ++ bitsOf 4 n := bitsOf_add 4 4 n
theorem bits8_26 (n : Nat) : bitsOf 8 n = bitsOf 2 (n / 64) ++ bitsOf 6 n := bitsOf_add 2 6 n

theorem valOf_replicate (k : Nat) : valOf (List.replicate k false) = 0 := by
  induction k with
  | zero => rfl
  | succ k ih => simpa [List.replicate_succ, valOf] using ih

theorem text_eq (data : List Byte) : Wv.Base64.text data = encode data := by
  induction data using Wv.Base64.three_induction with
  | h0 => rw [Wv.Base64.text_nil, encode, stream_nil, groups]; rfl
  | h1 a =>
    have ha := Wv.Base64.byte_lt a
    rw [Wv.Base64.text_one, encode, stream_cons, stream_nil, List.append_nil, bits8_62,
      groups_cons _ _ (bitsOf_length _ _), groups_last _ (by simp [bitsOf]) (by simp [bitsOf_length])]
    simp only [List.map_cons, List.map_nil, valOf_append, valOf_bitsOf, bitsOf_length, valOf_replicate,
      List.length_replicate]
    rw [Wv.Base64.alphabetAt_digit _ (by omega), Wv.Base64.alphabetAt_digit _ (by omega)]
    simp only [List.length_cons, List.length_nil]
    rw [show a.toNat / 4 % 2 ^ 6 = a.toNat / 4 by omega]
    rfl
  | h2 a b =>
    have ha := Wv.Base64.byte_lt a
    have hb := Wv.Base64.byte_lt b
    rw [Wv.Base64.text_two, encode, stream_cons, stream_cons, stream_nil, List.append_nil, bits8_62, bits8_44 b.toNat,
      List.append_assoc, groups_cons _ _ (bitsOf_length _ _), ← List.append_assoc,
      groups_cons _ _ (by simp [bitsOf_length]), groups_last _ (by simp [bitsOf]) (by simp [bitsOf_length])]
    simp only [List.map_cons, List.map_nil, valOf_append, valOf_bitsOf, bitsOf_length, valOf_replicate,
      List.length_replicate]
    rw [Wv.Base64.alphabetAt_digit _ (by omega), Wv.Base64.alphabetAt_digit _ (by omega),
      Wv.Base64.alphabetAt_digit _ (by omega)]
    simp only [List.length_cons, List.length_nil]
    rw [show a.toNat / 4 % 2 ^ 6 = a.toNat / 4 by omega, show b.toNat / 16 % 2 ^ 4 = b.toNat / 16 by omega]
    rfl
  | h3 a b c l ih =>
    have ha := Wv.Base64.byte_lt a
    have hb := Wv.Base64.byte_lt b
    have hc := Wv.Base64.byte_lt c
    rw [Wv.Base64.text_three, ih, encode, encode, stream_cons, stream_cons, stream_cons, bits8_62, bits8_44 b.toNat,
      bits8_26 c.toNat]
    have e : bitsOf 6 (a.toNat / 4) ++ bitsOf 2 a.toNat ++ (bitsOf 4 (b.toNat / 16) ++ bitsOf 4 b.toNat ++
          (bitsOf 2 (c.toNat / 64) ++ bitsOf 6 c.toNat ++ stream l)) =
        bitsOf 6 (a.toNat / 4) ++ ((bitsOf 2 a.toNat ++ bitsOf 4 (b.toNat / 16)) ++ ((bitsOf 4 b.toNat ++
          bitsOf 2 (c.toNat / 64)) ++ (bitsOf 6 c.toNat ++ stream l))) := by simp
    rw [e, groups_cons _ _ (bitsOf_length _ _), groups_cons _ _ (by simp [bitsOf_length]),
      groups_cons _ _ (by simp [bitsOf_length]), groups_cons _ _ (bitsOf_length _ _)]
    simp only [List.map_cons, valOf_append, valOf_bitsOf, bitsOf_length, List.cons_append]
    rw [Wv.Base64.alphabetAt_digit _ (by omega), Wv.Base64.alphabetAt_digit _ (by omega),
      Wv.Base64.alphabetAt_digit _ (by omega), Wv.Base64.alphabetAt_digit _ (by omega)]
    rw [show a.toNat / 4 % 2 ^ 6 = a.toNat / 4 by omega, show b.toNat / 16 % 2 ^ 4 = b.toNat / 16 by omega,
      show c.toNat / 64 % 2 ^ 2 = c.toNat / 64 by omega]
    have : (l.length + 1 + 1 + 1) % 3 = l.length % 3 := by omega
    simp only [List.length_cons, this]

/-! ### decoding -/

theorem lookup_cases (c : Byte) :
    (Wv.Base64.lookup c = -1 ∧ isWs c = false ∧ valueOf? c = none ∧ c ≠ 61) ∨
    (Wv.Base64.lookup c = 64 ∧ isWs c = false ∧ valueOf? c = none ∧ c = 61) ∨
    (Wv.Base64.lookup c = 65 ∧ isWs c = true ∧ valueOf? c = none ∧ c ≠ 61) ∨
    (isWs c = false ∧ c ≠ 61 ∧ 0 ≤ Wv.Base64.lookup c ∧ Wv.Base64.lookup c < 64 ∧
      valueOf? c = some (Wv.Base64.lookup c).toNat) := by
  revert c
  exact forall_byte (by decide +kernel)

theorem wholeBytes_short (l : List Bool) (h : l.length < 8) : wholeBytes l = [] := by
  rw [wholeBytes, if_pos h]

theorem wholeBytes_cons (g l : List Bool) (h : g.length = 8) :
    wholeBytes (g ++ l) = UInt8.ofNat (valOf g) :: wholeBytes l := by
  rw [wholeBytes, if_neg (by simp; omega), List.take_left' h, List.drop_left' h]

/-- number of bits waiting in the decoder -/
def pend : Wv.Base64.DState → Nat
  | .atbit0 => 0 | .atbit2 => 6 | .atbit4 => 4 | .atbit6 => 2 | .pad => 0

def DInv (s : Wv.Base64.DSt) : Prop := s.state ≠ .pad ∧ s.bits < 2 ^ pend s.state

open Wv.Base64 in
theorem decLoop_out (l : List Byte) : ∀ e : Enc DSt, e.okay = true → DInv e.st →
    (decLoop e l).2.2.1 = wholeBytes (bitsOf (pend e.st.state) e.st.bits ++ (leadingDigits l).flatMap (bitsOf 6)) := by
  induction l with
  | nil =>
    intro e _ h
    rw [wholeBytes_short]
    · rfl
    · simp only [leadingDigits, List.flatMap_nil, List.append_nil, bitsOf_length]
      cases e.st.state <;> simp [pend]
  | cons c l ih =>
    intro e hok h
    have hshort : ∀ st b, wholeBytes (bitsOf (pend st) b ++ []) = [] := by
      intro st b
      rw [wholeBytes_short]
      rw [List.append_nil, bitsOf_length]
      cases st <;> simp [pend]
    rcases lookup_cases c with ⟨h1, h2, h3, -⟩ | ⟨h1, h2, h3, -⟩ | ⟨h1, h2, h3, -⟩ | ⟨h2, -, h0, h64, h3⟩
    · simp only [decLoop, h1, leadingDigits, h2, h3, if_true, Bool.false_eq_true, if_false, List.flatMap_nil, hshort]
    · simp only [decLoop, h1, leadingDigits, h2, h3, if_true, Bool.false_eq_true, if_false, List.flatMap_nil, hshort,
        show ¬ ((64:Int) = -1) by decide]
      exact ((decLoop_flags l { e with finished := true, st := { e.st with state := .pad } } hok).2.2.2 rfl).1
    · simp only [decLoop, h1, leadingDigits, h2, h3, if_true, if_false,
        show ¬ ((65:Int) = -1) by decide, show ¬ ((65:Int) = 64) by decide]
      exact ih e hok h
    · simp only [leadingDigits, h2, h3, Bool.false_eq_true, if_false, List.flatMap_cons]
      rw [decLoop]
      simp only [show ¬ (lookup c = -1) by omega, show ¬ (lookup c = 64) by omega, show ¬ (lookup c = 65) by omega,
        if_false]
      obtain ⟨v, hv⟩ : ∃ v, v = (lookup c).toNat := ⟨_, rfl⟩
      have hv64 : v < 64 := by omega
      rw [← hv, shl_or _ _ 6 (show v < 2^6 by omega)]
      obtain ⟨okay, fin, ⟨state, bits⟩⟩ := e
      obtain ⟨hp, hb⟩ := h
      cases state
      · simp only [pend] at hb ⊢
        rw [ih ⟨okay, fin, ⟨.atbit2, bits * 2 ^ 6 + v⟩⟩ hok ⟨by simp, by simp only [pend]; omega⟩]
        simp only [pend]
        have : bits = 0 := by omega
        subst this
        simp [bitsOf]
      · simp only [pend] at hb ⊢
        rw [show (15:Nat) = 2^4-1 from rfl, and_mask]
        rw [ih ⟨okay, fin, ⟨.atbit4, (bits * 2 ^ 6 + v) % 2 ^ 4⟩⟩ hok ⟨by simp, by simp only [pend]; omega⟩]
        simp only [pend, shr]
        have hsplit : bitsOf 6 v = bitsOf 2 (v / 16) ++ bitsOf 4 v := bitsOf_add 2 4 v
        rw [← List.append_assoc, hsplit, ← List.append_assoc, List.append_assoc,
          wholeBytes_cons (bitsOf 6 bits ++ bitsOf 2 (v / 16)) _ (by simp [bitsOf_length])]
        congr 1
        · rw [valOf_append, valOf_bitsOf, valOf_bitsOf, bitsOf_length]; congr 1; omega
        · congr 2
          rw [show (6:Nat) = 2 + 4 from rfl, show bits * 2 ^ (2+4) + v = bits * 64 + v from rfl]
          have : ∀ n, bitsOf 4 (n % 2 ^ 4) = bitsOf 4 n := by
            intro n; simp only [bitsOf]; simp only [List.nil_append, List.cons_append]
            congr 1; · congr 1; omega
            congr 1; · congr 1; omega
            congr 1; · congr 1; omega
            congr 1; · congr 1; omega
          rw [this, ← this v, ← this (bits * 64 + v)]
          congr 1; omega
      · simp only [pend] at hb ⊢
        rw [show (3:Nat) = 2^2-1 from rfl, and_mask]
        rw [ih ⟨okay, fin, ⟨.atbit6, (bits * 2 ^ 6 + v) % 2 ^ 2⟩⟩ hok ⟨by simp, by simp only [pend]; omega⟩]
        simp only [pend, shr]
        have hsplit : bitsOf 6 v = bitsOf 4 (v / 4) ++ bitsOf 2 v := bitsOf_add 4 2 v
        rw [← List.append_assoc, hsplit, ← List.append_assoc, List.append_assoc,
          wholeBytes_cons (bitsOf 4 bits ++ bitsOf 4 (v / 4)) _ (by simp [bitsOf_length])]
        congr 1
        · rw [valOf_append, valOf_bitsOf, valOf_bitsOf, bitsOf_length]; congr 1; omega
        · congr 2
          have : ∀ n, bitsOf 2 (n % 2 ^ 2) = bitsOf 2 n := by
            intro n; simp only [bitsOf]; simp only [List.nil_append, List.cons_append]
            congr 1; · congr 1; omega
            congr 1; · congr 1; omega
          rw [this, ← this v, ← this (bits * 2 ^ 6 + v)]
          congr 1; omega
      · simp only [pend] at hb ⊢
        rw [ih ⟨okay, fin, ⟨.atbit0, 0⟩⟩ hok ⟨by simp, by simp only [pend]; omega⟩]
        simp only [pend]
        rw [← List.append_assoc, wholeBytes_cons (bitsOf 2 bits ++ bitsOf 6 v) _ (by simp [bitsOf_length])]
        congr 1
        · rw [valOf_append, valOf_bitsOf, valOf_bitsOf, bitsOf_length]; congr 1; omega
      · simp at hp

/-- Digits and white space, then only '=' and white space. -/
theorem decLoop_okay (l : List Byte) : ∀ e : Enc Wv.Base64.DSt, e.okay = true →
    (Wv.Base64.decLoop e l).1.okay = wellFormed (e.st.state == .pad) l := by
  induction l with
  | nil => intro e h; simp [Wv.Base64.decLoop, wellFormed, h]
  | cons c l ih =>
    intro e hok
    rcases lookup_cases c with ⟨h1, h2, h3, h4⟩ | ⟨h1, h2, h3, h4⟩ | ⟨h1, h2, h3, h4⟩ | ⟨h2, h4, h0, h64, h3⟩
    · simp [Wv.Base64.decLoop, wellFormed, h1, h2, h3, h4, Enc.seterror]
    · rw [Wv.Base64.decLoop, wellFormed]
      simp only [h1, h2, show ¬ ((64:Int) = -1) by decide, if_true, if_false, Bool.false_eq_true]
      rw [if_pos h4]
      rw [ih _ (by simpa using hok)]; rfl
    · rw [Wv.Base64.decLoop, wellFormed]
      simp only [h1, h2, show ¬ ((65:Int) = -1) by decide, show ¬ ((65:Int) = 64) by decide, if_true, if_false]
      exact ih _ hok
    · rw [Wv.Base64.decLoop, wellFormed]
      simp only [h2, h3, h4, show ¬ (Wv.Base64.lookup c = -1) by omega, show ¬ (Wv.Base64.lookup c = 64) by omega,
        show ¬ (Wv.Base64.lookup c = 65) by omega, if_false, Bool.false_eq_true, Option.isSome_some]
      rcases hs : e.st.state with _ | _ | _ | _ | _ <;> simp only
      · rw [ih _ (by simpa using hok)]; rfl
      · rw [ih _ (by simpa using hok)]; rfl
      · rw [ih _ (by simpa using hok)]; rfl
      · rw [ih _ (by simpa using hok)]; rfl
      · simp

theorem decLoop_finished (l : List Byte) : ∀ e : Enc Wv.Base64.DSt, e.finished = true →
    (Wv.Base64.decLoop e l).1.finished = true := by
  induction l with
  | nil => intro e h; simpa [Wv.Base64.decLoop]
  | cons c l ih =>
    intro e h
    rw [Wv.Base64.decLoop]
    simp only
    split
    · exact h
    · split
      · exact ih _ rfl
      · split
        · exact ih _ h
        · split
          · exact ih _ h
          · exact ih _ h
          · exact ih _ h
          · exact ih _ h
          · exact h

theorem decLoop_not_finished (l : List Byte) : ∀ e : Enc Wv.Base64.DSt, e.finished = false → e.okay = true →
    (∃ pre c post, l = pre ++ c :: post ∧ 61 ∉ pre ∧ c ≠ 61 ∧ isWs c = false ∧ valueOf? c = none) →
    (Wv.Base64.decLoop e l).1.finished = false ∧ (Wv.Base64.decLoop e l).1.okay = false := by
  induction l with
  | nil => rintro e _ _ ⟨pre, c, post, h, _⟩; simp at h
  | cons d l ih =>
    rintro e hf hok ⟨pre, c, post, h, hpre, hc, hws, hv⟩
    rw [Wv.Base64.decLoop]
    rcases lookup_cases d with ⟨h1, h2, h3, h4⟩ | ⟨h1, h2, h3, h4⟩ | ⟨h1, h2, h3, h4⟩ | ⟨h2, h4, h0, h64, h3⟩
    · simp [h1, Enc.seterror, hf]
    · exfalso
      cases pre with
      | nil => simp at h; exact hc (h.1 ▸ h4)
      | cons x pre => simp at h; apply hpre; simp [← h.1, h4]
    · simp only [h1, show ¬ ((65:Int) = -1) by decide, show ¬ ((65:Int) = 64) by decide, if_true, if_false]
      cases pre with
      | nil => simp at h; rw [h.1] at h2; simp [h2] at hws
      | cons x pre =>
        simp at h
        exact ih e hf hok ⟨pre, c, post, h.2, fun hm => hpre (by simp [hm]), hc, hws, hv⟩
    · simp only [show ¬ (Wv.Base64.lookup d = -1) by omega, show ¬ (Wv.Base64.lookup d = 64) by omega,
        show ¬ (Wv.Base64.lookup d = 65) by omega, if_false]
      cases pre with
      | nil => simp at h; rw [h.1] at h3; simp [h3] at hv
      | cons x pre =>
        simp at h
        have hh : ∃ pre c post, l = pre ++ c :: post ∧ 61 ∉ pre ∧ c ≠ 61 ∧ isWs c = false ∧ valueOf? c = none :=
          ⟨pre, c, post, h.2, fun hm => hpre (by simp [hm]), hc, hws, hv⟩
        rcases hs : e.st.state with _ | _ | _ | _ | _ <;> simp only
        · exact ih _ hf hok hh
        · exact ih _ hf hok hh
        · exact ih _ hf hok hh
        · exact ih _ hf hok hh
        · exact ⟨hf, trivial⟩

open Wv.Base64 in
theorem feed_decoder_bad (cs : List (List Byte × Bool)) : ∀ (e : Enc DSt) (o : List Byte),
    e.okay = true → e.finished = false →
    (decLoop e (flat cs)).1.finished = false → (decLoop e (flat cs)).1.okay = false →
    (decoder.feed e ⟨[], o⟩ cs).1.okay = false := by
  induction cs with
  | nil => intro e o h _ _ h2; simp [decLoop, h] at h2
  | cons c cs ih =>
    obtain ⟨c, fl⟩ := c
    intro e o hok hfin
    simp only [EncImpl.feed, List.nil_append, flat_cons]
    by_cases hc : (!c.isEmpty || fl) = true
    · have henc : decoder.encode e ⟨c, o⟩ fl false = dec_encode e ⟨c, o⟩ fl := by
        simp [EncImpl.encode, hok, hfin, hc, decoder]
      rw [henc]
      simp only [dec_encode]
      obtain ⟨hf1, hf2, hf3, hf4⟩ := decLoop_flags c e hok
      rw [decLoop_append]
      rcases hres : decLoop e c with ⟨e', rest, o', ok⟩
      rw [hres] at hf1 hf2 hf3 hf4
      simp only at hf1 hf2 hf3 hf4 ⊢
      cases hokk : ok with
      | false =>
        simp only [Bool.false_eq_true, if_false]
        rw [hokk] at hf1
        have := feed_inactive decoder cs e' ⟨rest, o ++ o'⟩ (Or.inl hf1.symm)
        intro _ h
        rw [this.1, h]
      | true =>
        simp only [if_true]
        rw [hokk] at hf1
        have hr := hf2 hokk
        subst hr
        cases hfin' : e'.finished with
        | false => exact ih e' (o ++ o') hf1.symm hfin'
        | true => intro h; rw [decLoop_finished _ _ hfin'] at h; simp at h
    · have hc' : c = [] ∧ fl = false := by simpa using hc
      obtain ⟨rfl, rfl⟩ := hc'
      have henc : decoder.encode e ⟨[], o⟩ false false = (e, ⟨[], o⟩, false) := by
        simp [EncImpl.encode, hok, hfin]
      rw [henc]
      simpa using ih e o hok hfin

theorem leadingDigits_filter (l : List Byte) : leadingDigits (l.filter (fun c => !isWs c)) = leadingDigits l := by
  induction l with
  | nil => rfl
  | cons c l ih =>
    by_cases h : isWs c <;> simp [List.filter_cons, leadingDigits, h, ih]

theorem wellFormed_filter (l : List Byte) (p : Bool) : wellFormed p (l.filter (fun c => !isWs c)) = wellFormed p l := by
  induction l generalizing p with
  | nil => rfl
  | cons c l ih =>
    by_cases h : isWs c <;> simp [List.filter_cons, wellFormed, h, ih]

theorem decLoop_decode (l : List Byte) : (Wv.Base64.decLoop Wv.Base64.newDecoder l).2.2.1 = decode l := by
  rw [decLoop_out l _ rfl ⟨by simp [Wv.Base64.newDecoder], by simp [Wv.Base64.newDecoder, pend]⟩]
  simp [Wv.Base64.newDecoder, pend, bitsOf, decode]

end Spec.Base64
