import Verif.Model.Hex
import Verif.Spec.Hex
import Verif.Lemmas.Basic
import Verif.Lemmas.Encoder
namespace Wv.Hex

theorem encLoop_append (u : Bool) (a b : List Byte) : encLoop u (a ++ b) = encLoop u a ++ encLoop u b := by
  induction a with
  | nil => rfl
  | cons c a ih => simp [encLoop, ih]

theorem encoder_pure (u : Bool) : (encoder u).Pure (fun s l => (s, encLoop u l)) where
  enc e io fl := ⟨true, rfl, fun _ => rfl⟩
  nil _ := rfl
  app _ a b := by simp [encLoop_append]

theorem encLoop_spec (u : Bool) (l : List Byte) : encLoop u l = Spec.Hex.encode u l := by
  induction l with
  | nil => rfl
  | cons c l ih =>
    have h : ∀ c : Byte, [tohex (c.toNat >>> 4) u, tohex (c.toNat &&& 15) u] = Spec.Hex.byte u c := by
      apply forall_byte
      cases u <;> decide +kernel
    have := h c
    simp only [encLoop, Spec.Hex.encode, List.flatMap_cons, ← this, ih]
    rfl

/-- relation between the character classes of the model and the spec -/
theorem char_cases (c : Byte) :
    (isxdigit c = true ∧ isspace c = false ∧ Spec.Hex.isWs c = false ∧ Spec.Hex.value? c = some (fromhex c) ∧ fromhex c < 16) ∨
    (isxdigit c = false ∧ isspace c = true ∧ Spec.Hex.isWs c = true ∧ Spec.Hex.value? c = none) ∨
    (isxdigit c = false ∧ isspace c = false ∧ Spec.Hex.isWs c = false ∧ Spec.Hex.value? c = none) := by
  revert c
  exact forall_byte (by decide +kernel)

theorem decLoop_append (a b : List Byte) : ∀ (e : Enc DSt), decLoop e (a ++ b) =
    if (decLoop e a).2.2.2 then
      let r := decLoop (decLoop e a).1 b
      (r.1, r.2.1, (decLoop e a).2.2.1 ++ r.2.2.1, r.2.2.2)
    else ((decLoop e a).1, (decLoop e a).2.1 ++ b, (decLoop e a).2.2.1, false) := by
  induction a with
  | nil => intro e; simp [decLoop]
  | cons c cs ih =>
    intro e
    simp only [List.cons_append, decLoop]
    by_cases h1 : isxdigit c
    · cases hs : e.st.issecond
      · simp only [h1, if_true, Bool.not_false, ih]
      · simp only [h1, if_true, Bool.not_true, ih, Bool.false_eq_true, if_false]; split <;> simp
    · by_cases h2 : isspace c
      · simp only [h1, h2, if_true, Bool.false_eq_true, if_false, ih]
      · simp [h1, h2]

theorem decLoop_flags (l : List Byte) : ∀ (e : Enc DSt), e.okay = true → e.finished = false →
    ((decLoop e l).2.2.2 = (decLoop e l).1.okay) ∧
    ((decLoop e l).2.2.2 = true → (decLoop e l).2.1 = []) ∧
    (decLoop e l).1.finished = false := by
  induction l with
  | nil => intro e h h'; simp [decLoop, h, h']
  | cons c cs ih =>
    intro e h hf
    simp only [decLoop]
    by_cases h1 : isxdigit c
    · cases hs : e.st.issecond
      · simp only [h1, if_true, Bool.not_false]
        exact ih _ h hf
      · simp only [h1, if_true, Bool.not_true, Bool.false_eq_true, if_false]
        exact ih _ h hf
    · by_cases h2 : isspace c
      · simp only [h1, h2, if_true, Bool.false_eq_true, if_false]
        exact ih _ h hf
      · simp [h1, h2, Enc.seterror, hf]

theorem decLoop_spec (l : List Byte) : ∀ (e : Enc DSt), e.okay = true → e.st.first < 16 →
    (decLoop e l).2.2.1 = Spec.Hex.pairs ((if e.st.issecond then [e.st.first] else []) ++ Spec.Hex.leadingDigits l) ∧
    (decLoop e l).1.okay = l.all (fun c => Spec.Hex.isWs c || (Spec.Hex.value? c).isSome) ∧
    ((decLoop e l).1.okay = true → (decLoop e l).1.st.issecond =
      (((if e.st.issecond then 1 else 0) + (Spec.Hex.leadingDigits l).length) % 2 == 1)) := by
  induction l with
  | nil =>
    intro e h _
    cases hs : e.st.issecond <;> simp [decLoop, Spec.Hex.leadingDigits, Spec.Hex.pairs, h, hs]
  | cons c l ih =>
    intro e hok hfst
    rcases char_cases c with ⟨h1, h2, h3, h4, h5⟩ | ⟨h1, h2, h3, h4⟩ | ⟨h1, h2, h3, h4⟩
    · simp only [decLoop, h1, if_true, Spec.Hex.leadingDigits, h3, h4, Bool.false_eq_true, if_false, List.all_cons,
        Option.isSome_some, Bool.or_true, Bool.true_and]
      cases hs : e.st.issecond
      · have := ih { e with st := ⟨true, fromhex c⟩ } hok h5
        simp only [Bool.not_false, if_true, Bool.false_eq_true, if_false, List.nil_append] at this ⊢
        refine ⟨this.1, this.2.1, fun h => ?_⟩
        rw [this.2.2 h, List.length_cons]
        congr 2; omega
      · have := ih { e with st := { e.st with issecond := false } } hok hfst
        simp only [Bool.not_true, if_true, Bool.false_eq_true, if_false, List.nil_append] at this ⊢
        refine ⟨?_, this.2.1, fun h => ?_⟩
        · rw [this.1, List.singleton_append, Spec.Hex.pairs, shl_or _ _ 4 (show fromhex c < 2^4 by omega)]
          rw [Nat.mul_comm]
        · rw [this.2.2 h, List.length_cons]
          have : (0 + (Spec.Hex.leadingDigits l).length) % 2 = (1 + ((Spec.Hex.leadingDigits l).length + 1)) % 2 := by omega
          rw [this]
    · simp only [decLoop, h1, h2, if_true, Spec.Hex.leadingDigits, h3, Bool.false_eq_true, if_false, List.all_cons,
        Bool.true_or, Bool.true_and]
      exact ih e hok hfst
    · simp only [decLoop, h1, h2, if_true, Spec.Hex.leadingDigits, h3, h4, Bool.false_eq_true, if_false, List.all_cons,
        Option.isSome_none, Bool.or_self, Bool.false_and, Enc.seterror, List.append_nil]
      refine ⟨?_, trivial, by simp⟩
      split <;> simp [Spec.Hex.pairs]

theorem feed_decoder (cs : List (List Byte × Bool)) : ∀ (e : Enc DSt) (o : List Byte),
    e.okay = true → e.finished = false →
    (decoder.feed e ⟨[], o⟩ cs).2.1.out = o ++ (decLoop e (flat cs)).2.2.1 ∧
    (decoder.feed e ⟨[], o⟩ cs).1 = (decLoop e (flat cs)).1 := by
  induction cs with
  | nil => intro e o h _; simp [EncImpl.feed, decLoop]
  | cons c cs ih =>
    obtain ⟨c, fl⟩ := c
    intro e o hok hfin
    simp only [EncImpl.feed, List.nil_append, flat_cons]
    by_cases hc : (!c.isEmpty || fl) = true
    · have henc : decoder.encode e ⟨c, o⟩ fl false = decoder.encode' e ⟨c, o⟩ fl := by
        simp [EncImpl.encode, hok, hfin, hc]
      rw [henc]
      simp only [decoder]
      obtain ⟨hf1, hf2, hf3⟩ := decLoop_flags c e hok hfin
      rw [decLoop_append]
      rcases hres : decLoop e c with ⟨e', rest, o', ok⟩
      rw [hres] at hf1 hf2 hf3
      simp only at hf1 hf2 hf3 ⊢
      cases hokk : ok with
      | false =>
        simp only [Bool.false_eq_true, if_false]
        rw [hokk] at hf1
        have := feed_inactive decoder cs e' ⟨rest, o ++ o'⟩ (Or.inl hf1.symm)
        exact ⟨this.2, this.1⟩
      | true =>
        simp only [if_true]
        rw [hokk] at hf1
        have hr := hf2 hokk
        subst hr
        have := ih e' (o ++ o') hf1.symm hf3
        exact ⟨by rw [← List.append_assoc]; exact this.1, this.2⟩
    · have hc' : c = [] ∧ fl = false := by simpa using hc
      obtain ⟨rfl, rfl⟩ := hc'
      have henc : decoder.encode e ⟨[], o⟩ false false = (e, ⟨[], o⟩, false) := by
        simp [EncImpl.encode, hok, hfin]
      rw [henc]
      simpa using ih e o hok hfin

theorem leadingDigits_filter (l : List Byte) :
    Spec.Hex.leadingDigits (l.filter (fun c => !Spec.Hex.isWs c)) = Spec.Hex.leadingDigits l := by
  induction l with
  | nil => rfl
  | cons c l ih => by_cases h : Spec.Hex.isWs c <;> simp [List.filter_cons, Spec.Hex.leadingDigits, h, ih]

theorem all_filter (l : List Byte) :
    (l.filter (fun c => !Spec.Hex.isWs c)).all (fun c => Spec.Hex.isWs c || (Spec.Hex.value? c).isSome) =
    l.all (fun c => Spec.Hex.isWs c || (Spec.Hex.value? c).isSome) := by
  induction l with
  | nil => rfl
  | cons c l ih => by_cases h : Spec.Hex.isWs c <;> simp only [List.filter_cons, h, List.all_cons, Bool.not_true, Bool.not_false, if_true, Bool.false_eq_true, if_false, ih, Bool.true_or, Bool.true_and]

theorem digits_of_byte (u : Bool) (c : Byte) : ∃ a b, Spec.Hex.byte u c = [a, b] ∧ Spec.Hex.isWs a = false ∧ Spec.Hex.isWs b = false ∧
    Spec.Hex.value? a = some (c.toNat / 16) ∧ Spec.Hex.value? b = some (c.toNat % 16) := by
  have h : ∀ c : Byte, Spec.Hex.isWs (Spec.Hex.digit u (c.toNat / 16)) = false ∧ Spec.Hex.isWs (Spec.Hex.digit u (c.toNat % 16)) = false ∧
    Spec.Hex.value? (Spec.Hex.digit u (c.toNat / 16)) = some (c.toNat / 16) ∧
    Spec.Hex.value? (Spec.Hex.digit u (c.toNat % 16)) = some (c.toNat % 16) := by
    apply forall_byte
    cases u <;> decide +kernel
  exact ⟨_, _, rfl, h c⟩

theorem encode_ok (u : Bool) (l : List Byte) :
    Spec.Hex.pairs (Spec.Hex.leadingDigits (Spec.Hex.encode u l)) = l ∧
    (Spec.Hex.encode u l).all (fun c => Spec.Hex.isWs c || (Spec.Hex.value? c).isSome) = true ∧
    (Spec.Hex.leadingDigits (Spec.Hex.encode u l)).length % 2 = 0 ∧
    (Spec.Hex.encode u l).filter (fun c => !Spec.Hex.isWs c) = Spec.Hex.encode u l := by
  induction l with
  | nil => cases u <;> decide
  | cons c l ih =>
    obtain ⟨a, b, h, ha, hb, va, vb⟩ := digits_of_byte u c
    have e : Spec.Hex.encode u (c :: l) = a :: b :: Spec.Hex.encode u l := by
      simp [Spec.Hex.encode, h]
    have hc : 16 * (c.toNat / 16) + c.toNat % 16 = c.toNat := Nat.div_add_mod _ _
    rw [e]
    refine ⟨?_, ?_, ?_, ?_⟩
    · simp [Spec.Hex.leadingDigits, ha, hb, va, vb, Spec.Hex.pairs, ih.1, hc]
    · simpa [va, vb] using ih.2.1
    · simp [Spec.Hex.leadingDigits, ha, hb, va, vb]
      have := ih.2.2.1; omega
    · simpa [List.filter_cons, ha, hb] using ih.2.2.2

end Wv.Hex
