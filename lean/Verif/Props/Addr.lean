import Verif.Model.Addr
import Verif.Lemmas.Basic
import Verif.Lemmas.Num
import Verif.Props.Serialize
import Verif.Props.Num
/- C38, C39: Internet addresses and networks. -/
set_option linter.unusedSimpArgs false
namespace Props
open Wv Spec.Addr
open Wv.Addr (parse printable netParse netPrintable netOf netBits normalize includes network broadcast portParse portPrintable)

namespace Ip
open Wv.Addr Ser

theorem bits_toNat (x : Addr) : (bits x).toNat = Serialize.htonl (addr x) := by
  have h : Serialize.swap 4 (Serialize.load [x.a, x.b, x.c, x.d]) = big [x.a, x.b, x.c, x.d] := load_swap [x.a, x.b, x.c, x.d] (by simp)
  have h2 : Serialize.swap 4 (Serialize.load [x.a, x.b, x.c, x.d]) = Serialize.htonl (addr x) := rfl
  rw [← h2, h]
  have ha := x.a.toBitVec.isLt
  have hb := x.b.toBitVec.isLt
  have hc := x.c.toBitVec.isLt
  have hd := x.d.toBitVec.isLt
  simp only [bits, BitVec.toNat_append]
  rw [← Nat.shiftLeft_add_eq_or_of_lt hb, ← Nat.shiftLeft_add_eq_or_of_lt hc, ← Nat.shiftLeft_add_eq_or_of_lt hd]
  simp only [Nat.shiftLeft_eq, big, List.length_cons, List.length_nil, UInt8.toNat]
  omega

theorem bits_inj (x y : Addr) (h : bits x = bits y) : x = y := by
  have e : ∀ x : Addr, [x.a, x.b, x.c, x.d] = Spec.Serial.bytes 4 ((bits x).toNat : Nat) := by
    intro x
    rw [bits_toNat]
    have h1 : Serialize.swap 4 (Serialize.load [x.a, x.b, x.c, x.d]) = big [x.a, x.b, x.c, x.d] := load_swap [x.a, x.b, x.c, x.d] (by simp)
    have h2 : Serialize.swap 4 (Serialize.load [x.a, x.b, x.c, x.d]) = Serialize.htonl (addr x) := rfl
    rw [← h2, h1]
    exact (bytes_big [x.a, x.b, x.c, x.d]).symm
  have := (e x).trans ((congrArg (fun v : BitVec 32 => Spec.Serial.bytes 4 (v.toNat : Nat)) h).trans (e y).symm)
  simp only [List.cons.injEq, and_true] at this
  obtain ⟨h1, h2, h3, h4⟩ := this
  cases x; cases y
  simp_all

theorem bits_ofMem (v : BitVec 32) : bits (ofMem (Serialize.htonl v.toNat)) = v := by
  apply BitVec.eq_of_toNat_eq
  have ht : Serialize.trunc 4 (v.toNat : Int) = v.toNat := by
    have := v.isLt
    simp only [Serialize.trunc]; omega
  have hm : Serialize.mem 4 (Serialize.htonl v.toNat) = Spec.Serial.bytes 4 (v.toNat : Int) := by
    have := mem_swap 4 (by simp) (v.toNat : Int)
    rw [ht] at this
    exact this
  obtain ⟨a, b, c, d, hl⟩ : ∃ a b c d, Spec.Serial.bytes 4 (v.toNat : Int) = [a, b, c, d] := ⟨_, _, _, _, rfl⟩
  have e : ofMem (Serialize.htonl v.toNat) = ⟨a, b, c, d⟩ := by
    unfold ofMem; rw [hm, hl]; rfl
  rw [e, bits_toNat]
  have h1 : Serialize.swap 4 (Serialize.load [a, b, c, d]) = big [a, b, c, d] := load_swap [a, b, c, d] (by simp)
  have h2 : Serialize.swap 4 (Serialize.load [a, b, c, d]) = Serialize.htonl (addr ⟨a, b, c, d⟩) := rfl
  rw [← h2, h1, ← hl]
  have := big_bytes 4 (v.toNat : Int)
  have := v.isLt
  omega

theorem bits_and (x y : Addr) : bits (Wv.Addr.and x y) = bits x &&& bits y := by
  simp only [bits, Wv.Addr.and, UInt8.toBitVec_and]
  rw [BitVec.and_append, BitVec.and_append, BitVec.and_append]
theorem bits_or (x y : Addr) : bits (Wv.Addr.or x y) = bits x ||| bits y := by
  simp only [bits, Wv.Addr.or, UInt8.toBitVec_or]
  rw [BitVec.or_append, BitVec.or_append, BitVec.or_append]
theorem bits_xor (x y : Addr) : bits (Wv.Addr.xor x y) = bits x ^^^ bits y := by
  simp only [bits, Wv.Addr.xor, UInt8.toBitVec_xor]
  rw [BitVec.xor_append, BitVec.xor_append, BitVec.xor_append]
theorem bits_not (x : Addr) : bits (Wv.Addr.not x) = ~~~bits x := by
  simp only [bits, Wv.Addr.not, UInt8.toBitVec_not]
  rw [BitVec.not_append, BitVec.not_append, BitVec.not_append]

/-- The address with given bits. -/
def ofBits (v : BitVec 32) : Addr := ofMem (Serialize.htonl v.toNat)

theorem bits_ofBits (v : BitVec 32) : bits (ofBits v) = v := bits_ofMem v

theorem number_eq (b : Byte) : number b = Num.dec b.toNat := by
  have h := b.toNat_lt
  have : Num.ofSigned 32 (b.toNat : Int) = some (Num.dec b.toNat) := by
    rw [C32_print_signed_partial 32 _ (by simp [Num.inRange]; omega) (by simp)]
    simp only [Spec.Num.decimal]
    rw [if_neg (by omega)]; rfl
  rw [number, this, Option.getD_some]

/-- A byte that is no digit, or the end. -/
def Stop (r : Text) : Prop := ∀ c t, r = c :: t → isdigit c = false

theorem digits_stop (n : Nat) (r : Text) (h : Stop r) : Num.digits n r = n := by
  cases r with
  | nil => rfl
  | cons c t => rw [Num.digits, if_neg (by simp [h c t rfl])]

theorem strtol_dec (n : Nat) (hn : n < 256) (r : Text) (h : Stop r) : strtol (Num.dec n ++ r) = n := by
  have hg := Num.dec_isdigit n
  have hne := Num.dec_ne_nil n
  have hd := (Num.digits_dec n r).trans (digits_stop n r h)
  unfold strtol
  cases hl : Num.dec n with
  | nil => exact absurd hl hne
  | cons c l =>
    have hc := hg c (by rw [hl]; simp)
    have hs : isspace c = false := by
      have : ∀ c : Byte, isdigit c = true → isspace c = false := by
        intro c; revert c; exact forall_byte (by decide +kernel)
      exact this c hc.1
    have hp : (c == ch '+') = false := by
      have : ∀ c : Byte, isdigit c = true → (c == ch '+') = false := by
        intro c; revert c; exact forall_byte (by decide +kernel)
      exact this c hc.1
    have hm : (c == ch '-') = false := by simpa using hc.2
    rw [hl] at hd
    rw [List.cons_append] at hd ⊢
    rw [List.dropWhile_cons, hs]
    simp only [Bool.false_eq_true, if_false, hm, hp, hd]
    omega

theorem after_cons (c : Byte) (l r : Text) (h : c ∉ l) : after c (l ++ c :: r) = some r := by
  have e : (l ++ c :: r).dropWhile (· ≠ c) = c :: r := by
    rw [List.dropWhile_append_of_pos (by intro a ha; simp; intro e; exact h (e ▸ ha))]
    simp
  unfold after; rw [e]

theorem after_none (c : Byte) (l : Text) (h : c ∉ l) : after c l = none := by
  have e : l.dropWhile (· ≠ c) = [] := by
    have := List.dropWhile_append_of_pos (p := (· ≠ c)) (l₁ := l) (l₂ := []) (by intro a ha; simp; intro e; exact h (e ▸ ha))
    simpa using this
  unfold after; rw [e]

theorem dec_not (n : Nat) (c : Byte) (hc : isdigit c = false) : c ∉ Num.dec n := by
  intro h
  have := (Num.dec_isdigit n c h).1
  rw [hc] at this; cases this

theorem byte_ofNat (b : Byte) : UInt8.ofNat (((b.toNat : Nat) : Int) % 256).toNat = b := by
  have h := b.toNat_lt
  apply UInt8.toNat_inj.mp
  rw [UInt8.toNat_ofNat']; omega

theorem parse_dotted (x : Addr) (r : Text) (h : Stop r) : parse (printable x ++ r) = x := by
  have hdot : isdigit (ch '.') = false := by decide
  have hstop : ∀ r, Stop (ch '.' :: r) := by
    intro r c t e
    simp only [List.cons.injEq] at e
    rw [← e.1]; exact hdot
  have e : printable x ++ r = Num.dec x.a.toNat ++ ch '.' :: (Num.dec x.b.toNat ++ ch '.' :: (Num.dec x.c.toNat ++ ch '.' ::
      (Num.dec x.d.toNat ++ r))) := by
    simp [printable, number_eq]
  have step : ∀ (n : Nat) (b : Byte) (t : Text), components (n + 1) (Num.dec b.toNat ++ ch '.' :: t) = b :: components n t := by
    intro n b t
    rw [components, strtol_dec _ b.toNat_lt _ (hstop t), byte_ofNat, after_cons _ _ _ (dec_not _ _ hdot)]
  have last : components 1 (Num.dec x.d.toNat ++ r) = [x.d] := by
    rw [components, strtol_dec _ x.d.toNat_lt _ h, byte_ofNat]
    cases after (ch '.') (Num.dec x.d.toNat ++ r) <;> rfl
  have all : components 4 (printable x ++ r) = [x.a, x.b, x.c, x.d] := by
    rw [e, step 3, step 2, step 1, last]
  unfold parse
  rw [all]
  rfl

theorem printable_not (x : Addr) (c : Byte) (hc : isdigit c = false) (hd : c ≠ ch '.') : c ∉ printable x := by
  simp only [printable, number_eq, List.mem_append, List.mem_cons, not_or]
  have := fun n => dec_not n c hc
  simp [this, hd]

theorem mask_ones : ∀ n : Fin 33, 0 < n.val → ∀ i : Fin 32, (~~~((1#32 <<< (32 - n.val)) - 1#32)).getMsbD i.val = decide (i.val < n.val) := by
  decide +kernel

theorem getMsbD_big (v : BitVec 32) (i : Nat) (h : 32 ≤ i) : v.getMsbD i = false := by
  simp [BitVec.getMsbD]; omega

theorem maskOf_spec (n : Nat) (h : n ≤ 32) : ∃ m, maskOf n = some m ∧ Mask m n := by
  unfold maskOf
  by_cases h0 : 0 < n
  · rw [if_pos (by omega), if_neg (by omega)]
    refine ⟨_, rfl, ?_⟩
    intro i
    rw [bits_ofMem]
    by_cases hi : i < 32
    · exact mask_ones ⟨n, by omega⟩ h0 ⟨i, hi⟩
    · rw [getMsbD_big _ _ (by omega)]; simp; omega
  · rw [if_neg (by omega)]
    refine ⟨_, rfl, ?_⟩
    intro i
    have e : bits (ofMem 0) = 0#32 := by decide +kernel
    rw [e]; simp; omega

theorem mask_unique (m m' : Addr) (n : Nat) (h : Mask m n) (h' : Mask m' n) : m = m' := by
  apply bits_inj
  apply BitVec.eq_of_getMsbD_eq
  intro i _
  rw [h i, h' i]

theorem shift_top (v : BitVec 32) : (v >>> 31).toNat = if v.getMsbD 0 then 1 else 0 := by
  have h := v.isLt
  rw [BitVec.toNat_ushiftRight, Nat.shiftRight_eq_div_pow]
  have e : v.getMsbD 0 = v.getLsbD 31 := by simp [BitVec.getMsbD]
  rw [e, BitVec.getLsbD, Nat.testBit]
  rw [Nat.shiftRight_eq_div_pow, Nat.one_and_eq_mod_two]
  have : v.toNat / 2 ^ 31 = 0 ∨ v.toNat / 2 ^ 31 = 1 := by omega
  rcases this with h | h <;> rw [h] <;> simp

theorem top_and (v : BitVec 32) : (v &&& 0x80000000#32 ≠ 0) ↔ v.getMsbD 0 = true := by
  constructor
  · intro h
    refine Decidable.byContradiction fun hn => h ?_
    apply BitVec.eq_of_getMsbD_eq
    intro i hi
    have hc : ∀ j : Fin 32, 0 < j.val → (0x80000000#32).getMsbD j.val = false := by decide +kernel
    rw [BitVec.getMsbD_and]
    by_cases h0 : i = 0
    · subst h0; simp only [Bool.not_eq_true] at hn; simp [hn]
    · rw [hc ⟨i, hi⟩ (Nat.pos_of_ne_zero h0)]; simp
  · intro h e
    have := congrArg (fun w : BitVec 32 => w.getMsbD 0) e
    simp only [BitVec.getMsbD_and, h] at this
    revert this; decide

theorem bitsLoop_zero (f n : Nat) (v : BitVec 32) (h0 : v.getMsbD 0 = false) (h1 : v.getMsbD 1 = false) : bitsLoop (f + 1) n v = n := by
  rw [bitsLoop]
  have e : ¬ (v <<< 1 &&& 0x80000000#32 ≠ 0) := by
    rw [top_and, BitVec.getMsbD_shiftLeft]; simp [h1]
  simp only [shift_top, h0, Bool.false_eq_true, if_false, if_neg e, Nat.add_zero]

theorem bitsLoop_ones (k : Nat) : ∀ (f n : Nat) (v : BitVec 32), k + 1 ≤ f → (∀ i < k + 1, v.getMsbD i = true) → v.getMsbD (k + 1) = false →
    bitsLoop f n v = n + (k + 1) := by
  induction k with
  | zero =>
    intro f n v hf h1 h2
    obtain ⟨f, rfl⟩ : ∃ g, f = g + 1 := ⟨f - 1, by omega⟩
    rw [bitsLoop]
    have e : ¬ (v <<< 1 &&& 0x80000000#32 ≠ 0) := by
      rw [top_and, BitVec.getMsbD_shiftLeft]; simpa using h2
    simp only [shift_top, h1 0 (by omega), if_true, if_neg e]
  | succ k ih =>
    intro f n v hf h1 h2
    obtain ⟨f, rfl⟩ : ∃ g, f = g + 1 := ⟨f - 1, by omega⟩
    rw [bitsLoop]
    have e : v <<< 1 &&& 0x80000000#32 ≠ 0 := by
      rw [top_and, BitVec.getMsbD_shiftLeft]; exact h1 1 (by omega)
    simp only [shift_top, h1 0 (by omega), if_true, if_pos e]
    rw [ih f (n + 1) (v <<< 1) (by omega) (by intro i hi; rw [BitVec.getMsbD_shiftLeft]; exact h1 (i + 1) (by omega))
      (by rw [BitVec.getMsbD_shiftLeft]; exact h2)]
    omega

theorem netBits_eq (x : Net) : netBits x = bitsLoop 32 0 (bits x.mask) := by
  unfold netBits
  rw [← bits_toNat, BitVec.ofNat_toNat, BitVec.setWidth_eq]

theorem netBits_leading (x : Net) (n : Nat) (h : Leading x.mask n) (h0 : n = 0 → (bits x.mask).getMsbD 1 = false) : netBits x = n := by
  rw [netBits_eq]
  cases n with
  | zero => exact bitsLoop_zero 31 0 _ h.2 (h0 rfl)
  | succ k =>
    have : k < 32 := by
      refine Decidable.byContradiction fun hk => ?_
      have := h.1 32 (by omega)
      rw [getMsbD_big _ _ (by omega)] at this; cases this
    rw [bitsLoop_ones k 32 0 _ (by omega) h.1 h.2]; omega

theorem mask_leading (m : Addr) (n : Nat) (h : Mask m n) : Leading m n ∧ (n = 0 → (bits m).getMsbD 1 = false) := by
  refine ⟨⟨fun i hi => by rw [h i]; simpa using hi, by rw [h n]; simp⟩, ?_⟩
  rintro rfl
  rw [h 1]; simp

theorem on_iff (x : Addr) (n : Net) : On x n ↔ bits x &&& bits n.mask = bits n.base &&& bits n.mask := by
  constructor
  · intro h
    apply BitVec.eq_of_getMsbD_eq
    intro i _
    rw [BitVec.getMsbD_and, BitVec.getMsbD_and]
    cases hm : (bits n.mask).getMsbD i with
    | false => simp
    | true => rw [h i hm]
  · intro h i hi
    have := congrArg (fun v : BitVec 32 => v.getMsbD i) h
    simpa [BitVec.getMsbD_and, hi] using this

theorem includes_iff (x y : Net) : includes x y = true ↔
    bits y.base &&& bits x.mask = bits x.base &&& bits x.mask ∧ bits y.mask &&& bits x.mask = bits x.mask := by
  have e : ∀ u v : Addr, u = v ↔ bits u = bits v := fun u v => ⟨fun h => h ▸ rfl, bits_inj u v⟩
  simp only [includes, network, Bool.and_eq_true, beq_iff_eq, e, bits_and]

end Ip
open Ip

/-! ### C38: addresses -/

/-- C38: an address is printed in dotted decimal. -/
theorem C38_print (x : Addr) : printable x = dotted x := by
  simp only [printable, number_eq, dotted, text]

/-- C38: the printed address is read back; so it is from a text going on with anything but a digit, as in "10.0.0.1/8". -/
theorem C38_roundtrip (x : Addr) (r : List Byte) (h : ∀ c t, r = c :: t → isdigit c = false) :
    parse (printable x) = x ∧ parse (printable x ++ r) = x := by
  refine ⟨?_, parse_dotted x r h⟩
  have := parse_dotted x [] (by intro c t e; cases e)
  simpa using this

example : ∀ c t, str ['/', '8'] = c :: t → isdigit c = false := by
  intro c t h
  simp only [str, List.map, List.cons.injEq] at h
  rw [← h.1]; decide

/-- C38: the operators act on the 32 bits of addresses. -/
theorem C38_bitwise (x y : Addr) :
    bits (Wv.Addr.and x y) = bits x &&& bits y ∧ bits (Wv.Addr.or x y) = bits x ||| bits y ∧
    bits (Wv.Addr.xor x y) = bits x ^^^ bits y ∧ bits (Wv.Addr.not x) = ~~~bits x :=
  ⟨bits_and x y, bits_or x y, bits_xor x y, bits_not x⟩

/-- C38: adding and subtracting is that of 32-bit numbers. -/
theorem C38_add (x : Addr) (n : Int) :
    bits (Wv.Addr.add x n) = bits x + BitVec.ofInt 32 n ∧ bits (Wv.Addr.sub x n) = bits x - BitVec.ofInt 32 n := by
  have hx : BitVec.ofInt 32 ((bits x).toNat : Int) = bits x := by
    rw [BitVec.ofInt_natCast, BitVec.ofNat_toNat, BitVec.setWidth_eq]
  constructor
  · have e : Wv.Addr.add x n = ofBits (BitVec.ofInt 32 ((bits x).toNat + n)) := by
      unfold Wv.Addr.add ofBits
      rw [BitVec.toNat_ofInt, bits_toNat]; rfl
    rw [e, bits_ofBits, BitVec.ofInt_add, hx]
  · have e : Wv.Addr.sub x n = ofBits (BitVec.ofInt 32 ((bits x).toNat - n)) := by
      unfold Wv.Addr.sub ofBits
      rw [BitVec.toNat_ofInt, bits_toNat]; rfl
    rw [e, bits_ofBits, Int.sub_eq_add_neg, BitVec.ofInt_add, BitVec.ofInt_neg, BitVec.sub_eq_add_neg, hx]

/-- C38: subtracting undoes adding, adding undoes subtracting. -/
theorem C38_add_sub (x : Addr) (n : Int) : Wv.Addr.sub (Wv.Addr.add x n) n = x ∧ Wv.Addr.add (Wv.Addr.sub x n) n = x := by
  constructor
  · apply bits_inj; rw [(C38_add _ n).2, (C38_add x n).1, BitVec.add_sub_cancel]
  · apply bits_inj; rw [(C38_add _ n).1, (C38_add x n).2, BitVec.sub_add_cancel]

example : Wv.Addr.add (parse (str ['1', '9', '2', '.', '1', '6', '8', '.', '4', '2', '.', '2', '5', '5'])) 1 =
    parse (str ['1', '9', '2', '.', '1', '6', '8', '.', '4', '3', '.', '0']) := by decide +kernel

/-- C38: a printed address with a port is read back, whatever services there are. -/
theorem C38_port_roundtrip (service : List Byte → Nat) (x : Wv.Addr.Port) (h : x.port < 65536) :
    portParse service (portPrintable x) = some x := by
  have hdec : Num.ofUnsigned x.port = Num.dec x.port := by
    rw [C32_print_unsigned, Spec.Num.decimal, if_neg (by omega)]; rfl
  have hnum : Num.num (Num.dec x.port) = some (x.port : Int) := by
    have := C32_num x.port (by simp [Num.inRange]; omega)
    rw [Spec.Num.decimal, if_neg (by omega)] at this
    exact this
  have hall : (portPrintable x).all isdigit = false := by
    rw [List.all_eq_false]
    exact ⟨ch ':', by simp [portPrintable], by decide⟩
  have hafter : Wv.Addr.after (ch ':') (portPrintable x) = some (Num.dec x.port) := by
    unfold portPrintable
    rw [hdec]
    exact after_cons _ _ _ (printable_not _ _ (by decide) (by decide))
  have hparse : parse (portPrintable x) = x.addr := by
    apply parse_dotted
    intro c t e
    simp only [List.cons.injEq] at e
    rw [← e.1]; decide
  unfold portParse
  rw [hall, hafter]
  simp only [Bool.false_eq_true, if_false, Option.some_or]
  rw [hparse]
  by_cases h0 : x.port = 0
  · rw [h0] at hnum ⊢
    have : Num.dec 0 = [ch '0'] := by decide +kernel
    rw [if_pos this]
    cases x; simp_all
  · have : Num.dec x.port ≠ [ch '0'] := by
      intro e
      rw [e] at hnum
      have : Num.num [ch '0'] = some 0 := by decide +kernel
      rw [this] at hnum
      simp only [Option.some.injEq] at hnum; omega
    rw [if_neg this, hnum]
    simp only [Option.map_some]
    have e : ((x.port : Int) % 65536).toNat = x.port := by omega
    rw [e, if_neg h0]

/-- C38: addresses of the same class are equal if all of them is, and then they have the same hash; addresses of different classes are
    equal if the four bytes are; equality is reflexive and symmetric. -/
theorem C38_equality (x y : Wv.Addr.Any) :
    (Wv.Addr.eq x y = Wv.Addr.eq y x) ∧ Wv.Addr.eq x x = true ∧
    (∀ a b, x = .ip a → y = .ip b → (Wv.Addr.eq x y = true ↔ x = y)) ∧
    (∀ a b, x = .net a → y = .net b → (Wv.Addr.eq x y = true ↔ x = y)) ∧
    (∀ a b, x = .port a → y = .port b → (Wv.Addr.eq x y = true ↔ x = y)) ∧
    (Wv.Addr.eq x y = true → x.raw = y.raw) := by
  refine ⟨?_, ?_, ?_, ?_, ?_, ?_⟩
  · cases x <;> cases y <;> simp only [Wv.Addr.eq, Wv.Addr.compare2, Wv.Addr.Any.raw] <;> rw [Bool.eq_iff_iff] <;>
      simp only [Bool.and_eq_true, beq_iff_eq] <;> constructor <;> intro h <;> first | exact h.symm | exact ⟨h.1.symm, h.2.symm⟩
  · cases x <;> simp [Wv.Addr.eq]
  · rintro a b rfl rfl; simp [Wv.Addr.eq]
  · rintro a b rfl rfl
    cases a; cases b; simp [Wv.Addr.eq]
  · rintro a b rfl rfl
    cases a; cases b; simp [Wv.Addr.eq]
  · cases x <;> cases y <;> simp only [Wv.Addr.eq, Wv.Addr.compare2, Wv.Addr.Any.raw, Bool.and_eq_true, beq_iff_eq] <;> intro h
    all_goals first | exact h | exact h.symm | exact h.1

/-- Equality of different classes is not transitive: 0.0.0.0:80 equals 0.0.0.0, and this equals 0.0.0.0:81. -/
theorem C38_equality_fails : ¬ ∀ x y z, Wv.Addr.eq x y = true → Wv.Addr.eq y z = true → Wv.Addr.eq x z = true := by
  intro h
  have := h (.port ⟨⟨0, 0, 0, 0⟩, 80⟩) (.ip ⟨0, 0, 0, 0⟩) (.port ⟨⟨0, 0, 0, 0⟩, 81⟩) (by decide +kernel) (by decide +kernel)
  revert this; decide +kernel

/-- Equal addresses of different classes may have different hashes. -/
theorem C38_hash_fails : ¬ ∀ x y, Wv.Addr.eq x y = true → Wv.Addr.hash x = Wv.Addr.hash y := by
  intro h
  have := h (.port ⟨⟨0, 0, 0, 0⟩, 80⟩) (.ip ⟨0, 0, 0, 0⟩) (by decide +kernel)
  revert this; decide +kernel

/-! ### C39: networks -/

/-- C39: a network includes another one exactly if all addresses on this one are on it. -/
theorem C39_includes (x y : Net) : includes x y = true ↔ ∀ a, On a y → On a x := by
  rw [includes_iff]
  constructor
  · rintro ⟨h1, h2⟩ a ha i hi
    have hb := congrArg (fun v : BitVec 32 => v.getMsbD i) h1
    have hm := congrArg (fun v : BitVec 32 => v.getMsbD i) h2
    simp only [BitVec.getMsbD_and, hi, Bool.and_true] at hb hm
    rw [ha i hm, hb]
  · intro h
    have hb := h y.base (fun i _ => rfl)
    refine ⟨(on_iff _ _).mp hb, ?_⟩
    have hf := h (ofBits (bits y.base ^^^ ~~~bits y.mask)) (by
      intro i hi
      rw [bits_ofBits, BitVec.getMsbD_xor]
      by_cases h32 : i < 32
      · rw [BitVec.getMsbD_not]; simp [hi, h32]
      · rw [getMsbD_big _ _ (by omega)] at hi; cases hi)
    apply BitVec.eq_of_getMsbD_eq
    intro i hi
    rw [BitVec.getMsbD_and]
    cases hm : (bits x.mask).getMsbD i with
    | false => simp
    | true =>
      have h1 := hf i hm
      rw [bits_ofBits, BitVec.getMsbD_xor, BitVec.getMsbD_not, hb i hm] at h1
      cases hym : (bits y.mask).getMsbD i with
      | true => rfl
      | false => rw [hym] at h1; cases hx : (bits x.base).getMsbD i <;> simp [hi, hx] at h1

/-- C39: after `include`, the network includes what it did and the other one, and nothing it need not with this base address: any network
    with this base address that includes both includes the result. -/
theorem C39_include (x y : Net) :
    (Wv.Addr.include x y).base = x.base ∧
    (∀ a, On a x → On a (Wv.Addr.include x y)) ∧ (∀ a, On a y → On a (Wv.Addr.include x y)) ∧
    ∀ z : Net, z.base = x.base → (∀ a, On a x → On a z) → (∀ a, On a y → On a z) → ∀ a, On a (Wv.Addr.include x y) → On a z := by
  have hm : ∀ i, (bits (Wv.Addr.include x y).mask).getMsbD i = true ↔
      (bits x.mask).getMsbD i = true ∧ (bits y.mask).getMsbD i = true ∧ (bits x.base).getMsbD i = (bits y.base).getMsbD i := by
    intro i
    simp only [Wv.Addr.include, bits_and, bits_not, bits_xor, BitVec.getMsbD_and, BitVec.getMsbD_not, BitVec.getMsbD_xor]
    by_cases h32 : i < 32
    · cases (bits x.mask).getMsbD i <;> cases (bits y.mask).getMsbD i <;> cases (bits x.base).getMsbD i <;>
        cases (bits y.base).getMsbD i <;> simp [h32]
    · simp [getMsbD_big _ i (by omega), h32]
  refine ⟨rfl, ?_, ?_, ?_⟩
  · intro a ha i hi
    exact ha i ((hm i).mp hi).1
  · intro a ha i hi
    have := (hm i).mp hi
    rw [ha i this.2.1, ← this.2.2]; rfl
  · intro z hz hx hy a ha i hi
    have h1 := ((includes_iff z x).mp ((C39_includes z x).mpr hx)).2
    have h2 := (includes_iff z y).mp ((C39_includes z y).mpr hy)
    have e1 := congrArg (fun v : BitVec 32 => v.getMsbD i) h1
    have e2 := congrArg (fun v : BitVec 32 => v.getMsbD i) h2.2
    have e3 := congrArg (fun v : BitVec 32 => v.getMsbD i) h2.1
    simp only [BitVec.getMsbD_and, hi, Bool.and_true] at e1 e2 e3
    rw [hz] at e3 ⊢
    exact ha i ((hm i).mpr ⟨e1, e2, e3.symm⟩)

/-- C39: a network of `n` bits, 0 to 32, has a mask of `n` ones, reports `n` bits and is not changed by `normalize`. -/
theorem C39_mask (base : Addr) (n : Nat) (h : n ≤ 32) :
    ∃ x, netOf base n = some x ∧ x.base = base ∧ Mask x.mask n ∧ netBits x = n ∧ normalize x = x ∧
      (Wv.Addr.isDefault x = true ↔ n = 0) ∧ (Wv.Addr.isHost x = true ↔ n = 32) := by
  obtain ⟨m, h1, h2⟩ := maskOf_spec n h
  obtain ⟨h3, h4⟩ := mask_leading m n h2
  have hb : netBits ⟨base, m⟩ = n := netBits_leading _ n h3 h4
  refine ⟨⟨base, m⟩, by simp [netOf, h1], rfl, h2, hb, ?_, ?_⟩
  · unfold normalize
    rw [hb]
    by_cases h0 : n > 0
    · rw [if_pos h0, h1]; rfl
    · rw [if_neg h0]
      have : n = 0 := by omega
      subst this
      have : m = Wv.Addr.ofMem 0 := by
        have := h1; simp [Wv.Addr.maskOf] at this; exact this.symm
      rw [this]
  · have hall : ∀ k : Fin 33, ∀ m, Wv.Addr.maskOf (k.val : Int) = some m → ((m.a == 0) = decide (k.val = 0) ∧ (m.d == 255) = decide (k.val = 32)) := by
      have : ∀ k : Fin 33, (Wv.Addr.maskOf (k.val : Int)).all (fun m => decide ((m.a == 0) = decide (k.val = 0) ∧ (m.d == 255) = decide (k.val = 32))) = true := by
        decide +kernel
      intro k m hk
      have := this k
      rw [hk] at this
      exact of_decide_eq_true this
    have := hall ⟨n, by omega⟩ m h1
    simp only [Wv.Addr.isDefault, Wv.Addr.isHost, this.1, this.2, decide_eq_true_eq, and_self]

/-- C39: `bits` is the number of ones the mask starts with, and `normalize` makes the mask that many ones; the network still includes what it
    did. What is missing: masks starting with a zero and a one (`C39_bits_fails`, `C39_normalize_fails`). -/
theorem C39_normalize_partial (x : Net) (n : Nat) (h : Leading x.mask n) (h0 : n = 0 → (bits x.mask).getMsbD 1 = false) :
    netBits x = n ∧ (normalize x).base = x.base ∧ Mask (normalize x).mask n ∧ ∀ a, On a x → On a (normalize x) := by
  have hb := netBits_leading x n h h0
  have hn : n ≤ 32 := by
    refine Decidable.byContradiction fun hk => ?_
    have := h.1 32 (by omega)
    rw [getMsbD_big _ _ (by omega)] at this; cases this
  obtain ⟨m, h1, h2⟩ := maskOf_spec n hn
  have hm : normalize x = ⟨x.base, m⟩ := by
    unfold normalize
    rw [hb]
    by_cases h0 : n > 0
    · rw [if_pos h0, h1]; rfl
    · rw [if_neg h0]
      have : n = 0 := by omega
      subst this
      have : m = Wv.Addr.ofMem 0 := by
        have := h1; simp [Wv.Addr.maskOf] at this; exact this.symm
      rw [this]
  refine ⟨hb, by rw [hm], by rw [hm]; exact h2, ?_⟩
  intro a ha i hi
  rw [hm] at hi ⊢
  rw [h2 i, decide_eq_true_eq] at hi
  exact ha i (h.1 i hi)

/-- 255.0.255.0 meets the hypotheses. -/
example : Leading (parse (str ['2', '5', '5', '.', '0', '.', '2', '5', '5', '.', '0'])) 8 := by
  refine ⟨?_, by decide +kernel⟩
  have : ∀ i : Fin 8, (bits (parse (str ['2', '5', '5', '.', '0', '.', '2', '5', '5', '.', '0']))).getMsbD i.val = true := by decide +kernel
  exact fun i hi => this ⟨i, hi⟩

theorem Ip.small_dec (n : Nat) (h : n < 256) : (Num.ofSigned 32 (n : Int)).getD [] = Num.dec n := by
  rw [C32_print_signed_partial 32 _ (by simp [Num.inRange]; omega) (by simp)]
  simp only [Spec.Num.decimal, Option.getD_some]
  rw [if_neg (by omega)]; rfl

theorem Ip.small_num (n : Nat) (h : n < 256) : Num.num (Num.dec n) = some (n : Int) := by
  have := C32_num n (by simp [Num.inRange]; omega)
  rw [Spec.Num.decimal, if_neg (by omega)] at this
  exact this

theorem Ip.on_same (a b : Addr) (x : Net) (e : bits b &&& bits x.mask = bits x.base &&& bits x.mask) : On a ⟨b, x.mask⟩ ↔ On a x := by
  have h1 := on_iff a ⟨b, x.mask⟩
  have h2 := on_iff a x
  rw [h1, h2]
  simp only [e]

theorem Ip.netParse_none (s : List Byte) (h : Wv.Addr.after (ch '/') s = none) :
    netParse s = some ⟨parse s, parse (str ['2', '5', '5', '.', '2', '5', '5', '.', '2', '5', '5', '.', '2', '5', '5'])⟩ := by
  unfold netParse; rw [h]

theorem Ip.netParse_some (s r : List Byte) (h : Wv.Addr.after (ch '/') s = some r) :
    netParse s = if ch '.' ∈ r then some ⟨parse s, parse r⟩ else (Num.num r).bind fun bits => netOf (parse s) bits := by
  unfold netParse; rw [h]

theorem Ip.full : Mask (parse (str ['2', '5', '5', '.', '2', '5', '5', '.', '2', '5', '5', '.', '2', '5', '5'])) 32 := by
  have e : parse (str ['2', '5', '5', '.', '2', '5', '5', '.', '2', '5', '5', '.', '2', '5', '5']) = ⟨255, 255, 255, 255⟩ := by decide +kernel
  rw [e]
  intro i
  by_cases hi : i < 32
  · have : ∀ i : Fin 32, (bits ⟨255, 255, 255, 255⟩).getMsbD i.val = true := by decide +kernel
    rw [this ⟨i, hi⟩]; simp [hi]
  · rw [getMsbD_big _ _ (by omega)]; simp [hi]

/-- The printed network is read back: a network with the same mask and the same addresses. -/
theorem C39_roundtrip (x : Net) (n : Nat) (hn : n ≤ 32) (h : Mask x.mask n) :
    ∃ y, netParse (netPrintable x) = some y ∧ y.mask = x.mask ∧ (y.base = if n < 32 then network x else x.base) ∧ ∀ a, On a y ↔ On a x := by
  obtain ⟨h3, h4⟩ := mask_leading x.mask n h
  have hb := netBits_leading x n h3 h4
  have hon : ∀ a b, bits b &&& bits x.mask = bits x.base &&& bits x.mask → (On a ⟨b, x.mask⟩ ↔ On a x) := by
    intro a b e
    exact on_same a b x e
  by_cases h32 : n < 32
  · obtain ⟨m, g1, g2⟩ := maskOf_spec n hn
    have em : m = x.mask := mask_unique m x.mask n g2 h
    have hdec := small_dec n (by omega)
    have hp : netPrintable x = printable (network x) ++ ch '/' :: Num.dec n := by
      unfold netPrintable; rw [hb, if_pos h32, hdec]
    have hnum := small_num n (by omega)
    refine ⟨⟨network x, x.mask⟩, ?_, rfl, by simp [h32], ?_⟩
    · rw [netParse_some _ (Num.dec n) (by rw [hp]; exact after_cons _ _ _ (printable_not _ _ (by decide) (by decide))), if_neg (dec_not _ _ (by decide)), hnum]
      simp only [Option.bind_some, netOf, g1, Option.map_some, em]
      rw [hp, parse_dotted]
      intro c t e
      simp only [List.cons.injEq] at e
      rw [← e.1]; decide
    · intro a
      apply hon
      simp only [network, bits_and]
      rw [BitVec.and_assoc, BitVec.and_self]
  · have : n = 32 := by omega
    subst this
    have hp : netPrintable x = printable x.base := by
      unfold netPrintable; rw [hb, if_neg (by omega)]
    refine ⟨⟨x.base, x.mask⟩, ?_, rfl, by simp, fun a => hon a _ rfl⟩
    rw [netParse_none _ (by rw [hp]; exact after_none _ _ (printable_not _ _ (by decide) (by decide))), hp, (C38_roundtrip x.base [] (by intro c t e; cases e)).1]
    rw [mask_unique _ _ 32 full h]

/-- 10.1.2.3/8 meets the hypotheses. -/
example : ∃ x : Net, Mask x.mask 8 ∧ x.base = ⟨10, 1, 2, 3⟩ := by
  obtain ⟨x, -, h1, h2, -⟩ := C39_mask ⟨10, 1, 2, 3⟩ 8 (by omega)
  exact ⟨x, h2, h1⟩

/-- C39: network and broadcast address are the addresses on the network with all bits off the mask zero and one. -/
theorem C39_ends (x : Net) : On (network x) x ∧ On (broadcast x) x ∧
    ∀ i < 32, (bits x.mask).getMsbD i = false → (bits (network x)).getMsbD i = false ∧ (bits (broadcast x)).getMsbD i = true := by
  refine ⟨?_, ?_, ?_⟩
  · intro i hi
    simp [network, bits_and, BitVec.getMsbD_and, hi]
  · intro i hi
    have h32 : i < 32 := by
      refine Decidable.byContradiction fun hk => ?_
      rw [getMsbD_big _ _ (by omega)] at hi; cases hi
    simp [broadcast, bits_or, bits_not, BitVec.getMsbD_or, BitVec.getMsbD_not, hi, h32]
  · intro i h32 hi
    simp [network, broadcast, bits_and, bits_or, bits_not, BitVec.getMsbD_and, BitVec.getMsbD_or, BitVec.getMsbD_not, hi, h32]

/-- `bits` of 127.255.255.255 is 31, not 0. -/
theorem C39_bits_fails : ¬ ∀ (x : Net) (n : Nat), Leading x.mask n → netBits x = n := by
  intro h
  have := h ⟨⟨0, 0, 0, 0⟩, ⟨127, 255, 255, 255⟩⟩ 0 ⟨by intro i hi; omega, by decide +kernel⟩
  revert this; decide +kernel

/-- After including another network and normalising, the other one may not be included: 0.0.0.0 and 128.0.0.0. -/
theorem C39_normalize_fails : ¬ ∀ x y : Net, includes (normalize (Wv.Addr.include x y)) y = true := by
  intro h
  have := h ⟨⟨0, 0, 0, 0⟩, ⟨255, 255, 255, 255⟩⟩ ⟨⟨128, 0, 0, 0⟩, ⟨255, 255, 255, 255⟩⟩
  revert this; decide +kernel

/-- A network of 33 bits is not refused. -/
theorem C39_mask_fails : ¬ ∀ (base : Addr) (n : Int), (netOf base n).isSome = true := by
  intro h
  have := h ⟨0, 0, 0, 0⟩ 33
  revert this; decide +kernel

end Props
