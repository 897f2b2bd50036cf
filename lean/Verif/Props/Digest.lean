import Verif.Model.Digest
import Verif.Props.Serialize
/-!
C119: digests.
-/
namespace Props
open Wv Wv.Digest
open Spec.Digest (Lib Op)

namespace DigP

variable {σ : Type}

/-- How much lies in one piece: something, and no more than there is. -/
def Opt (opt : List Byte → Nat) : Prop := ∀ b, b ≠ [] → 1 ≤ opt b ∧ opt b ≤ b.length

theorem loop_eq (L : Lib σ) (hL : L.Pieces) (opt : List Byte → Nat) (ho : Opt opt) :
    ∀ (n : Nat) (s : σ) (b : List Byte), b.length ≤ n → loop L opt n s b = (L.update s b, []) := by
  intro n
  induction n with
  | zero =>
    intro s b h
    have : b = [] := List.length_eq_zero_iff.1 (by omega)
    subst this
    simp [loop, hL.nil]
  | succ n ih =>
    intro s b h
    rw [loop]
    by_cases hb : b = []
    · subst hb; simp [hL.nil]
    · have h1 := ho b hb
      have hbe : b.isEmpty = false := by simp [hb]
      rw [hbe, if_neg (by simp), ih _ _ (by rw [List.length_drop]; omega), hL.append, List.take_append_drop]

/-- The encoder and what it should be. -/
structure Rel (L : Lib σ) (e : Enc (Ctx σ)) (inb : List Byte) (s : Spec.Digest.St) : Prop where
  okay : e.okay = true
  fin : e.finished = s.done
  wait : inb = s.waiting
  ctx : e.st.ctx = L.update L.init s.data
  active : e.st.active = !s.done
  bad : e.st.bad = false

theorem run_rel (L : Lib σ) (hL : L.Pieces) (opt : List Byte → Nat) (ho : Opt opt) :
    ∀ (os : List Op) (e : Enc (Ctx σ)) (inb : List Byte) (s : Spec.Digest.St), Rel L e inb s →
      (runOps (evp L opt) os e inb).1 = Spec.Digest.run L.hash os s ∧ (runOps (evp L opt) os e inb).2.st.bad = false := by
  intro os
  induction os with
  | nil => intro e inb s h; exact ⟨rfl, h.bad⟩
  | cons o os ih =>
    intro e inb s h
    obtain ⟨ok, fi, ⟨cx, ac, bd⟩⟩ := e
    obtain ⟨w, d, dn⟩ := s
    obtain ⟨h1, h2, h3, h4, h5, h6⟩ := h
    dsimp only at h1 h2 h3 h4 h5 h6
    subst h1 h2 h3 h4 h5 h6
    cases o with
    | encode b fl fn =>
      have hl := loop_eq L hL opt ho (inb ++ b).length (L.update L.init d) (inb ++ b) (Nat.le_refl _)
      cases fi
      · by_cases ht : (!(inb ++ b).isEmpty || fl) = true
        · cases fn
          · have := ih ⟨true, false, ⟨L.update L.init (d ++ (inb ++ b)), true, false⟩⟩ [] ⟨[], d ++ (inb ++ b), false⟩ ⟨rfl, rfl, rfl, rfl, rfl, rfl⟩
            simp only [runOps, Spec.Digest.run, Spec.Digest.step, EncImpl.encode, evp, ht, hl, hL.append, Bool.not_false, Bool.and_self, Bool.true_and, if_true, Bool.not_true, Bool.or_self,
              Bool.false_eq_true, if_false]
            exact ⟨by rw [← this.1]; rfl, this.2⟩
          · have := ih ⟨true, true, ⟨L.update L.init (d ++ (inb ++ b)), false, false⟩⟩ [] ⟨[], d ++ (inb ++ b), true⟩ ⟨rfl, rfl, rfl, rfl, rfl, rfl⟩
            simp only [runOps, Spec.Digest.run, Spec.Digest.step, Spec.Digest.finish, EncImpl.encode, EncImpl.finish, Enc.setfinished, evp, ht, hl, hL.append, Bool.not_false, Bool.and_self,
              Bool.true_and, if_true, Bool.not_true, Bool.or_self, Bool.false_eq_true, if_false, List.nil_append]
            exact ⟨by rw [← this.1]; rfl, this.2⟩
        · have ht' : (!(inb ++ b).isEmpty || fl) = false := by simpa using ht
          cases fn
          · have := ih ⟨true, false, ⟨L.update L.init d, true, false⟩⟩ (inb ++ b) ⟨inb ++ b, d, false⟩ ⟨rfl, rfl, rfl, rfl, rfl, rfl⟩
            simp only [runOps, Spec.Digest.run, Spec.Digest.step, EncImpl.encode, ht', Bool.and_false, Bool.false_eq_true, if_false]
            exact ⟨by rw [← this.1]; rfl, this.2⟩
          · have := ih ⟨true, true, ⟨L.update L.init d, false, false⟩⟩ (inb ++ b) ⟨inb ++ b, d, true⟩ ⟨rfl, rfl, rfl, rfl, rfl, rfl⟩
            simp only [runOps, Spec.Digest.run, Spec.Digest.step, Spec.Digest.finish, EncImpl.encode, EncImpl.finish, Enc.setfinished, ht', Bool.and_false, Bool.false_eq_true, if_false, if_true,
              Bool.not_false, Bool.and_self]
            exact ⟨by rw [← this.1]; rfl, this.2⟩
      · cases fn
        · have := ih ⟨true, true, ⟨L.update L.init d, false, false⟩⟩ (inb ++ b) ⟨inb ++ b, d, true⟩ ⟨rfl, rfl, rfl, rfl, rfl, rfl⟩
          simp only [runOps, Spec.Digest.run, Spec.Digest.step, EncImpl.encode, Bool.not_true, Bool.and_false, Bool.false_and, Bool.false_eq_true, if_false]
          exact ⟨by rw [← this.1], this.2⟩
        · have := ih ⟨true, true, ⟨L.update L.init d, false, false⟩⟩ (inb ++ b) ⟨inb ++ b, d, true⟩ ⟨rfl, rfl, rfl, rfl, rfl, rfl⟩
          simp only [runOps, Spec.Digest.run, Spec.Digest.step, Spec.Digest.finish, EncImpl.encode, EncImpl.finish, Enc.setfinished, Bool.not_true, Bool.and_false, Bool.false_and,
            Bool.false_eq_true, if_false, if_true]
          exact ⟨by rw [← this.1], this.2⟩
    | finish =>
      cases fi
      · have := ih ⟨true, true, ⟨L.update L.init d, false, false⟩⟩ inb ⟨inb, d, true⟩ ⟨rfl, rfl, rfl, rfl, rfl, rfl⟩
        exact ⟨by rw [show Spec.Digest.run L.hash (Op.finish :: os) ⟨inb, d, false⟩ = (L.hash d, true) :: Spec.Digest.run L.hash os ⟨inb, d, true⟩ from rfl, ← this.1]; rfl, this.2⟩
      · have := ih ⟨true, true, ⟨L.update L.init d, false, false⟩⟩ inb ⟨inb, d, true⟩ ⟨rfl, rfl, rfl, rfl, rfl, rfl⟩
        exact ⟨by rw [show Spec.Digest.run L.hash (Op.finish :: os) ⟨inb, d, true⟩ = ([], false) :: Spec.Digest.run L.hash os ⟨inb, d, true⟩ from rfl, ← this.1]; rfl, this.2⟩
    | reset =>
      have := ih ⟨true, false, ⟨L.init, true, false⟩⟩ inb ⟨inb, [], false⟩ ⟨rfl, rfl, rfl, (hL.nil _).symm, rfl, rfl⟩
      exact ⟨by rw [show Spec.Digest.run L.hash (Op.reset :: os) ⟨inb, d, fi⟩ = ([], true) :: Spec.Digest.run L.hash os ⟨inb, [], false⟩ from rfl, ← this.1]; rfl, this.2⟩

/-- A checksum does the same as a digest, as the context is never used when it is not active. -/
theorem sum_evp (L : Lib σ) (opt : List Byte → Nat) : ∀ (os : List Op) (c : σ) (ok fi a b : Bool) (inb : List Byte),
    (runOps (sum L opt) os ⟨ok, fi, c⟩ inb).1 = (runOps (evp L opt) os ⟨ok, fi, ⟨c, a, b⟩⟩ inb).1 := by
  intro os
  induction os with
  | nil => intros; rfl
  | cons o os ih =>
    intro c ok fi a b inb
    cases o with
    | encode x fl fn =>
      simp only [runOps, EncImpl.encode]
      by_cases h : (ok && !fi && (!(inb ++ x).isEmpty || fl)) = true
      · rw [if_pos h, if_pos h]
        have hk : ok = true := by revert h; cases ok <;> simp
        have hf : fi = false := by revert h; cases fi <;> simp
        subst hk hf
        cases fn
        · exact List.cons_eq_cons.2 ⟨rfl, ih _ _ _ _ _ _⟩
        · exact List.cons_eq_cons.2 ⟨rfl, ih _ _ _ _ _ _⟩
      · rw [if_neg h, if_neg h]
        cases fn
        · exact List.cons_eq_cons.2 ⟨rfl, ih _ _ _ _ _ _⟩
        · simp only [EncImpl.finish, if_true]
          by_cases g : (ok && !fi) = true
          · rw [if_pos g, if_pos g]
            exact List.cons_eq_cons.2 ⟨rfl, ih _ _ _ _ _ _⟩
          · rw [if_neg g, if_neg g]
            exact List.cons_eq_cons.2 ⟨rfl, ih _ _ _ _ _ _⟩
    | finish =>
      simp only [runOps, EncImpl.finish]
      by_cases g : (ok && !fi) = true
      · rw [if_pos g, if_pos g]
        exact List.cons_eq_cons.2 ⟨rfl, ih _ _ _ _ _ _⟩
      · rw [if_neg g, if_neg g]
        exact List.cons_eq_cons.2 ⟨rfl, ih _ _ _ _ _ _⟩
    | reset => exact List.cons_eq_cons.2 ⟨rfl, ih _ _ _ _ _ _⟩

theorem crc_pieces : crc.Pieces :=
  ⟨fun s => by simp [crc, crcUpdate], fun s a b => by simp [crc, crcUpdate, List.foldl_append]⟩

theorem shift_xor (c y : BitVec 32) : shift (c ^^^ y) = Spec.Digest.crcBit c (y.getLsbD 0) ^^^ (y >>> 1) := by
  unfold shift Spec.Digest.crcBit
  rw [BitVec.ushiftRight_xor_distrib, BitVec.getLsbD_xor]
  cases c.getLsbD 0 <;> cases y.getLsbD 0 <;> simp only [Bool.xor_self, Bool.xor_false, Bool.false_xor, Bool.xor_true, Bool.not_false, Bool.not_true, bne_self_eq_false, Bool.bne_true, Bool.bne_false, Bool.false_eq_true, if_true, if_false, BitVec.xor_zero, BitVec.xor_assoc] <;> rw [BitVec.xor_comm (y >>> 1)]

theorem crcByte_eq (c : BitVec 32) (b : Byte) : crcByte c b = (Spec.Digest.bits b).foldl Spec.Digest.crcBit c := by
  have hb : b.toNat < 256 := UInt8.toNat_lt b
  have g : ∀ i, (BitVec.ofNat 32 b.toNat >>> i).getLsbD 0 = b.toNat.testBit i := by
    intro i
    rw [BitVec.getLsbD_ushiftRight, BitVec.getLsbD_ofNat, Nat.add_zero]
    by_cases hi : i < 32
    · simp [hi]
    · have : b.toNat.testBit i = false := Nat.testBit_lt_two_pow (Nat.lt_of_lt_of_le hb (Nat.pow_le_pow_right (by omega : 0 < 2) (by omega : 8 ≤ i)))
      simp [this]
  have z : BitVec.ofNat 32 b.toNat >>> 8 = 0#32 := by
    apply BitVec.eq_of_toNat_eq
    simp only [BitVec.toNat_ushiftRight, BitVec.toNat_ofNat, Nat.shiftRight_eq_div_pow]
    omega
  have e : ∀ (c : BitVec 32) (i : Nat), shift (c ^^^ (BitVec.ofNat 32 b.toNat >>> i)) = Spec.Digest.crcBit c (b.toNat.testBit i) ^^^ (BitVec.ofNat 32 b.toNat >>> (i + 1)) := by
    intro c i
    rw [shift_xor, g, BitVec.shiftRight_add]
  unfold crcByte
  have e0 := e c 0
  rw [show BitVec.ofNat 32 b.toNat >>> 0 = BitVec.ofNat 32 b.toNat from by simp] at e0
  rw [e0, e, e, e, e, e, e, e, z, BitVec.xor_zero]
  rfl

theorem foldl_flatMap (d : List Byte) : ∀ c : BitVec 32, d.foldl crcByte c = (d.flatMap Spec.Digest.bits).foldl Spec.Digest.crcBit c := by
  induction d with
  | nil => intro c; rfl
  | cons b d ih => intro c; rw [List.foldl_cons, ih, crcByte_eq, List.flatMap_cons, List.foldl_append]

theorem be32_eq (n : Nat) : Serialize.scalar (.int 4 false) (n : Int) = Spec.Digest.be32 n := by
  rw [Props.Ser.scalar_eq (.int 4 false) (Or.inr (Or.inr (Or.inl rfl)))]
  have h : ∀ a b : Nat, a % 256 = b % 256 → UInt8.ofNat a = UInt8.ofNat b := by
    intro a b h
    apply UInt8.toNat_inj.1
    simpa using h
  simp only [Spec.Serial.Ty.size, Spec.Serial.bytes, Spec.Digest.be32, List.cons.injEq, and_true]
  refine ⟨h _ _ ?_, h _ _ ?_, h _ _ ?_, h _ _ ?_⟩ <;> omega

theorem crc_hash (d : List Byte) : crc.hash d = Spec.Digest.be32 (Spec.Digest.crc32 d).toNat := by
  have h : crcUpdate 0 d = Spec.Digest.crc32 d := by
    unfold crcUpdate Spec.Digest.crc32
    rw [foldl_flatMap]; rfl
  show Serialize.scalar (.int 4 false) ((crcUpdate 0 d).toNat : Nat) = _
  rw [h]
  exact be32_eq _

theorem adlerA_snoc (p : List Byte) (b : Byte) : Spec.Digest.adlerA (p ++ [b]) = (Spec.Digest.adlerA p + b.toNat) % 65521 := by
  unfold Spec.Digest.adlerA
  rw [List.map_append, List.sum_append]
  simp only [List.map_cons, List.map_nil, List.sum_cons, List.sum_nil]
  omega

theorem adlerB_snoc (p : List Byte) (b : Byte) :
    Spec.Digest.adlerB (p ++ [b]) = (Spec.Digest.adlerB p + Spec.Digest.adlerA (p ++ [b])) % 65521 := by
  have h : (List.range p.length).map (fun i => 1 + (((p ++ [b]).take (i + 1)).map (·.toNat)).sum) = (List.range p.length).map (fun i => 1 + ((p.take (i + 1)).map (·.toNat)).sum) := by
    apply List.map_congr_left
    intro i hi
    have := List.mem_range.1 hi
    rw [List.take_append_of_le_length (by omega)]
  unfold Spec.Digest.adlerB Spec.Digest.adlerA
  dsimp only
  rw [List.length_append, List.length_singleton, List.range_succ, List.map_append, List.sum_append, h]
  simp only [List.map_cons, List.map_nil, List.sum_cons, List.sum_nil]
  rw [List.take_of_length_le (by simp)]
  omega

theorem adler_fold : ∀ (d p : List Byte),
    d.foldl (fun (q : Nat × Nat) b => ((q.1 + b.toNat) % 65521, (q.2 + (q.1 + b.toNat) % 65521) % 65521)) (Spec.Digest.adlerA p, Spec.Digest.adlerB p)
      = (Spec.Digest.adlerA (p ++ d), Spec.Digest.adlerB (p ++ d)) := by
  intro d
  induction d with
  | nil => intro p; simp
  | cons b d ih =>
    intro p
    rw [List.foldl_cons]
    dsimp only
    rw [← adlerA_snoc, ← adlerB_snoc, ih, List.append_assoc]
    rfl

theorem adler_hash (d : List Byte) : adler.hash d = Spec.Digest.be32 (Spec.Digest.adler32 d) := by
  have h : adlerUpdate 1 d = Spec.Digest.adler32 d := by
    have := adler_fold d []
    unfold adlerUpdate Spec.Digest.adler32
    dsimp only
    rw [show ((1 : Nat) % 65536, 1 / 65536) = (Spec.Digest.adlerA [], Spec.Digest.adlerB []) from rfl, this]
    rfl
  show Serialize.scalar (.int 4 false) ((adlerUpdate 1 d : Nat) : Int) = _
  rw [h]
  exact be32_eq _

theorem adler_fold_lt : ∀ (d : List Byte) (q : Nat × Nat), q.1 < 65536 →
    (d.foldl (fun (q : Nat × Nat) b => ((q.1 + b.toNat) % 65521, (q.2 + (q.1 + b.toNat) % 65521) % 65521)) q).1 < 65536 := by
  intro d
  induction d with
  | nil => intro q h; exact h
  | cons b d ih => intro q _; exact ih _ (by dsimp only; omega)

theorem adler_pieces : adler.Pieces := by
  refine ⟨fun n => ?_, fun n a b => ?_⟩
  · show n / 65536 * 65536 + n % 65536 = n
    omega
  · show adlerUpdate (adlerUpdate n a) b = adlerUpdate n (a ++ b)
    have h := adler_fold_lt a (n % 65536, n / 65536) (by dsimp only; omega)
    unfold adlerUpdate
    dsimp only
    rw [List.foldl_append]
    generalize List.foldl _ (n % 65536, n / 65536) a = q at h ⊢
    obtain ⟨x, y⟩ := q
    dsimp only at h ⊢
    rw [show (y * 65536 + x) % 65536 = x from by omega, show (y * 65536 + x) / 65536 = y from by omega]

end DigP

/-- A library for the examples: it collects the bytes, and its hash is their number. -/
def digLib : Lib (List Byte) := ⟨[], fun s b => s ++ b, fun s => [UInt8.ofNat s.length]⟩

theorem digLib_pieces : digLib.Pieces := ⟨fun s => List.append_nil s, fun s a b => List.append_assoc s a b⟩

/-- C119: for every sequence of calls, whatever the library for the hash is (as long as it does not matter in which pieces it gets the
    bytes), and however the input buffer is divided: each call gives the bytes and the result it should, so that `finish` gives the hash
    of exactly the bytes since the last reset, once; and the library is never used in a wrong state. -/
theorem C119_digest {σ : Type} (L : Lib σ) (hL : L.Pieces) (opt : List Byte → Nat) (ho : ∀ b, b ≠ [] → 1 ≤ opt b ∧ opt b ≤ b.length) (os : List Op) :
    (runOps (evp L opt) os (make L) []).1 = Spec.Digest.run L.hash os {} ∧ (runOps (evp L opt) os (make L) []).2.st.bad = false :=
  DigP.run_rel L hL opt ho os _ _ _ ⟨rfl, rfl, rfl, (hL.nil _).symm, rfl, rfl⟩

example : (runOps (evp digLib fun _ => 1) [.encode [1, 2] false false, .encode [3] false true, .finish, .encode [4] false false, .reset, .encode [5] true true] (make digLib) []).1
    = [([], true), ([3], true), ([], false), ([], false), ([], true), ([2], true)] := by rfl
example : ∀ b : List Byte, b ≠ [] → 1 ≤ (fun _ => 1 : List Byte → Nat) b ∧ (fun _ => 1 : List Byte → Nat) b ≤ b.length :=
  fun _ h => ⟨Nat.le_refl _, List.length_pos_iff.2 h⟩

/-- C119: a keyed hash gives what the library computes with that key, after every reset too. -/
theorem C119_hmac {κ σ : Type} (init : κ → σ) (update : σ → List Byte → σ) (final : σ → List Byte) (key : κ)
    (hL : (Lib.mk (init key) update final).Pieces) (opt : List Byte → Nat) (ho : ∀ b, b ≠ [] → 1 ≤ opt b ∧ opt b ≤ b.length) (os : List Op) :
    (runOps (evp (hmac init update final key) opt) os (make (hmac init update final key)) []).1
      = Spec.Digest.run (fun d => final (update (init key) d)) os {} :=
  (C119_digest (hmac init update final key) hL opt ho os).1

example : (runOps (evp (hmac id (fun s b => s ++ b) id [9]) fun _ => 1) [.encode [1, 2] false true, .reset, .encode [3] false true] (make (hmac id (fun s b => s ++ b) id [9])) []).1
    = [([9, 1, 2], true), ([], true), ([9, 3], true)] := by rfl

/-- C119: `WvCrc32Digest` gives the CRC-32 of the bytes since the last reset, the highest byte first. -/
theorem C119_crc32 (opt : List Byte → Nat) (ho : ∀ b, b ≠ [] → 1 ≤ opt b ∧ opt b ≤ b.length) (os : List Op) :
    (runOps (sum crc opt) os { st := crc.init } []).1 = Spec.Digest.run (fun d => Spec.Digest.be32 (Spec.Digest.crc32 d).toNat) os {} := by
  have h := (C119_digest crc DigP.crc_pieces opt ho os).1
  rw [show crc.hash = fun d => Spec.Digest.be32 (Spec.Digest.crc32 d).toNat from funext DigP.crc_hash] at h
  rw [← h]
  exact DigP.sum_evp crc opt os _ _ _ _ _ _

/-- The check value of CRC-32: that of "123456789". -/
example : (runOps (sum crc fun _ => 1) [.encode [0x31, 0x32, 0x33, 0x34] false false, .encode [0x35, 0x36, 0x37, 0x38, 0x39] false true] { st := crc.init } []).1
    = [([], true), ([0xCB, 0xF4, 0x39, 0x26], true)] := by decide +kernel

/-- C119: `WvAdler32Digest` gives the Adler-32 of the bytes since the last reset, the highest byte first. -/
theorem C119_adler32 (opt : List Byte → Nat) (ho : ∀ b, b ≠ [] → 1 ≤ opt b ∧ opt b ≤ b.length) (os : List Op) :
    (runOps (sum adler opt) os { st := adler.init } []).1 = Spec.Digest.run (fun d => Spec.Digest.be32 (Spec.Digest.adler32 d)) os {} := by
  have h := (C119_digest adler DigP.adler_pieces opt ho os).1
  rw [show adler.hash = fun d => Spec.Digest.be32 (Spec.Digest.adler32 d) from funext DigP.adler_hash] at h
  rw [← h]
  exact DigP.sum_evp adler opt os _ _ _ _ _ _

/-- The Adler-32 of "Wikipedia". -/
example : (runOps (sum adler fun _ => 2) [.encode [0x57, 0x69, 0x6b, 0x69, 0x70] false false, .encode [0x65, 0x64, 0x69, 0x61] false true] { st := adler.init } []).1
    = [([], true), ([0x11, 0xE6, 0x03, 0x98], true)] := by decide +kernel

end Props
