import Verif.Model.KeyAgree
/-!
C127: agreeing on a secret.
-/
namespace Props
open Wv Wv.KeyAgree
open Spec.KeyAgree

namespace KaP

theorem foldl_value : ∀ (l : List Byte) (a : Nat), l.foldl (fun a b => a * 256 + b.toNat) a = a * 256 ^ l.length + value l
  | [], a => by simp [value]
  | b :: l, a => by
    rw [List.foldl_cons, foldl_value l, value, List.length_cons, Nat.pow_succ, Nat.add_mul, Nat.mul_assoc, Nat.mul_comm 256, Nat.add_assoc]

theorem bin2bn_value (l : List Byte) : bin2bn l = value l := by
  unfold bin2bn
  rw [foldl_value]
  simp

theorem value_lt : ∀ (l : List Byte), value l < 256 ^ l.length
  | [] => by simp [value]
  | b :: l => by
    have h1 := value_lt l
    have h2 : b.toNat < 256 := UInt8.toNat_lt b
    rw [value, List.length_cons, Nat.pow_succ]
    have h3 : (b.toNat + 1) * 256 ^ l.length ≤ 256 * 256 ^ l.length := Nat.mul_le_mul_right _ h2
    rw [Nat.add_mul] at h3
    omega

theorem go_spec : ∀ (f n : Nat) (acc : List Byte), n ≤ f →
    value (bn2binGo f n acc) = n * 256 ^ acc.length + value acc ∧ (acc.head? ≠ some 0 ∨ n ≠ 0 → (bn2binGo f n acc).head? ≠ some 0) := by
  intro f
  induction f with
  | zero =>
    intro n acc h
    have : n = 0 := by omega
    subst this
    exact ⟨by simp [bn2binGo], fun h => by simpa [bn2binGo] using h⟩
  | succ f ih =>
    intro n acc h
    unfold bn2binGo
    by_cases h0 : n = 0
    · subst h0
      exact ⟨by simp, fun h => by simpa using h⟩
    · rw [if_neg h0]
      have hd : n / 256 < n := Nat.div_lt_self (by omega) (by decide)
      have hm : n % 256 < 256 := Nat.mod_lt _ (by decide)
      have hb : (UInt8.ofNat (n % 256)).toNat = n % 256 := by
        rw [UInt8.toNat_ofNat']
        exact Nat.mod_eq_of_lt hm
      obtain ⟨i1, i2⟩ := ih (n / 256) (UInt8.ofNat (n % 256) :: acc) (by omega)
      refine ⟨?_, fun _ => i2 ?_⟩
      · rw [i1, value, hb, List.length_cons, Nat.pow_succ, ← Nat.add_assoc, Nat.mul_comm (256 ^ acc.length) 256, ← Nat.mul_assoc, ← Nat.add_mul]
        congr 2
        omega
      · by_cases hq : n / 256 = 0
        · left
          intro hc
          have : UInt8.ofNat (n % 256) = 0 := by simpa using hc
          have h2 := congrArg UInt8.toNat this
          rw [hb] at h2
          simp at h2
          omega
        · exact Or.inr hq

theorem writes (n : Nat) : Writes (bn2bin n) n := by
  obtain ⟨h1, h2⟩ := go_spec n n [] (by omega)
  exact ⟨by simpa [bn2bin, value] using h1, by simpa [bn2bin] using h2⟩

theorem value_ge : ∀ (l : List Byte), l.head? ≠ some 0 → l ≠ [] → 256 ^ (l.length - 1) ≤ value l
  | [], _, h => absurd rfl h
  | b :: l, h, _ => by
    have hb : b.toNat ≠ 0 := by
      intro hc
      apply h
      have : b = 0 := UInt8.toNat_inj.1 (by simpa using hc)
      simp [this]
    have : 1 * 256 ^ l.length ≤ b.toNat * 256 ^ l.length := Nat.mul_le_mul_right _ (by omega)
    rw [value, List.length_cons]
    simp at this ⊢
    omega

/-- As few bytes as possible. -/
theorem length_le {l : List Byte} {n k : Nat} (h : Writes l n) : l.length ≤ k ↔ n < 256 ^ k := by
  obtain ⟨h1, h2⟩ := h
  subst h1
  constructor
  · intro h
    exact Nat.lt_of_lt_of_le (value_lt l) (Nat.pow_le_pow_right (by decide) h)
  · intro h
    by_cases hl : l = []
    · simp [hl]
    · have := Nat.lt_of_le_of_lt (value_ge l h2 hl) h
      have := (Nat.pow_lt_pow_iff_right (by decide : 1 < 256)).1 this
      omega

theorem numBytes_le (n k : Nat) : numBytes n ≤ k ↔ n < 256 ^ k := by
  have e : (256 : Nat) ^ k = 2 ^ (8 * k) := by rw [show (256 : Nat) = 2 ^ 8 from rfl, ← Nat.pow_mul]
  unfold numBytes numBits
  by_cases h : n = 0
  · subst h
    simp only [if_true]
    constructor
    · intro _
      exact Nat.pow_pos (by decide)
    · intro _
      omega
  · rw [if_neg h, e, ← Nat.log2_lt h]
    omega

theorem numBytes_eq (n : Nat) : (bn2bin n).length = numBytes n := by
  apply Nat.le_antisymm
  · exact (length_le (writes n)).2 ((numBytes_le n _).1 (Nat.le_refl _))
  · exact (numBytes_le n _).2 ((length_le (writes n)).1 (Nat.le_refl _))

theorem writes_unique {l m : List Byte} : ∀ {n : Nat}, Writes l n → Writes m n → l = m := by
  have len : ∀ {n}, Writes l n → Writes m n → l.length = m.length := fun a b =>
    Nat.le_antisymm ((length_le a).2 ((length_le b).1 (Nat.le_refl _))) ((length_le b).2 ((length_le a).1 (Nat.le_refl _)))
  have same : ∀ (l m : List Byte), l.length = m.length → value l = value m → l = m := by
    intro l
    induction l with
    | nil =>
      intro m h _
      exact (List.length_eq_zero_iff.1 h.symm).symm
    | cons a l ih =>
      intro m h hv
      cases m with
      | nil => simp at h
      | cons b m =>
        have hl : l.length = m.length := by simpa using h
        rw [value, value, hl] at hv
        have v1 := value_lt l
        have v2 := value_lt m
        rw [hl] at v1
        have hp : 0 < 256 ^ m.length := Nat.pow_pos (by decide)
        have ha : a.toNat = b.toNat := by
          have e1 : (a.toNat * 256 ^ m.length + value l) / 256 ^ m.length = a.toNat := by
            rw [Nat.mul_comm, Nat.mul_add_div hp, Nat.div_eq_of_lt v1, Nat.add_zero]
          have e2 : (b.toNat * 256 ^ m.length + value m) / 256 ^ m.length = b.toNat := by
            rw [Nat.mul_comm, Nat.mul_add_div hp, Nat.div_eq_of_lt v2, Nat.add_zero]
          rw [← e1, ← e2, hv]
        rw [ha] at hv
        rw [UInt8.toNat_inj.1 ha, ih m hl (by omega)]
  intro n a b
  exact same l m (len a b) (a.1.trans b.1.symm)

theorem pow_agree (p g x y : Nat) : (g ^ y % p) ^ x % p = shared p g x y := by
  unfold shared
  rw [← Nat.pow_mod, ← Nat.pow_mul, Nat.mul_comm]

end KaP

open KaP

/-- What `get_public_value` appends to the buffer: the public number in as few bytes as possible, or, if fewer bytes are wanted than that, the first of them; it says
    how many it appended, and `pub_key_len` says how many are to be had. -/
theorem C127_public (d : Dh) (out : List Byte) (n : Nat) :
    ∃ l, Writes l (public_ d.p d.g d.x) ∧ l.length = pubKeyLen d ∧
      getPublic d out n = some (out ++ l.take n, ((l.take n).length : Int)) := by
  refine ⟨bn2bin d.pub, writes _, numBytes_eq _, ?_⟩
  unfold getPublic
  dsimp only
  rw [List.length_take, numBytes_eq]
  by_cases h : (numBytes d.pub : Int) < (n : Int)
  · rw [if_pos h, if_neg (by omega)]
    have e : min n (numBytes d.pub) = numBytes d.pub := by omega
    rw [e, Int.toNat_natCast, ← numBytes_eq, List.take_length, List.take_of_length_le (by rw [numBytes_eq]; omega)]
  · rw [if_neg h, if_neg (by omega), Int.toNat_natCast, Nat.min_eq_left (by omega)]

/-- `create_secret` takes exactly the bytes it is told to from the input, and appends to the output exactly the number that the peer's number and the private
    number make, in as few bytes as possible, which are no more than the modulus has; for proper public values. Zeros in front of the peer's number do not matter. -/
theorem C127_secret_partial (d : Dh) (yours rest out : List Byte) (hv : Proper d.p (value yours)) (hs : numBits d.p ≤ 10000) :
    ∃ l log, createSecret d (yours ++ rest) yours.length out = some (rest, out ++ l, log) ∧ Writes l (value yours ^ d.x % d.p) ∧ l.length ≤ numBytes d.p := by
  unfold createSecret computeKey
  dsimp only
  rw [List.take_left', List.drop_left', bin2bn_value, if_neg (by simp)] <;> try rfl
  rw [if_neg (by have := hv.1; omega), if_neg (by have := hv.2; omega), if_neg (by omega)]
  refine ⟨_, _, rfl, writes _, ?_⟩
  rw [length_le (writes _)]
  have h1 := (numBytes_le d.p _).1 (Nat.le_refl _)
  have h2 : value yours ^ d.x % d.p < d.p := Nat.mod_lt _ (by have := hv.2; omega)
  omega

/-- Two sides that use the same modulus and generator, and give each other all of their public values, have the same secret, which is that of the specification,
    if neither public value is improper. -/
theorem C127_agree_partial (p g x y : Nat) (n m : Nat) (a b : List Byte) (ra rb : Int) (outA outB : List Byte)
    (hA : Proper p (public_ p g x)) (hB : Proper p (public_ p g y)) (hs : numBits p ≤ 10000)
    (hn : pubKeyLen ⟨p, g, x⟩ ≤ n) (hm : pubKeyLen ⟨p, g, y⟩ ≤ m)
    (ga : getPublic ⟨p, g, x⟩ [] n = some (a, ra)) (gb : getPublic ⟨p, g, y⟩ [] m = some (b, rb)) :
    ∃ l logA logB, Writes l (shared p g x y) ∧
      createSecret ⟨p, g, x⟩ b rb.toNat outA = some ([], outA ++ l, logA) ∧
      createSecret ⟨p, g, y⟩ a ra.toNat outB = some ([], outB ++ l, logB) := by
  have full : ∀ (z : Nat) (k : Nat) (c : List Byte) (rc : Int), pubKeyLen ⟨p, g, z⟩ ≤ k → getPublic ⟨p, g, z⟩ [] k = some (c, rc) →
      value c = public_ p g z ∧ rc.toNat = c.length := by
    intro z k c rc hk hg
    obtain ⟨l, h1, h2, h3⟩ := C127_public ⟨p, g, z⟩ [] k
    rw [hg, List.take_of_length_le (by omega)] at h3
    injection h3 with h3
    injection h3 with h4 h5
    subst h4 h5
    exact ⟨by simpa using h1.1, by simp⟩
  obtain ⟨va, la⟩ := full x n a ra hn ga
  obtain ⟨vb, lb⟩ := full y m b rb hm gb
  obtain ⟨s, logA, e1, e2, _⟩ := C127_secret_partial ⟨p, g, x⟩ b [] outA (by rw [vb]; exact hB) hs
  obtain ⟨t, logB, f1, f2, _⟩ := C127_secret_partial ⟨p, g, y⟩ a [] outB (by rw [va]; exact hA) hs
  have e2' : Writes s (shared p g x y) := by
    rw [vb] at e2
    unfold public_ at e2
    rwa [pow_agree] at e2
  have f2' : Writes t (shared p g x y) := by
    rw [va] at f2
    unfold public_ at f2
    rw [pow_agree] at f2
    unfold shared at f2 ⊢
    rwa [Nat.mul_comm] at f2
  have : t = s := writes_unique f2' e2'
  subst this
  rw [List.append_nil] at e1 f1
  exact ⟨t, logA, logB, e2', by rw [lb]; exact e1, by rw [la]; exact f1⟩

/-- Two sides with modulus 23 and generator 5, private numbers 6 and 15: public 8 and 19, shared 2. -/
example : Proper 23 (public_ 23 5 6) ∧ Proper 23 (public_ 23 5 15) ∧ numBits 23 ≤ 10000 ∧ getPublic ⟨23, 5, 6⟩ [] 1 = some ([8], 1) ∧ getPublic ⟨23, 5, 15⟩ [] 1 = some ([19], 1) ∧
    (createSecret ⟨23, 5, 6⟩ [19] 1 []).map (fun r => r.2.1) = some [2] ∧ (createSecret ⟨23, 5, 15⟩ [8] 1 []).map (fun r => r.2.1) = some [2] := by
  unfold Proper
  decide +kernel

/-- The primes of the two Oakley groups: 768 and 1024 bits, and both begin and end with 64 ones. -/
theorem C127_groups (prime : Nat → Bool) (x : Nat) :
    (∃ o log, newOakley prime 1 x = some (o, log) ∧ 2 ^ 768 - 2 ^ 704 ≤ o.dh.p ∧ o.dh.p < 2 ^ 768 ∧ o.dh.p % 2 ^ 64 = 2 ^ 64 - 1 ∧ o.dh.g = 2 ∧ o.dh.x = x) ∧
    (∃ o log, newOakley prime 2 x = some (o, log) ∧ 2 ^ 1024 - 2 ^ 960 ≤ o.dh.p ∧ o.dh.p < 2 ^ 1024 ∧ o.dh.p % 2 ^ 64 = 2 ^ 64 - 1 ∧ o.dh.g = 2 ∧ o.dh.x = x) := by
  have a : 2 ^ 768 - 2 ^ 704 ≤ bin2bn group1 ∧ bin2bn group1 < 2 ^ 768 ∧ bin2bn group1 % 2 ^ 64 = 2 ^ 64 - 1 := by decide +kernel
  have b : 2 ^ 1024 - 2 ^ 960 ≤ bin2bn group2 ∧ bin2bn group2 < 2 ^ 1024 ∧ bin2bn group2 % 2 ^ 64 = 2 ^ 64 - 1 := by decide +kernel
  exact ⟨⟨_, _, rfl, a.1, a.2.1, a.2.2, rfl, rfl⟩, ⟨_, _, rfl, b.1, b.2.1, b.2.2, rfl, rfl⟩⟩

/-- The moduli of the groups are those of RFC 2409: 2^768 - 2^704 - 1 + 2^64 (⌊2^638 π⌋ + 149686) and 2^1024 - 2^960 - 1 + 2^64 (⌊2^894 π⌋ + 129093), written with
    the digits of π given there. -/
theorem C127_primes : value group1 = 0xFFFFFFFFFFFFFFFFC90FDAA22168C234C4C6628B80DC1CD129024E088A67CC74020BBEA63B139B22514A08798E3404DDEF9519B3CD3A431B302B0A6DF25F14374FE1356D6D51C245E485B576625E7EC6F44C42E9A63A3620FFFFFFFFFFFFFFFF ∧
    value group2 = 0xFFFFFFFFFFFFFFFFC90FDAA22168C234C4C6628B80DC1CD129024E088A67CC74020BBEA63B139B22514A08798E3404DDEF9519B3CD3A431B302B0A6DF25F14374FE1356D6D51C245E485B576625E7EC6F44C42E9A637ED6B0BFF5CB6F406B7EDEE386BFB5A899FA5AE9F24117C4B1FE649286651ECE65381FFFFFFFFFFFFFFFF := by
  decide +kernel

/-- Two objects of the same group, with any private numbers, that give each other their public keys, have the same `dh_secret`, and each can give back the other's
    public key, or as much of it as is wanted. -/
theorem C127_oakley_partial (prime : Nat → Bool) (group : Int) (x y : Nat) (A B : Oakley) (l1 l2 : List Msg) (a b : List Byte) (ra rb : Int)
    (hA : newOakley prime group x = some (A, l1)) (hB : newOakley prime group y = some (B, l2))
    (pA : Proper A.dh.p (public_ A.dh.p 2 x)) (pB : Proper A.dh.p (public_ A.dh.p 2 y))
    (ga : A.getPublic [] A.pubLen = some (a, ra)) (gb : B.getPublic [] B.pubLen = some (b, rb)) :
    ∃ A' B' logA logB, A.create b rb.toNat = some ([], A', logA) ∧ B.create a ra.toNat = some ([], B', logB) ∧
      Writes A'.secret (shared A.dh.p 2 x y) ∧ B'.secret = A'.secret ∧
      (∀ out (n : Nat), A'.getOther out n = some (out ++ b.take n, ((b.take n).length : Int))) ∧
      (∀ out (n : Nat), B'.getOther out n = some (out ++ a.take n, ((a.take n).length : Int))) := by
  have shape : ∀ (z : Nat) (O : Oakley) (l : List Msg), newOakley prime group z = some (O, l) →
      O.dh = ⟨if group = 1 then bin2bn group1 else bin2bn group2, 2, z⟩ ∧ O.pubLen = pubKeyLen O.dh ∧ O.secret = [] ∧ O.other = [] := by
    intro z O l h
    unfold newOakley at h
    dsimp only at h
    split at h
    · rename_i hg
      injection h with h
      injection h with h1 h2
      subst h1
      rw [if_pos hg]
      exact ⟨rfl, rfl, rfl, rfl⟩
    · rename_i hg
      split at h
      · injection h with h
        injection h with h1 h2
        subst h1
        rw [if_neg hg]
        exact ⟨rfl, rfl, rfl, rfl⟩
      · cases h
  obtain ⟨a1, a2, a3, a4⟩ := shape x A l1 hA
  obtain ⟨b1, b2, b3, b4⟩ := shape y B l2 hB
  generalize hp : (if group = 1 then bin2bn group1 else bin2bn group2) = p at a1 b1
  have hbits : numBits p ≤ 10000 := by
    subst hp
    split <;> decide +kernel
  rw [a1] at pA pB
  unfold Oakley.getPublic at ga gb
  rw [a2, a1] at ga
  rw [b2, b1] at gb
  obtain ⟨l, logA, logB, w, e1, e2⟩ := C127_agree_partial p 2 x y _ _ a b ra rb [] [] pA pB hbits (Nat.le_refl _) (Nat.le_refl _) ga gb
  have lens : ∀ (z : Nat) (c : List Byte) (rc : Int), getPublic ⟨p, 2, z⟩ [] (pubKeyLen ⟨p, 2, z⟩ : Nat) = some (c, rc) → rc.toNat = c.length := by
    intro z c rc hg
    obtain ⟨m, _, _, h3⟩ := C127_public ⟨p, 2, z⟩ [] (pubKeyLen ⟨p, 2, z⟩)
    rw [hg] at h3
    injection h3 with h3
    injection h3 with h4 h5
    subst h4 h5
    simp
  have la := lens x a ra ga
  have lb := lens y b rb gb
  have oth : ∀ (O : Oakley) (c out : List Byte) (n : Nat), O.otherLen = some c.length → O.other = c → O.getOther out n = some (out ++ c.take n, ((c.take n).length : Int)) := by
    intro O c out n h1 h2
    unfold Oakley.getOther
    rw [h1, h2]
    dsimp only
    rw [List.length_take]
    by_cases h : (c.length : Int) < (n : Int)
    · rw [if_pos h, if_neg (by omega), if_neg (by omega), Int.toNat_natCast, List.take_length, List.take_of_length_le (by omega), Nat.min_eq_right (by omega)]
    · rw [if_neg h, if_neg (by omega), if_neg (by omega), Int.toNat_natCast, Nat.min_eq_left (by omega)]
  rw [la] at e2
  rw [lb] at e1
  refine ⟨{ A with other := A.other ++ b.take b.length, otherLen := some b.length, secret := [] ++ l },
    { B with other := B.other ++ a.take a.length, otherLen := some a.length, secret := [] ++ l }, logA, logB, ?_, ?_, by simpa [a1] using w, rfl, ?_, ?_⟩
  · unfold Oakley.create
    rw [lb, if_neg (by omega), a1, a3, e1]
  · unfold Oakley.create
    rw [la, if_neg (by omega), b1, b3, e2]
  · intro out n
    exact oth _ b out n rfl (by simp [a4])
  · intro out n
    exact oth _ a out n rfl (by simp [b4])

/-- With private numbers 1000 and 2000 of group 1 the public values are proper. -/
example : ∃ A B l1 l2 a b, newOakley (fun _ => true) 1 1000 = some (A, l1) ∧ newOakley (fun _ => true) 1 2000 = some (B, l2) ∧ A.getPublic [] A.pubLen = some a ∧ B.getPublic [] B.pubLen = some b ∧
    Proper A.dh.p (public_ A.dh.p 2 1000) ∧ Proper A.dh.p (public_ A.dh.p 2 2000) := by
  obtain ⟨_, _, _, e1⟩ := C127_public (construct (fun _ => true) group1 2 1000).1 [] (pubKeyLen (construct (fun _ => true) group1 2 1000).1)
  obtain ⟨_, _, _, e2⟩ := C127_public (construct (fun _ => true) group1 2 2000).1 [] (pubKeyLen (construct (fun _ => true) group1 2 2000).1)
  refine ⟨_, _, _, _, _, _, rfl, rfl, e1, e2, ?_, ?_⟩ <;> unfold Proper <;> decide +kernel

/-- DISAGREEMENT: a peer that sends 0, 1, a number that is one less than the modulus or a larger one makes the code write an unbounded amount of memory to its
    output: `create_secret` uses the -1 of the library as a length. -/
theorem C127_peer_fails (d : Dh) (yours rest out : List Byte) (h : ¬ Proper d.p (value yours)) :
    createSecret d (yours ++ rest) yours.length out = none := by
  unfold createSecret
  dsimp only
  rw [if_neg (by simp), List.take_left', bin2bn_value] <;> try rfl
  have : computeKey d (value yours) = none := by
    unfold computeKey
    unfold Proper at h
    by_cases h1 : value yours ≤ 1
    · rw [if_pos h1]
    · rw [if_neg h1, if_pos (by omega)]
  rw [this]

/-- DISAGREEMENT: with fewer bytes in the input than said, memory at the null pointer is read. -/
theorem C127_short_fails (d : Dh) (inb out : List Byte) (n : Nat) (h : inb.length < n) : createSecret d inb n out = none := by
  unfold createSecret
  rw [if_pos h]

/-- DISAGREEMENT: if less of a public value is taken than there is, the sides do not agree, and neither is told. -/
theorem C127_truncated_fails : ∃ p g x y a b ra rb sA sB, getPublic ⟨p, g, x⟩ [] 1 = some (a, ra) ∧ getPublic ⟨p, g, y⟩ [] 1 = some (b, rb) ∧
    (createSecret ⟨p, g, x⟩ b 1 []).map (fun r => r.2.1) = some sA ∧ (createSecret ⟨p, g, y⟩ a 1 []).map (fun r => r.2.1) = some sB ∧ sA ≠ sB :=
  ⟨65537, 3, 10, 11, [230], [179], 1, 1, [109, 11], [41, 44], by decide +kernel⟩

/-- DISAGREEMENT: the length of public values and of secrets is not that of the modulus (as the protocols the class is made for want it), but depends on the values:
    bytes that are zero are left out in front. -/
theorem C127_length_fails : ∃ d yours s, pubKeyLen d < numBytes d.p ∧ Proper d.p (value yours) ∧
    (createSecret d yours yours.length []).map (fun r => r.2.1) = some s ∧ s.length < numBytes d.p := by
  refine ⟨⟨65537, 3, 4⟩, [3], [81], ?_⟩
  unfold Proper
  decide +kernel

/-- DISAGREEMENT: the shared secret is written to the log. -/
theorem C127_logged_fails (d : Dh) (yours rest : List Byte) (hv : Proper d.p (value yours)) (hs : numBits d.p ≤ 10000) :
    ∃ l log, createSecret d (yours ++ rest) yours.length [] = some (rest, l, log) ∧ Msg.secret l ∈ log := by
  unfold createSecret computeKey
  dsimp only
  rw [List.take_left', List.drop_left', bin2bn_value, if_neg (by simp)] <;> try rfl
  rw [if_neg (by have := hv.1; omega), if_neg (by have := hv.2; omega), if_neg (by omega)]
  exact ⟨_, _, rfl, by simp⟩

/-- DISAGREEMENT: for both groups the constructor reports an error that asks for the generator 2, which is the one that is used. -/
theorem C127_generator_fails (prime : Nat → Bool) (group : Int) (x : Nat) (o : Oakley) (log : List Msg) (h : newOakley prime group x = some (o, log)) :
    o.dh.g = 2 ∧ Msg.generator 2 23 ∈ log := by
  have a : bin2bn group1 % 24 = 23 ∧ bin2bn group2 % 24 = 23 := by decide +kernel
  have c : ∀ key, bin2bn key % 24 = 23 → Msg.generator 2 23 ∈ (construct prime key 2 x).2 := by
    intro key hk
    unfold construct suitable
    generalize bin2bn key = p at hk
    simp [hk]
  unfold newOakley at h
  generalize group1 = k1 at a h
  generalize group2 = k2 at a h
  dsimp only at h
  split at h
  · injection h with h
    injection h with h1 h2
    subst h1 h2
    exact ⟨rfl, c _ a.1⟩
  · split at h
    · injection h with h
      injection h with h1 h2
      subst h1 h2
      exact ⟨rfl, c _ a.2⟩
    · cases h

/-- DISAGREEMENT: with any other group a pointer that was not set is used, and not only for unknown groups but for 3 and 4, which the code means to refuse. -/
theorem C127_unsupported_fails (prime : Nat → Bool) (group : Int) (x : Nat) (h : group ≠ 1 ∧ group ≠ 2) : newOakley prime group x = none := by
  unfold newOakley
  dsimp only
  rw [if_neg h.1, if_neg h.2]

/-- DISAGREEMENT: after a second `create_secret`, the other side's public key is said to be that of the first, and the secret begins with the first one. -/
theorem C127_again_fails : ∃ (o o1 o2 : Oakley) (a b out : List Byte) (r : Int), (o.create a 1).map (fun r => r.2.1) = some o1 ∧ (o1.create b 1).map (fun r => r.2.1) = some o2 ∧
    o2.getOther [] 1 = some (out, r) ∧ out = a ∧ out ≠ b ∧ o2.secret = o1.secret ++ [value b ^ o.dh.x % o.dh.p].map UInt8.ofNat :=
  ⟨⟨⟨23, 5, 6⟩, 1, none, [], []⟩, ⟨⟨23, 5, 6⟩, 1, some 1, [19], [2]⟩, ⟨⟨23, 5, 6⟩, 1, some 1, [19, 8], [2, 13]⟩, [19], [8], [19], 1, by decide +kernel⟩

end Props
