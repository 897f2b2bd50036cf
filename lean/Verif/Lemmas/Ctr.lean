import Verif.Model.CounterMode
import Verif.Spec.Ctr
import Verif.Lemmas.Basic
import Verif.Lemmas.Encoder
import Mathlib.Tactic.Ring
import Mathlib.Data.List.GetD
namespace Wv.Ctr
open Spec.Ctr

theorem le_length (n v : Nat) : (le n v).length = n := by
  induction n generalizing v with
  | zero => rfl
  | succ n ih => simp [le, ih]

theorem le_value (c : List Byte) : le c.length (value c) = c := by
  induction c with
  | nil => rfl
  | cons b bs ih =>
    have hb := UInt8.toNat_lt b
    simp only [List.length_cons, le, value]
    rw [show (b.toNat + 256 * value bs) % 256 = b.toNat by omega, show (b.toNat + 256 * value bs) / 256 = value bs by omega, ih]
    simp

theorem value_le (n v : Nat) : value (le n v) = v % 256 ^ n := by
  induction n generalizing v with
  | zero => simp [le, value, Nat.mod_one]
  | succ n ih =>
    simp only [le, value, ih]
    rw [Nat.pow_succ', Nat.mod_mul]
    simp [UInt8.toNat_ofNat']

theorem incr_le (n v : Nat) : incr (le n v) = le n (v + 1) := by
  induction n generalizing v with
  | zero => rfl
  | succ n ih =>
    simp only [le, incr]
    have hz : UInt8.ofNat (v % 256) + 1 = UInt8.ofNat ((v + 1) % 256) := by
      apply UInt8.toNat_inj.mp
      simp [UInt8.toNat_ofNat']
    rw [hz]
    by_cases h : (v + 1) % 256 = 0
    · rw [if_pos (by rw [h]; rfl), ih, h, show v / 256 + 1 = (v + 1) / 256 by omega]
      rfl
    · rw [if_neg, show v / 256 = (v + 1) / 256 by omega]
      intro h0
      have := congrArg UInt8.toNat h0
      simp [UInt8.toNat_ofNat'] at this
      omega

theorem incr_length (c : List Byte) : (incr c).length = c.length := by
  induction c with
  | nil => rfl
  | cons b bs ih => simp only [incr]; split <;> simp [ih]

theorem iter_incr (n v k : Nat) : incr^[k] (le n v) = le n (v + k) := by
  induction k generalizing v with
  | zero => rfl
  | succ k ih => rw [Function.iterate_succ, Function.comp, incr_le, ih]; congr 1; omega

section
variable (block : List Byte → List Byte) (n : Nat) (hb : ∀ c, c.length = n → (block c).length = n)

include hb in
theorem gen_spec (k v : Nat) : (gen block k (le n v)).1 = le n (v + k) ∧
    (gen block k (le n v)).2.length = k * n ∧
    (0 < n → ∀ i, i < k * n → (gen block k (le n v)).2.getD i 0 = (block (le n (v + i / n))).getD (i % n) 0) := by
  induction k generalizing v with
  | zero => simp [gen]
  | succ k ih =>
    obtain ⟨h1, h2, h3⟩ := ih (v + 1)
    have hl : (block (le n v)).length = n := hb _ (le_length n v)
    simp only [gen, incr_le]
    refine ⟨by rw [h1]; congr 1; omega, by simp [h2, hl]; ring, fun hn i hi => ?_⟩
    by_cases hin : i < n
    · rw [List.getD_append _ _ _ _ (by omega), Nat.div_eq_of_lt hin, Nat.mod_eq_of_lt hin]; rfl
    · rw [List.getD_append_right _ _ _ _ (by omega), hl, h3 hn _ (by rw [Nat.add_mul] at hi; omega)]
      have e1 : v + 1 + (i - n) / n = v + i / n := by
        have : i / n = (i - n) / n + 1 := by
          conv_lhs => rw [show i = i - n + n by omega]
          exact Nat.add_div_right _ hn
        omega
      have e2 : (i - n) % n = i % n := by
        conv_rhs => rw [show i = i - n + n by omega]
        exact (Nat.add_mod_right _ _).symm
      rw [e1, e2]

theorem crypt_append (hn : 0 < n) (v : Nat) (a b : List Byte) (ha : n ∣ a.length) :
    crypt block n v (a ++ b) = crypt block n v a ++ crypt block n (v + a.length / n) b := by
  obtain ⟨k, hk⟩ := ha
  simp only [crypt, List.mapIdx_append]
  congr 1
  congr 1
  funext i x
  rw [hk, Nat.mul_div_cancel_left _ hn, show i + n * k = n * k + i by omega, Nat.mul_add_div hn, Nat.mul_add_mod]
  congr 4; omega

theorem zip_crypt (v : Nat) (ks data : List Byte) (hlen : ks.length = data.length)
    (h : ∀ i, i < ks.length → ks.getD i 0 = (block (le n (v + i / n))).getD (i % n) 0) :
    List.zipWith (· ^^^ ·) ks data = crypt block n v data := by
  apply List.ext_getElem
  · simp [crypt, hlen]
  · intro i h1 h2
    simp only [crypt, List.getElem_zipWith, List.getElem_mapIdx]
    have hi : i < ks.length := by simp at h1; omega
    rw [← h i hi]
    simp [List.getD_eq_getElem?_getD, hi]

/-- One call. -/
theorem encode'_spec (hn : 0 < n) (v : Nat) (io : Io) (fl : Bool) (e : Enc (List Byte)) (he : e.st = le n v)
    (hb : ∀ c, c.length = n → (block c).length = n) :
    encode' block e io fl =
      if fl then ({ e with st := le n (v + blocks n io.inb) }, ⟨[], io.out ++ crypt block n v io.inb⟩, true)
      else ({ e with st := le n (v + io.inb.length / n) },
        ⟨io.inb.drop (io.inb.length / n * n), io.out ++ crypt block n v (io.inb.take (io.inb.length / n * n))⟩, true) := by
  obtain ⟨h1, h2, h3⟩ := gen_spec block n hb (io.inb.length / n) v
  have hdm := Nat.div_add_mod io.inb.length n
  rw [Nat.mul_comm] at hdm
  have hlt := Nat.mod_lt io.inb.length hn
  simp only [encode', he, le_length]
  rcases hg : gen block (io.inb.length / n) (le n v) with ⟨c, ks⟩
  rw [hg] at h1 h2 h3
  simp only at h1 h2 h3
  subst h1
  have hwhole : io.inb.length - io.inb.length % n = io.inb.length / n * n := by omega
  cases fl with
  | false =>
    simp only [Bool.false_eq_true, false_and, if_false]
    rw [hwhole]
    have hz := zip_crypt block n v ks (io.inb.take (io.inb.length / n * n))
      (by rw [h2, List.length_take]; omega) (fun i hi => h3 hn i (by omega))
    rw [hz]
  | true =>
    simp only [true_and, if_true]
    by_cases hl : io.inb.length % n = 0
    · have hbk : blocks n io.inb = io.inb.length / n := by
        obtain ⟨q, hq⟩ := Nat.dvd_of_mod_eq_zero hl
        rw [blocks, hq, Nat.mul_div_cancel_left _ hn, Nat.add_sub_assoc (by omega), Nat.mul_add_div hn,
          Nat.div_eq_of_lt (by omega)]
        rfl
      simp only [hl, ne_eq, not_true_eq_false, if_false, Nat.sub_zero, hbk]
      have hz := zip_crypt block n v ks io.inb (by omega) (fun i hi => h3 hn i (by omega))
      simp only [List.drop_length, List.take_length, hz]
    · have hbk : blocks n io.inb = io.inb.length / n + 1 := by
        rw [blocks]
        conv_lhs => rw [← hdm, show io.inb.length / n * n + io.inb.length % n + n - 1 =
          n * (io.inb.length / n + 1) + (io.inb.length % n - 1) by rw [Nat.mul_add, Nat.mul_comm]; omega]
        rw [Nat.mul_add_div hn, Nat.div_eq_of_lt (a := io.inb.length % n - 1) (by omega)]
      simp only [ne_eq, hl, not_false_eq_true, if_true, incr_le, Nat.sub_zero, List.drop_length, List.take_length, hbk]
      have hbl : (block (le n (v + io.inb.length / n))).length = n := hb _ (le_length _ _)
      have hl2 : (ks ++ block (le n (v + io.inb.length / n))).length - (n - io.inb.length % n) = io.inb.length := by
        simp only [List.length_append, h2, hbl]; omega
      rw [hl2]
      have hz := zip_crypt block n v ((ks ++ block (le n (v + io.inb.length / n))).take io.inb.length) io.inb
        (by simp only [List.length_take, List.length_append, h2, hbl]; omega) (fun i hi => by
          have hi' : i < io.inb.length := by simp only [List.length_take] at hi; omega
          rw [List.getD_eq_getElem?_getD, List.getElem?_take_of_lt hi', ← List.getD_eq_getElem?_getD]
          by_cases hik : i < ks.length
          · rw [List.getD_append _ _ _ _ hik]; exact h3 hn i (by omega)
          · rw [List.getD_append_right _ _ _ _ (by omega), h2]
            have e1 : i = n * (io.inb.length / n) + (i - io.inb.length / n * n) := by
              rw [Nat.mul_comm]; omega
            conv_rhs => rw [e1, Nat.mul_add_div hn, Nat.mul_add_mod, Nat.div_eq_of_lt (a := i - io.inb.length / n * n) (by omega),
              Nat.mod_eq_of_lt (a := i - io.inb.length / n * n) (by omega)]
            rfl)
      rw [hz]; rfl

theorem segs_prefix (a q : List Byte) (r : List (List Byte × Bool)) :
    segs (a ++ q) r = match segs q r with
      | ([], t) => ([], a ++ t)
      | (s :: ss, t) => ((a ++ s) :: ss, t) := by
  induction r generalizing q with
  | nil => simp [segs]
  | cons c r ih =>
    obtain ⟨c, fl⟩ := c
    cases fl
    · simp only [segs, List.append_assoc]; exact ih (q ++ c)
    · simp [segs]

/-- Everything put out for a history. -/
def outSpec (v : Nat) (r : List (List Byte) × List Byte) : List Byte :=
  cryptSegs block n v r.1 ++
    crypt block n (v + (r.1.map (blocks n)).sum) (r.2.take (r.2.length / n * n))

theorem outSpec_prefix (hn : 0 < n) (v : Nat) (a q : List Byte) (r : List (List Byte × Bool)) (ha : n ∣ a.length) :
    outSpec block n v (segs (a ++ q) r) = crypt block n v a ++ outSpec block n (v + a.length / n) (segs q r) := by
  rw [segs_prefix]
  obtain ⟨k, hk⟩ := ha
  rcases h : segs q r with ⟨_ | ⟨s, ss⟩, t⟩
  · simp only [outSpec, cryptSegs, List.map_nil, List.sum_nil, Nat.add_zero, List.nil_append]
    have h1 : (a ++ t).length / n * n = a.length + t.length / n * n := by
      rw [List.length_append, hk, Nat.mul_add_div hn, Nat.add_mul, Nat.mul_comm k]
    rw [h1, List.take_append, Nat.add_sub_cancel_left, List.take_of_length_le (by omega : a.length ≤ _),
      crypt_append block n hn v a _ ⟨k, hk⟩]
  · simp only [outSpec, cryptSegs, List.map_cons, List.sum_cons]
    have h1 : blocks n (a ++ s) = a.length / n + blocks n s := by
      simp only [blocks, List.length_append, hk]
      rw [Nat.mul_div_cancel_left _ hn, show n * k + s.length + n - 1 = n * k + (s.length + n - 1) by omega,
        Nat.mul_add_div hn]
    rw [crypt_append block n hn v a _ ⟨k, hk⟩, h1]
    simp only [List.append_assoc, Nat.add_assoc]

theorem feed_spec (hn : 0 < n) (hb : ∀ c, c.length = n → (block c).length = n) (cs : List (List Byte × Bool)) :
    ∀ (v : Nat) (p o : List Byte) (e : Enc (List Byte)), e.st = le n v → e.okay = true → e.finished = false →
      p.length < n →
    ((encoder block).feed e ⟨p, o⟩ cs).2.1.out = o ++ outSpec block n v (segs p cs) ∧
    ((encoder block).feed e ⟨p, o⟩ cs).2.1.inb = (segs p cs).2.drop ((segs p cs).2.length / n * n) ∧
    ((encoder block).feed e ⟨p, o⟩ cs).1.okay = true := by
  induction cs with
  | nil =>
    intro v p o e he hok hfin hp
    simp only [EncImpl.feed, segs, outSpec, cryptSegs, Nat.div_eq_of_lt hp, Nat.zero_mul, List.take_zero, List.drop_zero]
    simp [crypt, hok]
  | cons c cs ih =>
    obtain ⟨c, fl⟩ := c
    intro v p o e he hok hfin hp
    simp only [EncImpl.feed]
    by_cases hc : (!(p ++ c).isEmpty || fl) = true
    · have henc : (encoder block).encode e ⟨p ++ c, o⟩ fl false = encode' block e ⟨p ++ c, o⟩ fl := by
        simp only [EncImpl.encode, hok, hfin, Bool.not_false, Bool.true_and, hc, if_true, Bool.false_eq_true, if_false,
          encoder]
      rw [henc, encode'_spec block n hn v _ fl e he hb]
      cases fl with
      | true =>
        simp only [if_true, segs]
        have := ih (v + blocks n (p ++ c)) [] (o ++ crypt block n v (p ++ c))
          { e with st := le n (v + blocks n (p ++ c)) } rfl hok hfin hn
        refine ⟨?_, this.2.1, this.2.2⟩
        rw [this.1]
        simp only [outSpec, cryptSegs, List.append_assoc, List.map_cons, List.sum_cons, Nat.add_assoc]
      | false =>
        simp only [Bool.false_eq_true, if_false, segs]
        have hdm := Nat.div_add_mod (p ++ c).length n
        rw [Nat.mul_comm] at hdm
        have hlt := Nat.mod_lt (p ++ c).length hn
        have := ih (v + (p ++ c).length / n) ((p ++ c).drop ((p ++ c).length / n * n))
          (o ++ crypt block n v ((p ++ c).take ((p ++ c).length / n * n)))
          { e with st := le n (v + (p ++ c).length / n) } rfl hok hfin (by rw [List.length_drop]; omega)
        have hlt' : ((p ++ c).take ((p ++ c).length / n * n)).length = (p ++ c).length / n * n := by
          rw [List.length_take]; omega
        have hsplit : p ++ c = (p ++ c).take ((p ++ c).length / n * n) ++ (p ++ c).drop ((p ++ c).length / n * n) :=
          (List.take_append_drop _ _).symm
        generalize hq : (p ++ c).drop ((p ++ c).length / n * n) = q at *
        generalize ha : (p ++ c).take ((p ++ c).length / n * n) = a at *
        have hdvd : n ∣ a.length := ⟨(p ++ c).length / n, by rw [hlt', Nat.mul_comm]⟩
        have hdiv : a.length / n = (p ++ c).length / n := by rw [hlt', Nat.mul_div_cancel _ hn]
        refine ⟨?_, ?_, this.2.2⟩
        · rw [this.1]
          conv_rhs => rw [hsplit, outSpec_prefix block n hn v a q cs hdvd, hdiv]
          rw [List.append_assoc]
        · rw [this.2.1]
          conv_rhs => rw [hsplit, segs_prefix]
          rcases h : segs q cs with ⟨_ | ⟨s, ss⟩, t⟩
          · simp only
            obtain ⟨k, hk⟩ := hdvd
            have h1 : (a ++ t).length / n * n = a.length + t.length / n * n := by
              rw [List.length_append, hk, Nat.mul_add_div hn, Nat.add_mul, Nat.mul_comm k]
            rw [h1, List.drop_append, Nat.add_sub_cancel_left, List.drop_eq_nil_of_le (by omega : a.length ≤ _)]; rfl
          · simp only
    · have hc' : (p = [] ∧ c = []) ∧ fl = false := by simpa using hc
      obtain ⟨⟨rfl, rfl⟩, rfl⟩ := hc'
      have henc : (encoder block).encode e ⟨[], o⟩ false false = (e, ⟨[], o⟩, false) := by
        simp [EncImpl.encode, hok, hfin]
      simp only [List.append_nil, henc, segs]
      exact ih v [] o e he hok hfin hp

theorem crypt_length (v : Nat) (d : List Byte) : (crypt block n v d).length = d.length := by simp [crypt]

theorem crypt_crypt (v : Nat) (d : List Byte) : crypt block n v (crypt block n v d) = d := by
  apply List.ext_getElem
  · simp [crypt]
  · intro i h1 h2
    simp [crypt, ← UInt8.xor_assoc]

theorem cryptSegs_inv (ss : List (List Byte)) : ∀ (tt : List (List Byte)) (v : Nat),
    tt.map List.length = ss.map List.length → tt.flatten = cryptSegs block n v ss →
    cryptSegs block n v tt = ss.flatten := by
  induction ss with
  | nil => intro tt v h _; have : tt = [] := by simpa using h
           subst this; rfl
  | cons s ss ih =>
    intro tt v h hf
    cases tt with
    | nil => simp at h
    | cons t tt =>
      simp only [List.map_cons, List.cons.injEq] at h
      simp only [List.flatten_cons, cryptSegs] at hf ⊢
      have hl : t.length = (crypt block n v s).length := by rw [crypt_length]; exact h.1
      obtain ⟨e1, e2⟩ := List.append_inj hf hl
      have hbk : blocks n t = blocks n s := by rw [blocks, blocks, h.1]
      rw [e1, crypt_crypt, ← e1, hbk, ih tt _ h.2 e2]
end
end Wv.Ctr
