import Verif.Model.Basic
/- General helper lemmas. -/
namespace Wv

theorem forall_byte {p : Byte → Prop} (h : ∀ n : Nat, n < 256 → p (UInt8.ofNat n)) (c : Byte) : p c := by
  have := h c.toNat (UInt8.toNat_lt c)
  simpa using this

theorem ofNat_mod (n : Nat) : UInt8.ofNat (n % 256) = UInt8.ofNat n := by
  apply UInt8.toNat_inj.mp
  simp [UInt8.toNat_ofNat']

theorem shl_or (x n k : Nat) (h : n < 2 ^ k) : (x <<< k) ||| n = x * 2 ^ k + n := by
  rw [← Nat.shiftLeft_add_eq_or_of_lt h, Nat.shiftLeft_eq]

theorem and_mask (x k : Nat) : x &&& (2 ^ k - 1) = x % 2 ^ k := Nat.and_two_pow_sub_one_eq_mod x k

theorem shr (x k : Nat) : x >>> k = x / 2 ^ k := Nat.shiftRight_eq_div_pow x k

end Wv
