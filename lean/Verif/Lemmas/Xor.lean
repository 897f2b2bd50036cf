import Verif.Model.Xor
import Verif.Lemmas.Encoder
namespace Wv.Xor

theorem loop_append (key : List Byte) (k : Nat) (a b : List Byte) :
    loop key k (a ++ b) = ((loop key (loop key k a).1 b).1, (loop key k a).2 ++ (loop key (loop key k a).1 b).2) := by
  induction a generalizing k with
  | nil => simp [loop]
  | cons c cs ih => simp [loop, ih]

theorem encoder_pure (key : List Byte) : (encoder key).Pure (loop key) where
  enc e io fl := ⟨true, rfl, fun _ => rfl⟩
  nil _ := rfl
  app := loop_append key

theorem loop_out (key : List Byte) (hk : key ≠ []) (data : List Byte) : ∀ k, k < key.length →
    (loop key k data).2 = data.mapIdx (fun i b => b ^^^ key.getD ((k + i) % key.length) 0) := by
  induction data with
  | nil => intro k _; rfl
  | cons d ds ih =>
    intro k hlt
    have hpos : 0 < key.length := List.length_pos_iff.mpr hk
    simp only [loop, List.mapIdx_cons]
    rw [ih _ (Nat.mod_lt _ hpos)]
    congr 1
    · rw [Nat.add_zero, Nat.mod_eq_of_lt hlt]
    · congr 1; funext i b
      rw [Nat.mod_add_mod, show k + 1 + i = k + (i + 1) by omega]

theorem run_out (key : List Byte) (hk : key ≠ []) (cs : List (List Byte × Bool)) :
    ((encoder key).feed new {} cs).2.1.out = (flat cs).mapIdx (fun i b => b ^^^ key.getD (i % key.length) 0) ∧
    ((encoder key).feed new {} cs).1.okay = true ∧ ((encoder key).feed new {} cs).2.1.inb = [] := by
  obtain ⟨rs, h, -⟩ := (encoder_pure key).feed cs new [] rfl rfl
  have hpos : 0 < key.length := List.length_pos_iff.mpr hk
  rw [show ({} : Io) = ⟨[], []⟩ from rfl, h]
  refine ⟨?_, rfl, rfl⟩
  simp [new, loop_out key hk _ 0 hpos]

end Wv.Xor
