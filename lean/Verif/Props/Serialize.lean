import Verif.Model.Serialize
/- C40: serialisation. -/
namespace Props
open Wv Spec.Serial
open Wv.Serialize (scalar unscalar string unstring val unval vals unvals)

namespace Ser
open Wv.Serialize

theorem or_add (a b : Nat) (h : b < 2 ^ 32) : (a <<< 32) ||| b = a * 2 ^ 32 + b := by
  rw [← Nat.shiftLeft_add_eq_or_of_lt h, Nat.shiftLeft_eq]

theorem emod_mul (x a b : Int) (ha : 0 ≤ a) : x % (a * b) = x % a + a * (x / a % b) := by
  have e : x / (a * b) = x / a / b := by
    rw [Int.ediv_ediv, if_neg (by omega)]; omega
  rw [Int.emod_def, Int.emod_def, Int.emod_def, e, Int.mul_sub, Int.mul_assoc]
  omega

theorem digit (a m : Nat) (h : a < 256) : (a + 256 * m) % 256 = a ∧ (a + 256 * m) / 256 = m := by omega

theorem htonl_digits (a b c d m : Nat) (ha : a < 256) (hb : b < 256) (hc : c < 256) (hd : d < 256) :
    htonl (a + 256 * (b + 256 * (c + 256 * (d + 256 * m)))) = a * 16777216 + b * 65536 + c * 256 + d := by
  unfold htonl
  have e2 : ∀ n : Nat, n / 256 ^ 2 = n / 256 / 256 := fun n => by rw [Nat.div_div_eq_div_mul]
  have e3 : ∀ n : Nat, n / 256 ^ 3 = n / 256 / 256 / 256 := fun n => by rw [Nat.div_div_eq_div_mul, Nat.div_div_eq_div_mul]
  rw [e2, e3]
  simp only [(digit a _ ha).1, (digit a _ ha).2, (digit b _ hb).1, (digit b _ hb).2, (digit c _ hc).1, (digit c _ hc).2, (digit d _ hd).1]

theorem htonl_upper (a b c d m : Nat) (ha : a < 256) (hb : b < 256) (hc : c < 256) (hd : d < 256) :
    (a + 256 * (b + 256 * (c + 256 * (d + 256 * m)))) / 2 ^ 32 = m := by
  have e : ∀ n : Nat, n / 2 ^ 32 = n / 256 / 256 / 256 / 256 := fun n => by
    rw [Nat.div_div_eq_div_mul, Nat.div_div_eq_div_mul, Nat.div_div_eq_div_mul]
  rw [e]
  simp only [(digit a _ ha).2, (digit b _ hb).2, (digit c _ hc).2, (digit d _ hd).2]

theorem htonl_lt (n : Nat) : htonl n < 2 ^ 32 := by unfold htonl; omega

theorem bytes_length (n : Nat) (z : Int) : (Spec.Serial.bytes n z).length = n := by
  induction n with
  | zero => rfl
  | succ n ih => simp [Spec.Serial.bytes, ih]

/-- What bytes, the most significant first, stand for. -/
def big : List Byte → Nat
  | [] => 0
  | b :: r => b.toNat * 256 ^ r.length + big r

theorem load_swap (l : List Byte) (h : l.length = 1 ∨ l.length = 2 ∨ l.length = 4 ∨ l.length = 8) : swap l.length (load l) = big l := by
  have hb : ∀ b : Byte, b.toNat < 256 := fun b => b.toNat_lt
  rcases h with h | h | h | h
  · obtain ⟨a, rfl⟩ : ∃ a, l = [a] := by
      match l, h with | [a], _ => exact ⟨a, rfl⟩
    simp [swap, load, big]
  · obtain ⟨a, b, rfl⟩ : ∃ a b, l = [a, b] := by
      match l, h with | [a, b], _ => exact ⟨a, b, rfl⟩
    have := hb a; have := hb b
    simp only [swap, load, big, List.length_cons, List.length_nil, htons]
    simp; omega
  · obtain ⟨a, b, c, d, rfl⟩ : ∃ a b c d, l = [a, b, c, d] := by
      match l, h with | [a, b, c, d], _ => exact ⟨a, b, c, d, rfl⟩
    have := hb a; have := hb b; have := hb c; have := hb d
    show htonl (load [a, b, c, d]) = _
    have e : load [a, b, c, d] = a.toNat + 256 * (b.toNat + 256 * (c.toNat + 256 * (d.toNat + 256 * 0))) := rfl
    rw [e, htonl_digits _ _ _ _ _ (hb a) (hb b) (hb c) (hb d)]
    simp only [big, List.length_cons, List.length_nil]
    omega
  · obtain ⟨a, b, c, d, e, f, g, i, rfl⟩ : ∃ a b c d e f g i, l = [a, b, c, d, e, f, g, i] := by
      match l, h with | [a, b, c, d, e, f, g, i], _ => exact ⟨a, b, c, d, e, f, g, i, rfl⟩
    have := hb a; have := hb b; have := hb c; have := hb d
    have := hb e; have := hb f; have := hb g; have := hb i
    have e1 : ∀ n, swap 8 n = htonl n * 2 ^ 32 + htonl (n / 2 ^ 32) := by
      intro n
      have e1 : swap 8 n = htonll n := by simp [swap]
      rw [e1, htonll, or_add _ _ (htonl_lt _), Nat.shiftRight_eq_div_pow]
    show swap 8 (load [a, b, c, d, e, f, g, i]) = _
    have el : load [a, b, c, d, e, f, g, i] = a.toNat + 256 * (b.toNat + 256 * (c.toNat + 256 * (d.toNat + 256 *
      (e.toNat + 256 * (f.toNat + 256 * (g.toNat + 256 * (i.toNat + 256 * 0))))))) := rfl
    rw [e1, el, htonl_upper _ _ _ _ _ (hb a) (hb b) (hb c) (hb d), htonl_digits _ _ _ _ _ (hb a) (hb b) (hb c) (hb d),
      htonl_digits _ _ _ _ _ (hb e) (hb f) (hb g) (hb i)]
    simp only [big, List.length_cons, List.length_nil]
    omega

theorem big_lt (l : List Byte) : big l < 256 ^ l.length := by
  induction l with
  | nil => simp [big]
  | cons b r ih =>
    simp only [big, List.length_cons, Nat.pow_succ]
    have := b.toNat_lt
    have h1 : b.toNat * 256 ^ r.length ≤ 255 * 256 ^ r.length := Nat.mul_le_mul_right _ (by omega)
    omega

theorem bytes_congr (n : Nat) (z y : Int) (h : z % 256 ^ n = y % 256 ^ n) : Spec.Serial.bytes n z = Spec.Serial.bytes n y := by
  induction n with
  | zero => rfl
  | succ n ih =>
    simp only [Spec.Serial.bytes, List.cons.injEq]
    have hp : (0 : Int) < 256 ^ n := Int.pow_pos (by omega)
    constructor
    · have key : ∀ x : Int, x / 256 ^ n % 256 = (x % 256 ^ (n + 1)) / 256 ^ n := by
        intro x
        rw [Int.pow_succ, emod_mul _ _ _ (by omega), Int.add_mul_ediv_left _ _ (by omega), Int.ediv_eq_zero_of_lt (Int.emod_nonneg _ (by omega)) (Int.emod_lt_of_pos _ hp)]
        omega
      have e : z / 256 ^ n % 256 = y / 256 ^ n % 256 := by rw [key, key, h]
      rw [e]
    · apply ih
      have := congrArg (· % (256 : Int) ^ n) h
      simp only [Int.pow_succ] at this
      rwa [Int.emod_emod_of_dvd _ (Int.dvd_mul_right _ _), Int.emod_emod_of_dvd _ (Int.dvd_mul_right _ _)] at this

theorem swap_big (l : List Byte) (h : l.length = 1 ∨ l.length = 2 ∨ l.length = 4 ∨ l.length = 8) : swap l.length (big l) = load l := by
  have hb : ∀ b : Byte, b.toNat < 256 := fun b => b.toNat_lt
  rcases h with h | h | h | h
  · obtain ⟨a, rfl⟩ : ∃ a, l = [a] := by
      match l, h with | [a], _ => exact ⟨a, rfl⟩
    simp [swap, load, big]
  · obtain ⟨a, b, rfl⟩ : ∃ a b, l = [a, b] := by
      match l, h with | [a, b], _ => exact ⟨a, b, rfl⟩
    have := hb a; have := hb b
    simp only [swap, load, big, List.length_cons, List.length_nil, htons]
    simp; omega
  · obtain ⟨a, b, c, d, rfl⟩ : ∃ a b c d, l = [a, b, c, d] := by
      match l, h with | [a, b, c, d], _ => exact ⟨a, b, c, d, rfl⟩
    have := hb a; have := hb b; have := hb c; have := hb d
    show htonl (big [a, b, c, d]) = _
    have e : big [a, b, c, d] = d.toNat + 256 * (c.toNat + 256 * (b.toNat + 256 * (a.toNat + 256 * 0))) := by
      simp only [big, List.length_cons, List.length_nil]; omega
    rw [e, htonl_digits _ _ _ _ _ (hb d) (hb c) (hb b) (hb a)]
    simp only [load]
    omega
  · obtain ⟨a, b, c, d, e, f, g, i, rfl⟩ : ∃ a b c d e f g i, l = [a, b, c, d, e, f, g, i] := by
      match l, h with | [a, b, c, d, e, f, g, i], _ => exact ⟨a, b, c, d, e, f, g, i, rfl⟩
    have := hb a; have := hb b; have := hb c; have := hb d
    have := hb e; have := hb f; have := hb g; have := hb i
    have e1 : ∀ n, swap 8 n = htonl n * 2 ^ 32 + htonl (n / 2 ^ 32) := by
      intro n
      have e1 : swap 8 n = htonll n := by simp [swap]
      rw [e1, htonll, or_add _ _ (htonl_lt _), Nat.shiftRight_eq_div_pow]
    show swap 8 (big [a, b, c, d, e, f, g, i]) = _
    have el : big [a, b, c, d, e, f, g, i] = i.toNat + 256 * (g.toNat + 256 * (f.toNat + 256 * (e.toNat + 256 *
      (d.toNat + 256 * (c.toNat + 256 * (b.toNat + 256 * (a.toNat + 256 * 0))))))) := by
      simp only [big, List.length_cons, List.length_nil]; omega
    rw [e1, el, htonl_upper _ _ _ _ _ (hb i) (hb g) (hb f) (hb e), htonl_digits _ _ _ _ _ (hb i) (hb g) (hb f) (hb e),
      htonl_digits _ _ _ _ _ (hb d) (hb c) (hb b) (hb a)]
    simp only [load]
    omega

theorem mem_load (l : List Byte) : mem l.length (load l) = l := by
  induction l with
  | nil => rfl
  | cons b r ih =>
    simp only [List.length_cons, mem, load]
    have h1 : (b.toNat + 256 * load r) / 256 = load r := by have := b.toNat_lt; omega
    rw [h1, ih]
    congr 1
    apply UInt8.toNat_inj.mp
    rw [UInt8.toNat_ofNat']
    have := b.toNat_lt
    omega

theorem big_bytes (n : Nat) (z : Int) : (big (Spec.Serial.bytes n z) : Int) = z % 256 ^ n := by
  induction n with
  | zero => simp [big, Spec.Serial.bytes, Int.emod_one]
  | succ n ih =>
    simp only [big, Spec.Serial.bytes, bytes_length, UInt8.toNat_ofNat']
    have h1 : (((z / 256 ^ n % 256).toNat % 2 ^ 8 : Nat) : Int) = z / 256 ^ n % 256 := by omega
    rw [Int.natCast_add, Int.natCast_mul, h1, ih, Int.pow_succ, emod_mul _ _ _ (Int.le_of_lt (Int.pow_pos (by omega))), Int.natCast_pow, Int.mul_comm]
    rw [Int.add_comm]; rfl

theorem bytes_big (l : List Byte) : Spec.Serial.bytes l.length (big l) = l := by
  induction l with
  | nil => rfl
  | cons b r ih =>
    simp only [List.length_cons, Spec.Serial.bytes, big]
    have hp : (0 : Int) < 256 ^ r.length := Int.pow_pos (by omega)
    have hlt := big_lt r
    have hlt' : (big r : Int) < 256 ^ r.length := by
      have := Int.ofNat_lt.mpr hlt
      simpa using this
    have e : ((b.toNat * 256 ^ r.length + big r : Nat) : Int) = (b.toNat : Int) * 256 ^ r.length + big r := by
      simp
    rw [e]
    congr 1
    · have : ((b.toNat : Int) * 256 ^ r.length + big r) / 256 ^ r.length = b.toNat := by
        rw [Int.add_comm, Int.add_mul_ediv_right _ _ (by omega), Int.ediv_eq_zero_of_lt (by omega) hlt']
        omega
      rw [this]
      apply UInt8.toNat_inj.mp
      rw [UInt8.toNat_ofNat']
      have := b.toNat_lt
      omega
    · rw [bytes_congr r.length _ (big r) (by rw [Int.add_comm, Int.add_mul_emod_self_right])]
      exact ih

theorem pow256 (w : Nat) : (2 : Int) ^ (8 * w) = 256 ^ w := by
  rw [Int.pow_mul]; rfl

/-- The memory after swapping is the bytes, the most significant first. -/
theorem mem_swap (w : Nat) (h : w = 1 ∨ w = 2 ∨ w = 4 ∨ w = 8) (z : Int) : mem w (swap w (trunc w z)) = Spec.Serial.bytes w z := by
  have e : trunc w z = big (Spec.Serial.bytes w z) := by
    have := big_bytes w z
    unfold trunc
    rw [pow256]; omega
  have hl := bytes_length w z
  have := swap_big (Spec.Serial.bytes w z) (by rw [hl]; exact h)
  rw [hl] at this
  rw [e, this]
  have := mem_load (Spec.Serial.bytes w z)
  rwa [hl] at this

theorem scalar_eq (t : Ty) (ht : t.Ok) (z : Int) : scalar t z = Spec.Serial.bytes t.size z := by
  cases t with
  | int n s => exact mem_swap n ht z
  | bool => exact mem_swap 1 (Or.inl rfl) z

theorem unscalar_eq (t : Ty) (ht : t.Ok) (b : List Byte) (h : t.size ≤ b.length) :
    unscalar t b = (convert t (big (b.take t.size)), b.drop t.size) := by
  have hl : (b.take t.size).length = t.size := by simp; omega
  have hs : (b.take t.size).length = 1 ∨ (b.take t.size).length = 2 ∨ (b.take t.size).length = 4 ∨ (b.take t.size).length = 8 := by
    rw [hl]
    cases t with
    | int n s => exact ht
    | bool => exact Or.inl rfl
  have := load_swap _ hs
  rw [hl] at this
  unfold unscalar
  rw [if_neg (by omega), this]

theorem convert_fits (t : Ty) (ht : t.Ok) (z : Int) (hz : t.Fits z) : convert t (big (Spec.Serial.bytes t.size z)) = z := by
  have hb := big_bytes t.size z
  cases t with
  | bool =>
    simp only [Ty.size] at hb ⊢
    unfold convert
    simp only
    rcases hz with rfl | rfl
    · rw [if_pos (by omega)]
    · rw [if_neg (by omega)]
  | int n s =>
    simp only [Ty.size] at hb ⊢
    have hn : 0 < n := by rcases ht with h | h | h | h <;> omega
    have hp : (256 : Int) ^ n = 2 * 2 ^ (8 * n - 1) := by
      rw [← pow256, ← Int.pow_succ']; congr 1; omega
    have hpos : (0 : Int) < 2 ^ (8 * n - 1) := Int.pow_pos (by omega)
    have hnat : ((2 ^ (8 * n - 1) : Nat) : Int) = 2 ^ (8 * n - 1) := by simp
    cases s with
    | false =>
      simp only [convert, Ty.Fits] at hz ⊢
      rw [hb, ← pow256]
      exact Int.emod_eq_of_lt hz.1 hz.2
    | true =>
      simp only [convert, Ty.Fits] at hz ⊢
      by_cases h0 : 0 ≤ z
      · rw [Int.emod_eq_of_lt h0 (by omega)] at hb
        rw [if_pos (by omega)]; exact hb
      · have e : z % 256 ^ n = z + 256 ^ n := by
          rw [← Int.add_emod_right, Int.emod_eq_of_lt (by omega) (by omega)]
        rw [e] at hb
        rw [if_neg (by omega), hb, pow256]; omega

theorem roundtrip (t : Ty) (ht : t.Ok) (z : Int) (hz : t.Fits z) (rest : List Byte) : unscalar t (scalar t z ++ rest) = (z, rest) := by
  have hl := bytes_length t.size z
  rw [scalar_eq t ht, unscalar_eq t ht _ (by simp [hl]), List.take_left' hl, List.drop_left' hl, convert_fits t ht z hz]

theorem strchr0_terminated (s rest : List Byte) (h : (0 : Byte) ∉ s) : strchr0 (s ++ 0 :: rest) = s.length + 1 := by
  have e : (s ++ 0 :: rest).takeWhile (· ≠ (0 : Byte)) = s := by
    rw [List.takeWhile_append_of_pos (by intro a ha; simp; intro e; exact h (e ▸ ha))]
    simp
  rw [strchr0, if_pos (by simp), e]

theorem unstring_terminated (linked : Bool) (s rest : List Byte) (h : (0 : Byte) ∉ s) (hl : s.length + 1 < 2 ^ 32) :
    unstring linked (s ++ 0 :: rest) = some (some s, rest) := by
  unfold unstring
  rw [strchr0_terminated s rest h, Nat.mod_eq_of_lt hl]
  dsimp only
  rw [if_neg (by simp), if_neg (by omega)]
  have e1 : (s ++ 0 :: rest).take (s.length + 1) = s ++ [0] := by
    have : s ++ 0 :: rest = (s ++ [0]) ++ rest := by simp
    rw [this, List.take_left' (by simp)]
  have e2 : (s ++ 0 :: rest).drop (s.length + 1) = rest := by
    have : s ++ 0 :: rest = (s ++ [0]) ++ rest := by simp
    rw [this, List.drop_left' (by simp)]
  rw [e1, e2]
  have e : (s ++ [0]).takeWhile (· ≠ (0 : Byte)) = s := by
    rw [List.takeWhile_append_of_pos (by intro a ha; simp; intro e; exact h (e ▸ ha))]
    simp
  rw [e]

theorem item_eq (x : Item) (e : Elem) (h : x.Is e) : item x e = x.bytes e := by
  cases x <;> cases e <;> simp only [Item.Is] at h
  · exact scalar_eq _ h.1 _
  · rfl

theorem unitem_item (linked : Bool) (x : Item) (e : Elem) (h : x.Is e) (rest : List Byte) :
    unitem linked e (item x e ++ rest) = some (x, rest) := by
  cases x <;> cases e <;> simp only [Item.Is] at h
  · simp only [item, unitem, roundtrip _ h.1 _ h.2]
  · simp only [item, unitem, string, Option.getD_some, List.append_assoc, List.cons_append, List.nil_append,
      unstring_terminated linked _ rest h.1 h.2, Option.map_some]

theorem unitems_items (linked : Bool) (e : Elem) (l : List Item) (h : ∀ x ∈ l, x.Is e) (rest : List Byte) :
    unitems linked e l.length ((l.map fun x => item x e).flatten ++ rest) = some (l, rest) := by
  induction l with
  | nil => rfl
  | cons x l ih =>
    simp only [List.length_cons, List.map_cons, List.flatten_cons, unitems, List.append_assoc]
    rw [unitem_item linked x e (h x (by simp))]
    simp only [Option.bind_some]
    rw [ih (fun y hy => h y (by simp [hy]))]
    rfl

theorem size_fits (n : Nat) (h : n < 2 ^ 64) : size_t.Ok ∧ size_t.Fits n := by
  refine ⟨by simp [size_t, Ty.Ok], ?_⟩
  simp only [size_t, Ty.Fits]; omega

theorem unval_val (linked : Bool) (v : Val) (k : Kind) (h : v.Is k) (rest : List Byte) :
    unval linked k (val v k ++ rest) = some (v, rest) := by
  cases v <;> cases k <;> simp only [Val.Is] at h
  · simp only [val, unval, unitem_item linked _ _ h, Option.map_some]
  · rename_i l e
    have hs := size_fits _ h.2
    simp only [val, unval, List.append_assoc, roundtrip size_t hs.1 _ hs.2, Int.toNat_natCast, unitems_items linked e l h.1, Option.map_some]
  · rename_i b
    have hs := size_fits _ h
    simp only [val, unval, List.append_assoc, roundtrip size_t hs.1 _ hs.2, Int.toNat_natCast]
    rw [if_neg (by simp)]
    simp

end Ser
open Ser

/-- C40: an integer is written as its bytes in two's complement, the most significant first. -/
theorem C40_scalar_bytes (t : Ty) (ht : t.Ok) (z : Int) : scalar t z = Spec.Serial.bytes t.size z := scalar_eq t ht z

/-- C40: an integer is read back, whatever follows it stays. -/
theorem C40_scalar (t : Ty) (ht : t.Ok) (z : Int) (hz : t.Fits z) (rest : List Byte) : unscalar t (scalar t z ++ rest) = (z, rest) :=
  roundtrip t ht z hz rest

/-- C40: from too few bytes an integer is read as 0, and nothing is taken. -/
theorem C40_truncated (t : Ty) (b : List Byte) (h : b.length < t.size) : unscalar t b = (0, b) := by
  unfold unscalar; rw [if_pos h]

/-- C40: from enough bytes, exactly those of the type are taken, and what is read is a value of the type with these bytes (all
    bytes but 0 are true for `bool`). -/
theorem C40_scalar_read (t : Ty) (ht : t.Ok) (b : List Byte) (h : t.size ≤ b.length) :
    ∃ z, unscalar t b = (z, b.drop t.size) ∧ t.Fits z ∧
      (t ≠ .bool → Spec.Serial.bytes t.size z = b.take t.size) ∧ (t = .bool → (z = 0 ↔ b.take 1 = [0])) := by
  refine ⟨_, unscalar_eq t ht b h, ?_⟩
  have hl : (b.take t.size).length = t.size := by simp; omega
  have hlt := big_lt (b.take t.size)
  have hbb := bytes_big (b.take t.size)
  rw [hl] at hlt hbb
  cases t with
  | bool =>
    refine ⟨?_, by simp, ?_⟩
    · simp only [Wv.Serialize.convert, Ty.Fits]; split <;> simp
    · intro _
      simp only [Ty.size] at hl ⊢
      obtain ⟨a, ha⟩ := List.length_eq_one_iff.mp hl
      rw [ha]
      simp only [Wv.Serialize.convert, big, List.length_nil, Nat.pow_zero, Nat.mul_one, Nat.add_zero, List.cons.injEq, and_true]
      have : a.toNat = 0 ↔ a = 0 := by
        constructor
        · intro e; exact UInt8.toNat_inj.mp (by simpa using e)
        · rintro rfl; rfl
      rw [← this]
      split
      · simp [*]
      · rename_i h1; simp [h1]
  | int n s =>
    simp only [Ty.size] at *
    have hn : 0 < n := by rcases ht with h | h | h | h <;> omega
    have hp : (256 : Int) ^ n = 2 * 2 ^ (8 * n - 1) := by
      rw [← pow256, ← Int.pow_succ']; congr 1; omega
    have hpos : (0 : Int) < 2 ^ (8 * n - 1) := Int.pow_pos (by omega)
    have hnat : ((2 ^ (8 * n - 1) : Nat) : Int) = 2 ^ (8 * n - 1) := by simp
    have hlt' : (big (b.take n) : Int) < 256 ^ n := by
      have := Int.ofNat_lt.mpr hlt
      simpa using this
    cases s with
    | false =>
      refine ⟨?_, ?_, by simp⟩
      · simp only [Wv.Serialize.convert, Ty.Fits]
        rw [pow256]; omega
      · intro _; exact hbb
    | true =>
      simp only [Wv.Serialize.convert, Ty.Fits]
      by_cases hc : big (b.take n) < 2 ^ (8 * n - 1)
      · rw [if_pos hc]
        refine ⟨by omega, fun _ => hbb, by simp⟩
      · rw [if_neg hc, pow256]
        refine ⟨by omega, ?_, by simp⟩
        intro _
        rw [bytes_congr n _ (big (b.take n))]
        · exact hbb
        · rw [Int.sub_emod_right]

/-- C40: a string is written followed by a NUL and read back, whatever follows it stays. What is missing: null strings and those of 4 GB
    or more (`C40_null_fails`, `C40_long_fails`). -/
theorem C40_string_partial (linked : Bool) (s : List Byte) (h : (0 : Byte) ∉ s) (hl : s.length + 1 < 2 ^ 32) (rest : List Byte) :
    string (some s) = s ++ [0] ∧ unstring linked (string (some s) ++ rest) = some (some s, rest) := by
  refine ⟨rfl, ?_⟩
  have := unstring_terminated linked s rest h hl
  simpa [Wv.Serialize.string] using this

/-- C40: several values written one after the other are read back in order, whatever follows them stays. What is missing is what is
    missing for strings. -/
theorem C40_values_partial (linked : Bool) (l : List (Val × Kind)) (h : ∀ x ∈ l, x.1.Is x.2) (rest : List Byte) :
    unvals linked (l.map (·.2)) (vals l ++ rest) = some (l.map (·.1), rest) := by
  induction l with
  | nil => rfl
  | cons x l ih =>
    have e : vals (x :: l) ++ rest = val x.1 x.2 ++ (vals l ++ rest) := by simp [vals]
    rw [e]
    simp only [List.map_cons, unvals]
    rw [unval_val linked x.1 x.2 (h x (by simp))]
    simp only [Option.bind_some]
    rw [ih (fun y hy => h y (by simp [hy]))]
    rfl

/-- C40: the bytes of a value are those of the format. -/
theorem C40_format (v : Val) (k : Kind) (h : v.Is k) : val v k = v.bytes k := by
  cases v <;> cases k <;> simp only [Val.Is] at h
  · exact item_eq _ _ h
  · rename_i l e
    have hs := size_fits _ h.2
    simp only [val, Val.bytes]
    rw [scalar_eq _ hs.1]
    congr 2
    apply List.map_congr_left
    intro x hx
    exact item_eq x e (h.1 x hx)
  · rename_i b
    have hs := size_fits _ h
    simp only [val, Val.bytes]
    rw [scalar_eq _ hs.1]; rfl

/-- C40: different values of the same kinds are written differently. -/
theorem C40_injective (l m : List (Val × Kind)) (hl : ∀ x ∈ l, x.1.Is x.2) (hm : ∀ x ∈ m, x.1.Is x.2)
    (hk : l.map (·.2) = m.map (·.2)) (h : vals l = vals m) : l = m := by
  have h1 := C40_values_partial true l hl []
  have h2 := C40_values_partial true m hm []
  rw [hk, h, h2] at h1
  simp only [Option.some.injEq, Prod.mk.injEq, and_true] at h1
  have : ∀ (l m : List (Val × Kind)), l.map (·.2) = m.map (·.2) → m.map (·.1) = l.map (·.1) → l = m := by
    intro l
    induction l with
    | nil => intro m h _; cases m <;> simp_all
    | cons a l ih =>
      intro m h1 h2
      cases m with
      | nil => simp at h1
      | cons b m =>
        simp only [List.map_cons, List.cons.injEq] at h1 h2
        rw [ih m h1.2 h2.2, Prod.ext h2.1.symm h1.1]
  exact this l m hk h1

/-- A list of strings, a negative number, a buffer and a list of numbers meet the hypotheses. -/
example : ∀ x ∈ ([(.list [.text (str ['a', 'b']), .text []], .list .string), (.item (.int (-7)), .elem (.scalar (.int 4 true))),
    (.buffer [1, 0, 2], .buffer), (.list [.int 65535, .int 0], .list (.scalar (.int 2 false)))] : List (Val × Kind)), x.1.Is x.2 := by
  simp [Val.Is, Item.Is, Ty.Ok, Ty.Fits]
  decide

example : scalar (.int 4 true) (-7) = [255, 255, 255, 249] := by decide +kernel

/-! ### What does not hold -/

/-- A null string is read back as an empty one. -/
theorem C40_null_fails : ¬ ∀ (linked : Bool) (s : Option (List Byte)), (∀ t, s = some t → (0 : Byte) ∉ t ∧ t.length + 1 < 2 ^ 32) →
    unstring linked (string s) = some (s, []) := by
  intro h
  have := h true none (by simp)
  revert this; decide +kernel

/-- A string without its NUL, as when data was cut off, is read beyond the end of the buffer if the buffer is not a dynamic one. -/
theorem C40_unterminated_fails : ¬ ∀ (linked : Bool) (b : List Byte), (unstring linked b).isSome = true := by
  intro h
  have := h false (str ['a'])
  revert this; decide +kernel

/-- With a dynamic buffer, it is read as null, and nothing is taken. -/
theorem C40_unterminated (b : List Byte) (h : (0 : Byte) ∉ b) : unstring true b = some (none, b) := by
  unfold Wv.Serialize.unstring Wv.Serialize.strchr0
  rw [if_neg h]; simp

/-- A string of 4 GB is not read back: its length has 32 bits. -/
theorem C40_long_fails : ¬ ∀ (s : List Byte), (0 : Byte) ∉ s → unstring true (string (some s)) = some (some s, []) := by
  intro h
  obtain ⟨n, hn⟩ : ∃ n : Nat, n + 1 = 2 ^ 32 := ⟨2 ^ 32 - 1, by omega⟩
  have h0 : (0 : Byte) ∉ List.replicate n (1 : Byte) := by
    intro hm
    have := List.eq_of_mem_replicate hm
    revert this; decide
  have h1 := h (List.replicate n 1) h0
  have h2 := strchr0_terminated (List.replicate n 1) [] h0
  rw [List.length_replicate, hn] at h2
  unfold Wv.Serialize.unstring Wv.Serialize.string at h1
  rw [Option.getD_some, h2, Nat.mod_self] at h1
  simp at h1

/-- A buffer cut off, or whose length is damaged, ends the program. -/
theorem C40_buffer_fails : ¬ ∀ (linked : Bool) (b : List Byte), (unval linked .buffer b).isSome = true := by
  intro h
  have := h true [0, 0, 0, 0, 0, 0, 0, 1]
  revert this; decide +kernel

end Props
