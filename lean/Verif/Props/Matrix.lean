import Verif.Model.Matrix
import Verif.Spec.Matrix
/- C112: matrices. -/
namespace Props
open Wv.Matrix Spec.Matrix

/-- The object is the matrix of `m` rows and `n` columns with these entries: that is what reading them gives. -/
def Shows (a : Mat) (m n : Nat) (f : Nat → Nat → Int) : Prop :=
  a.m = m ∧ a.n = n ∧ ∀ i j, i < m → j < n → a.get i j = some (f i j)

namespace MxP

theorem idx_lt {m n i j : Nat} (hi : i < m) (hj : j < n) : n * i + j < m * n := by
  have : n * (i + 1) ≤ n * m := Nat.mul_le_mul_left n hi
  rw [Nat.mul_add, Nat.mul_one, Nat.mul_comm n m] at this
  omega

theorem idx_div {n i j : Nat} (hj : j < n) : (n * i + j) / n = i ∧ (n * i + j) % n = j := by
  have hn : 0 < n := by omega
  constructor
  · rw [Nat.mul_add_div hn, Nat.div_eq_of_lt hj, Nat.add_zero]
  · rw [Nat.mul_add_mod, Nat.mod_eq_of_lt hj]

theorem idx_of {m n k : Nat} (h : k < m * n) : k / n < m ∧ k % n < n ∧ n * (k / n) + k % n = k := by
  have hn : 0 < n := by
    rcases Nat.eq_zero_or_pos n with e | e
    · subst e; omega
    · exact e
  exact ⟨Nat.div_lt_of_lt_mul (by rwa [Nat.mul_comm]), Nat.mod_lt _ hn, Nat.div_add_mod k n⟩

theorem int_ok (x : Int) (h : Fits x) : int x = some x := by unfold int; exact if_pos h

/-- The memory of a matrix that shows its entries is large enough. -/
theorem shows_len {a : Mat} {m n f} (h : Shows a m n f) : m * n ≤ a.data.length := by
  rcases Nat.eq_zero_or_pos (m * n) with e | e
  · omega
  · obtain ⟨h1, h2, h3⟩ := idx_of (m := m) (n := n) (k := m * n - 1) (by omega)
    have := h.2.2 _ _ h1 h2
    unfold Mat.get at this
    rw [h.2.1, h3] at this
    obtain ⟨hl, _⟩ := List.getElem?_eq_some_iff.1 this
    omega

theorem shows_idx {a : Mat} {m n f} (h : Shows a m n f) (k : Nat) (hk : k < m * n) : a.data[k]? = some (f (k / n) (k % n)) := by
  obtain ⟨h1, h2, h3⟩ := idx_of hk
  have := h.2.2 _ _ h1 h2
  unfold Mat.get at this
  rwa [h.2.1, h3] at this

theorem memcpy_ok (size k : Nat) (src : List Int) (h1 : k ≤ size) (h2 : k ≤ src.length) :
    ∃ d, memcpy size k src = some d ∧ d.length = size ∧ ∀ i < k, d[i]? = src[i]? := by
  refine ⟨_, by unfold memcpy; rw [if_pos ⟨h1, h2⟩], ?_, ?_⟩
  · simp; omega
  · intro i hi
    rw [List.getElem?_append_left (by simp; omega), List.getElem?_take, if_pos hi]

theorem shows_of {m n : Nat} {d : List Int} {f : Nat → Nat → Int} (h : ∀ k, k < m * n → d[k]? = some (f (k / n) (k % n))) : Shows ⟨m, n, d⟩ m n f := by
  refine ⟨rfl, rfl, ?_⟩
  intro i j hi hj
  unfold Mat.get
  rw [h _ (idx_lt hi hj), (idx_div hj).1, (idx_div hj).2]

theorem copy_ok {b : Mat} {m n f} (h : Shows b m n f) : ∃ r, copy b = some r ∧ Shows r m n f ∧ r.data.length = m * n := by
  have hl := shows_len h
  have hk := shows_idx h
  obtain ⟨rfl, rfl, _⟩ := h
  obtain ⟨d, hd, hlen, hget⟩ := memcpy_ok (b.m * b.n) (b.m * b.n) b.data (Nat.le_refl _) hl
  refine ⟨⟨b.m, b.n, d⟩, by unfold copy; rw [hd]; rfl, ?_, hlen⟩
  exact shows_of fun k h => by rw [hget k h, hk k h]

end MxP

/-- C112: a matrix made from an array that is long enough has its entries row by row; one made without has zeros. -/
theorem C112_make (m n : Nat) (l : List Int) (h : m * n ≤ l.length) :
    (∃ a, make m n (some l) = some a ∧ Shows a m n fun i j => l.getD (n * i + j) 0) ∧ (∃ a, make m n none = some a ∧ Shows a m n fun _ _ => 0) := by
  unfold make
  by_cases h0 : m = 0 ∨ n = 0
  · have : m * n = 0 := by rcases h0 with e | e <;> subst e <;> omega
    rw [if_pos h0, if_pos h0]
    exact ⟨⟨_, rfl, MxP.shows_of fun k hk => by omega⟩, ⟨_, rfl, MxP.shows_of fun k hk => by omega⟩⟩
  · rw [if_neg h0, if_neg h0]
    constructor
    · obtain ⟨d, hd, _, hget⟩ := MxP.memcpy_ok (m * n) (m * n) l (Nat.le_refl _) h
      refine ⟨⟨m, n, d⟩, by dsimp only; rw [hd]; rfl, MxP.shows_of fun k hk => ?_⟩
      rw [hget k hk, (MxP.idx_of hk).2.2, List.getD_eq_getElem?_getD, List.getElem?_eq_getElem (by omega)]
      rfl
    · refine ⟨_, rfl, MxP.shows_of fun k hk => ?_⟩
      rw [List.getElem?_replicate, if_pos hk]

/-- C112: there are no other rows. Reading or writing them is undefined: it is outside of the array. -/
theorem C112_outside (a : Mat) (hl : a.data.length = a.m * a.n) (i j : Nat) (hi : a.m ≤ i) : a.get i j = none ∧ ∀ v, a.put i j v = none := by
  have h1 : a.data.length ≤ a.n * i + j := by
    rw [hl, Nat.mul_comm]
    exact Nat.le_trans (Nat.mul_le_mul_left _ hi) (Nat.le_add_right _ _)
  refine ⟨List.getElem?_eq_none h1, fun v => ?_⟩
  unfold Mat.put
  rw [if_neg (by omega)]

/-- C112: an entry that is written is read as it was written, and the others are as before. -/
theorem C112_write (a : Mat) (m n : Nat) (f : Nat → Nat → Int) (h : Shows a m n f) (i j : Nat) (hi : i < m) (hj : j < n) (v : Int) :
    ∃ r, a.put i j v = some r ∧ Shows r m n fun i' j' => if i' = i ∧ j' = j then v else f i' j' := by
  have hl := MxP.shows_len h
  have hk := MxP.shows_idx h
  have hx := MxP.idx_lt hi hj
  obtain ⟨rfl, rfl, _⟩ := h
  refine ⟨_, by unfold Mat.put; rw [if_pos (by omega)], MxP.shows_of fun k hk' => ?_⟩
  rw [List.getElem?_set]
  by_cases he : a.n * i + j = k
  · subst he
    rw [if_pos rfl, if_pos (by omega), if_pos (MxP.idx_div hj)]
  · rw [if_neg he, hk k hk', if_neg]
    intro hc
    have := (MxP.idx_of hk').2.2
    rw [hc.1, hc.2] at this
    exact he this

/-- C112: a copy has the same entries. -/
theorem C112_copy (b : Mat) (m n : Nat) (f : Nat → Nat → Int) (h : Shows b m n f) : ∃ r, copy b = some r ∧ Shows r m n f := by
  obtain ⟨r, h1, h2, _⟩ := MxP.copy_ok h
  exact ⟨r, h1, h2⟩

/-- C112 (partial): so has a matrix to which another one of the same or a smaller number of entries is assigned. -/
theorem C112_assign_partial (a b : Mat) (m n : Nat) (f : Nat → Nat → Int) (h : Shows b m n f) (hs : m * n ≤ a.m * a.n) :
    ∃ r, assign a b = some r ∧ Shows r m n f := by
  have hl := MxP.shows_len h
  have hk := MxP.shows_idx h
  obtain ⟨rfl, rfl, _⟩ := h
  obtain ⟨d, hd, _, hget⟩ := MxP.memcpy_ok (a.m * a.n) (b.m * b.n) b.data hs hl
  refine ⟨⟨b.m, b.n, d⟩, by unfold assign; rw [hd]; rfl, MxP.shows_of fun k h => ?_⟩
  rw [hget k h, hk k h]

/-- C112 fails: assigning a larger matrix writes behind the memory. -/
theorem C112_assign_fails : ¬ ∀ (a b : Mat) (m n : Nat) (f : Nat → Nat → Int), Shows b m n f → assign a b ≠ none := by
  intro h
  exact h ⟨1, 1, [5]⟩ ⟨1, 2, [6, 7]⟩ 1 2 (fun _ j => 6 + j) ⟨rfl, rfl, by
    intro i j hi hj
    have : i = 0 := by omega
    subst this
    have : j = 0 ∨ j = 1 := by omega
    rcases this with rfl | rfl <;> rfl⟩ (by decide)

/-- C112 fails: assigning a matrix to itself reads memory that was freed. -/
theorem C112_self_fails : assignSelf ⟨1, 2, [6, 7]⟩ = none := by decide

namespace MxP

theorem add_loop (a : Mat) (m n : Nat) (f g : Nat → Nat → Int) (ha : Shows a m n f) (hf : ∀ i j, i < m → j < n → Fits (g i j + f i j)) (r : Mat)
    (hr : Shows r m n g) (k : Nat) (hk : k ≤ m * n) :
    ∃ d, (List.range k).foldlM (addAt a) r = some ⟨m, n, d⟩ ∧ d.length = r.data.length ∧
      ∀ x, x < m * n → d[x]? = some (if x < k then g (x / n) (x % n) + f (x / n) (x % n) else g (x / n) (x % n)) := by
  induction k with
  | zero =>
    refine ⟨r.data, ?_, rfl, ?_⟩
    · obtain ⟨rfl, rfl, _⟩ := hr; rfl
    · intro x hx
      rw [shows_idx hr x hx, if_neg (by omega)]
  | succ k ih =>
    obtain ⟨d, h1, h2, h3⟩ := ih (by omega)
    have hl := shows_len hr
    have hx := h3 k (by omega)
    rw [if_neg (by omega)] at hx
    have hi := idx_of (show k < m * n by omega)
    refine ⟨d.set k (g (k / n) (k % n) + f (k / n) (k % n)), ?_, by simpa using h2, ?_⟩
    · rw [List.range_succ, List.foldlM_append, h1]
      show (List.foldlM (addAt a) ⟨m, n, d⟩ [k]) = _
      rw [List.foldlM_cons]
      have : addAt a ⟨m, n, d⟩ k = some ⟨m, n, d.set k (g (k / n) (k % n) + f (k / n) (k % n))⟩ := by
        unfold addAt
        dsimp only
        rw [hx, shows_idx ha k (by omega)]
        dsimp only
        rw [int_ok _ (hf _ _ hi.1 hi.2.1)]
        rfl
      rw [this]; rfl
    · intro x hx'
      rw [List.getElem?_set]
      by_cases e : k = x
      · subst e
        rw [if_pos rfl, if_pos (by omega), if_pos (by omega)]
      · rw [if_neg e, h3 x hx']
        by_cases l : x < k
        · rw [if_pos l, if_pos (by omega)]
        · rw [if_neg l, if_neg (by omega)]

end MxP

/-- C112: the sum of two matrices of the same size has the sums as its entries, if an `int` can hold them. -/
theorem C112_sum (a b : Mat) (m n : Nat) (f g : Nat → Nat → Int) (ha : Shows a m n f) (hb : Shows b m n g)
    (h : ∀ i j, i < m → j < n → Fits (f i j + g i j)) : ∃ r, add a b = some r ∧ Shows r m n fun i j => f i j + g i j := by
  obtain ⟨r, h1, h2, _⟩ := MxP.copy_ok hb
  obtain ⟨d, h3, _, h5⟩ := MxP.add_loop a m n f g ha (fun i j hi hj => by rw [Int.add_comm]; exact h i j hi hj) r h2 (m * n) (Nat.le_refl _)
  refine ⟨⟨m, n, d⟩, ?_, MxP.shows_of fun k hk => ?_⟩
  · unfold add
    rw [h1]
    show (if a.m ≠ b.m ∨ a.n ≠ b.n then some r else _) = _
    rw [if_neg (by rw [ha.1, ha.2.1, hb.1, hb.2.1]; simp), ha.1, ha.2.1]
    exact h3
  · rw [h5 k hk, if_pos hk, Int.add_comm]

/-- C112: the "sum" of two matrices of different sizes is the second one. -/
theorem C112_sum_sizes (a b : Mat) (m n : Nat) (g : Nat → Nat → Int) (hb : Shows b m n g) (h : a.m ≠ m ∨ a.n ≠ n) :
    ∃ r, add a b = some r ∧ Shows r m n g := by
  obtain ⟨r, h1, h2, _⟩ := MxP.copy_ok hb
  refine ⟨r, ?_, h2⟩
  unfold add
  rw [h1]
  show (if a.m ≠ b.m ∨ a.n ≠ b.n then some r else _) = _
  rw [if_pos (by rw [hb.1, hb.2.1]; exact h)]

namespace MxP

theorem dot_loop (a b : Mat) (m n p : Nat) (f g : Nat → Nat → Int) (ha : Shows a m n f) (hb : Shows b n p g) (i j : Nat) (hi : i < m) (hj : j < p)
    (h : ∀ k < n, Fits (f i k * g k j) ∧ Fits (dot f g i j (k + 1))) (k : Nat) (hk : k ≤ n) :
    (List.range k).foldlM (mulAt a b i j) 0 = some (dot f g i j k) := by
  induction k with
  | zero => rfl
  | succ k ih =>
    rw [List.range_succ, List.foldlM_append, ih (by omega)]
    show List.foldlM (mulAt a b i j) (dot f g i j k) [k] = _
    rw [List.foldlM_cons]
    have : mulAt a b i j (dot f g i j k) k = some (dot f g i j (k + 1)) := by
      unfold mulAt
      rw [ha.2.2 i k hi (by omega), hb.2.2 k j (by omega) hj]
      dsimp only
      rw [int_ok _ (h k (by omega)).1]
      exact int_ok _ (h k (by omega)).2
    rw [this]; rfl

/-- Some of the entries are computed, the others are zero. -/
theorem row_loop (a b : Mat) (m n p : Nat) (f g : Nat → Nat → Int) (ha : Shows a m n f) (hb : Shows b n p g) (i : Nat) (hi : i < m)
    (h : ∀ j < p, ∀ k < n, Fits (f i k * g k j) ∧ Fits (dot f g i j (k + 1))) (r : Mat) (e : Nat → Nat → Int) (hr : Shows r m p e) (q : Nat) (hq : q ≤ p) :
    ∃ r', (List.range q).foldlM (fun r j => cell a b i j r) r = some r' ∧
      Shows r' m p fun i' j' => if i' = i ∧ j' < q then dot f g i j' n else e i' j' := by
  induction q with
  | zero =>
    refine ⟨r, rfl, ?_⟩
    have : (fun i' j' => if i' = i ∧ j' < 0 then dot f g i j' n else e i' j') = e := by
      funext i' j'; rw [if_neg (by omega)]
    rw [this]; exact hr
  | succ q ih =>
    obtain ⟨r', h1, h2⟩ := ih (by omega)
    obtain ⟨r'', h3, h4⟩ := C112_write r' m p _ h2 i q hi (by omega) (dot f g i q n)
    refine ⟨r'', ?_, ?_⟩
    · rw [List.range_succ, List.foldlM_append, h1]
      show List.foldlM (fun r j => cell a b i j r) r' [q] = _
      rw [List.foldlM_cons]
      have : cell a b i q r' = some r'' := by
        unfold cell
        rw [ha.2.1, dot_loop a b m n p f g ha hb i q hi (by omega) (h q (by omega)) n (Nat.le_refl _)]
        exact h3
      rw [this]; rfl
    · refine ⟨h4.1, h4.2.1, ?_⟩
      intro i' j' hi' hj'
      rw [h4.2.2 i' j' hi' hj']
      congr 1
      dsimp only
      by_cases c1 : i' = i
      · by_cases c2 : j' = q
        · rw [if_pos ⟨c1, c2⟩, if_pos ⟨c1, by omega⟩, c2]
        · rw [if_neg (by simp [c2])]
          by_cases c3 : j' < q
          · rw [if_pos ⟨c1, c3⟩, if_pos ⟨c1, by omega⟩]
          · rw [if_neg (by omega), if_neg (by omega)]
      · rw [if_neg (by simp [c1]), if_neg (by simp [c1]), if_neg (by simp [c1])]

theorem all_loop (a b : Mat) (m n p : Nat) (f g : Nat → Nat → Int) (ha : Shows a m n f) (hb : Shows b n p g)
    (h : ∀ i < m, ∀ j < p, ∀ k < n, Fits (f i k * g k j) ∧ Fits (dot f g i j (k + 1))) (r : Mat) (hr : Shows r m p fun _ _ => 0) (q : Nat) (hq : q ≤ m) :
    ∃ r', (List.range q).foldlM (fun r i => (List.range p).foldlM (fun r j => cell a b i j r) r) r = some r' ∧
      Shows r' m p fun i' j' => if i' < q then dot f g i' j' n else 0 := by
  induction q with
  | zero =>
    refine ⟨r, rfl, ?_⟩
    have : (fun i' j' => if i' < 0 then dot f g i' j' n else 0) = fun _ _ => 0 := by
      funext i' j'; rw [if_neg (by omega)]
    rw [this]; exact hr
  | succ q ih =>
    obtain ⟨r', h1, h2⟩ := ih (by omega)
    obtain ⟨r'', h3, h4⟩ := row_loop a b m n p f g ha hb q (by omega) (h q (by omega)) r' _ h2 p (Nat.le_refl _)
    refine ⟨r'', ?_, ?_⟩
    · rw [List.range_succ, List.foldlM_append, h1]
      show List.foldlM (fun r i => (List.range p).foldlM (fun r j => cell a b i j r) r) r' [q] = _
      rw [List.foldlM_cons, h3]; rfl
    · refine ⟨h4.1, h4.2.1, ?_⟩
      intro i' j' hi' hj'
      rw [h4.2.2 i' j' hi' hj']
      congr 1
      dsimp only
      by_cases c1 : i' = q
      · rw [if_pos ⟨c1, hj'⟩, if_pos (by omega), c1]
      · rw [if_neg (by simp [c1])]
        by_cases c3 : i' < q
        · rw [if_pos c3, if_pos (by omega)]
        · rw [if_neg c3, if_neg (by omega)]

end MxP

/-- C112: the product of matrices of fitting sizes has the entries it should, if an `int` can hold all that is computed. -/
theorem C112_product (a b : Mat) (m n p : Nat) (f g : Nat → Nat → Int) (ha : Shows a m n f) (hb : Shows b n p g)
    (h : ∀ i < m, ∀ j < p, ∀ k < n, Fits (f i k * g k j) ∧ Fits (dot f g i j (k + 1))) :
    ∃ r, mul a b = some r ∧ Shows r m p fun i j => dot f g i j n := by
  obtain ⟨r, h1, h2⟩ := (C112_make m p (List.replicate (m * p) 0) (by simp)).2
  obtain ⟨r', h3, h4⟩ := MxP.all_loop a b m n p f g ha hb h r h2 m (Nat.le_refl _)
  refine ⟨r', ?_, ?_⟩
  · unfold mul
    rw [ha.1, hb.2.1, h1]
    show (if a.n ≠ b.m then some r else _) = _
    rw [if_neg (by rw [ha.2.1, hb.1]; simp), h2.1, h2.2.1]
    exact h3
  · refine ⟨h4.1, h4.2.1, ?_⟩
    intro i j hi hj
    rw [h4.2.2 i j hi hj]
    dsimp only
    rw [if_pos hi]

/-- C112: the "product" of matrices of other sizes has zeros. -/
theorem C112_product_sizes (a b : Mat) (h : a.n ≠ b.m) : ∃ r, mul a b = some r ∧ Shows r a.m b.n fun _ _ => 0 := by
  obtain ⟨r, h1, h2⟩ := (C112_make a.m b.n (List.replicate (a.m * b.n) 0) (by simp)).2
  refine ⟨r, ?_, h2⟩
  unfold mul
  rw [h1]
  show (if a.n ≠ b.m then some r else _) = _
  rw [if_pos h]

/-- C112 fails: a product whose entry an `int` can hold may overflow before it is complete. -/
theorem C112_product_fails : ¬ ∀ (a b : Mat) (m n p : Nat) (f g : Nat → Nat → Int), Shows a m n f → Shows b n p g →
    (∀ i < m, ∀ j < p, Fits (dot f g i j n)) → mul a b ≠ none := by
  intro h
  refine h ⟨1, 3, [1, 1, 1]⟩ ⟨3, 1, [2147483647, 1, -1]⟩ 1 3 1 (fun _ _ => 1) (fun i _ => if i = 0 then 2147483647 else if i = 1 then 1 else -1) ?_ ?_ ?_ (by decide +kernel)
  · refine ⟨rfl, rfl, ?_⟩
    intro i j hi hj
    have : i = 0 := by omega
    subst this
    have : j = 0 ∨ j = 1 ∨ j = 2 := by omega
    rcases this with rfl | rfl | rfl <;> rfl
  · refine ⟨rfl, rfl, ?_⟩
    intro i j hi hj
    have : j = 0 := by omega
    subst this
    have : i = 0 ∨ i = 1 ∨ i = 2 := by omega
    rcases this with rfl | rfl | rfl <;> rfl
  · intro i _ j _
    simp [dot, Fits]

/-- A case. -/
example : mul ⟨2, 3, [1, 2, 3, 4, 5, 6]⟩ ⟨3, 1, [1, 0, -1]⟩ = some ⟨2, 1, [-2, -2]⟩ ∧ add ⟨1, 2, [1, 2]⟩ ⟨1, 2, [10, 20]⟩ = some ⟨1, 2, [11, 22]⟩ ∧
    assign ⟨2, 1, [0, 0]⟩ ⟨1, 1, [7]⟩ = some ⟨1, 1, [7, 0]⟩ := by decide +kernel

/-- The first of these meets the hypotheses. -/
example : Shows ⟨2, 3, [1, 2, 3, 4, 5, 6]⟩ 2 3 (fun i j => 3 * i + j + 1) ∧ Shows ⟨3, 1, [1, 0, -1]⟩ 3 1 (fun i _ => 1 - i) ∧
    ∀ i : Nat, i < 2 → ∀ j : Nat, j < 1 → ∀ k : Nat, k < 3 → Fits ((3 * (i : Int) + k + 1) * (1 - k)) ∧ Fits (dot (fun i j => 3 * i + j + 1) (fun i _ => 1 - i) i j (k + 1)) := by
  refine ⟨⟨rfl, rfl, ?_⟩, ⟨rfl, rfl, ?_⟩, ?_⟩
  · intro i j hi hj
    have h1 : i = 0 ∨ i = 1 := by omega
    have h2 : j = 0 ∨ j = 1 ∨ j = 2 := by omega
    rcases h1 with rfl | rfl <;> rcases h2 with rfl | rfl | rfl <;> rfl
  · intro i j hi hj
    have h1 : i = 0 ∨ i = 1 ∨ i = 2 := by omega
    have h2 : j = 0 := by omega
    subst h2
    rcases h1 with rfl | rfl | rfl <;> rfl
  · unfold Fits
    intro i hi j hj k hk
    have h1 : i = 0 ∨ i = 1 := by omega
    have h2 : j = 0 := by omega
    have h3 : k = 0 ∨ k = 1 ∨ k = 2 := by omega
    subst h2
    rcases h1 with rfl | rfl <;> rcases h3 with rfl | rfl | rfl <;> simp [dot]

end Props
