import Verif.Model.Crash
import Verif.Lemmas.Num
/- C137: what a program leaves behind for the case that it crashes. -/
namespace Props
open Wv
open Spec.Crash (Text Op WOp lastBytes Allowed decimal said)

namespace CrP
open Wv.Crash

theorem and_mask (x k : Nat) : x &&& (2 ^ k - 1) = x % 2 ^ k := Nat.and_two_pow_sub_one_eq_mod x k

theorem mod_inj (n a b : Nat) (h1 : a ≤ b) (h2 : b < a + n) (h : a % n = b % n) : a = b := by
  have hn : 0 < n := by omega
  have e1 := Nat.div_add_mod a n
  have e2 := Nat.div_add_mod b n
  have hle : a / n ≤ b / n := Nat.div_le_div_right h1
  have : b / n = a / n := by
    rcases Nat.lt_or_ge (a / n) (b / n) with hlt | hge
    · have := Nat.mul_le_mul_left n (show a / n + 1 ≤ b / n from hlt)
      rw [Nat.mul_add, Nat.mul_one] at this
      omega
    · omega
  rw [this] at e2
  omega

/-- The buffer has a text. -/
structure Holds (k : Nat) (s : Ring) (q : Text) : Prop where
  len : s.buf.length = 2 ^ k + 1
  start : s.start < 2 ^ k
  used : s.used = q.length
  room : q.length ≤ 2 ^ k
  at_ : ∀ i, i < q.length → s.buf[(s.start + i) % 2 ^ k]? = q[i]?

theorem pos (k : Nat) : 0 < 2 ^ k := Nat.two_pow_pos k

theorem holds_new (k : Nat) : Holds k (new k) [] :=
  ⟨by simp [new], pos k, rfl, by simp, by intro i h; simp at h⟩

theorem holds_byte (k : Nat) (s : Ring) (q : Text) (h : Holds k s q) (c : Byte) : Holds k (putByte k s c) (lastBytes (2 ^ k) (q ++ [c])) := by
  have hk := pos k
  have hm : ∀ x, x % 2 ^ k < 2 ^ k := fun x => Nat.mod_lt _ hk
  unfold putByte
  simp only [and_mask]
  by_cases hu : s.used = 2 ^ k
  · rw [if_pos hu]
    have hq : q.length = 2 ^ k := by rw [← h.used]; exact hu
    have hl : lastBytes (2 ^ k) (q ++ [c]) = q.tail ++ [c] := by
      unfold lastBytes
      rw [List.length_append, hq]
      have e : 2 ^ k + [c].length - 2 ^ k = 1 := by simp
      rw [e]
      cases q with
      | nil => simp at hq; omega
      | cons x q => rfl
    have hlen : (q.tail ++ [c]).length = 2 ^ k := by
      rw [List.length_append, List.length_tail, hq]; simp; omega
    rw [hl]
    refine ⟨by simp [h.len], hm _, ?_, by omega, ?_⟩
    · dsimp only; omega
    · intro i hi
      dsimp only
      rw [hlen] at hi
      rw [Nat.mod_add_mod, hu, Nat.add_mod_right, Nat.mod_eq_of_lt h.start, List.getElem?_set]
      by_cases hlast : i + 1 = 2 ^ k
      · have e : (s.start + 1 + i) % 2 ^ k = s.start := by
          have : s.start + 1 + i = s.start + 2 ^ k := by omega
          rw [this, Nat.add_mod_right, Nat.mod_eq_of_lt h.start]
        rw [if_pos e.symm, if_pos (by rw [h.len]; have := h.start; omega)]
        rw [List.getElem?_append_right (by rw [List.length_tail, hq]; omega), List.length_tail, hq]
        have : i - (2 ^ k - 1) = 0 := by omega
        rw [this]; rfl
      · have hne : s.start ≠ (s.start + 1 + i) % 2 ^ k := by
          intro e
          have := mod_inj (2 ^ k) s.start (s.start + 1 + i) (by omega) (by omega) (by rw [Nat.mod_eq_of_lt h.start]; exact e)
          omega
        rw [if_neg hne, List.getElem?_append_left (by rw [List.length_tail, hq]; omega), List.getElem?_tail]
        have := h.at_ (i + 1) (by omega)
        rw [← this]
        congr 2; omega
  · rw [if_neg hu]
    have hq : q.length < 2 ^ k := by
      have := h.room; have := h.used; omega
    have hl : lastBytes (2 ^ k) (q ++ [c]) = q ++ [c] := by
      unfold lastBytes
      have e : (q ++ [c]).length - 2 ^ k = 0 := by simp; omega
      rw [e]; rfl
    rw [hl]
    refine ⟨by simp [h.len], h.start, by simp [h.used], by simp; omega, ?_⟩
    intro i hi
    dsimp only
    rw [h.used, List.getElem?_set]
    have hi' : i < q.length + 1 := by simpa using hi
    by_cases hlast : i = q.length
    · subst hlast
      rw [if_pos rfl, if_pos (by rw [h.len]; have := hm (s.start + q.length); omega)]
      rw [List.getElem?_append_right (Nat.le_refl _)]; simp
    · rw [if_neg, List.getElem?_append_left (by omega)]
      · exact h.at_ i (by omega)
      · intro e
        have := mod_inj (2 ^ k) (s.start + i) (s.start + q.length) (by omega) (by omega) e.symm
        omega

theorem last_last (n : Nat) (a b : Text) : lastBytes n (lastBytes n a ++ b) = lastBytes n (a ++ b) := by
  unfold lastBytes
  rw [List.length_append, List.length_append, List.length_drop]
  by_cases h : a.length ≤ n
  · have e : a.length - n = 0 := by omega
    rw [e]; simp
  · have e1 : a.length - (a.length - n) = n := by omega
    rw [e1]
    have e4 : a.length + b.length - n = (a.length - n) + b.length := by omega
    have e5 : n + b.length - n = b.length := by omega
    have e6 : (a ++ b).drop (a.length - n) = a.drop (a.length - n) ++ b := List.drop_append_of_le_length (by omega)
    rw [e4, e5, ← List.drop_drop, e6]

theorem holds_put (k : Nat) (t : Text) : ∀ (s : Ring) (q : Text), Holds k s q → Holds k (put k s t) (lastBytes (2 ^ k) (q ++ t)) := by
  induction t with
  | nil =>
    intro s q h
    have : lastBytes (2 ^ k) (q ++ []) = q := by
      unfold lastBytes; rw [List.append_nil]
      have := h.room
      have e : q.length - 2 ^ k = 0 := by omega
      rw [e]; rfl
    rw [this]; exact h
  | cons c t ih =>
    intro s q h
    have := ih _ _ (holds_byte k s q h c)
    rw [last_last, List.append_assoc] at this
    exact this

theorem takeWhile_text (t r : List Byte) (ht : ∀ c ∈ t, c ≠ 0) : (t ++ 0 :: r).takeWhile (fun x => decide (x ≠ 0)) = t := by
  rw [List.takeWhile_append_of_pos (fun c hc => by simpa using ht c hc)]; simp

/-- What `get` gives, and what is left. -/
theorem get_spec (k : Nat) (s : Ring) (q : Text) (h : Holds k s q) (hz : ∀ c ∈ q, c ≠ 0) :
    (q = [] ∧ getText k s = (none, s)) ∨
    ∃ t q', q = t ++ q' ∧ t ≠ [] ∧ (getText k s).1 = some t ∧ Holds k (getText k s).2 q' ∧ (q' = [] ∨ (getText k s).2.start = 0) ∧
      (s.start = 0 → q' = []) := by
  by_cases h0 : s.used = 0
  · left
    refine ⟨List.length_eq_zero_iff.1 (by rw [← h.used]; exact h0), ?_⟩
    unfold getText Crash.get; rw [if_pos h0]; rfl
  · right
    have hk := pos k
    have hs := h.start
    have hu := h.used
    have hr := h.room
    have key : ∀ (e : Nat), s.start + e ≤ 2 ^ k → e ≤ q.length → strAt (s.buf.set (s.start + e) 0) s.start = q.take e := by
      intro e he hle
      have hsplit : (s.buf.set (s.start + e) 0).drop s.start = q.take e ++ 0 :: s.buf.drop (s.start + e + 1) := by
        apply List.ext_getElem?
        intro i
        rw [List.getElem?_drop, List.getElem?_set]
        by_cases hi : i < e
        · rw [if_neg (by omega), List.getElem?_append_left (by rw [List.length_take]; omega), List.getElem?_take, if_pos hi]
          have := h.at_ i (by omega)
          rw [Nat.mod_eq_of_lt (by omega)] at this
          exact this
        · rw [List.getElem?_append_right (by rw [List.length_take]; omega), List.length_take, Nat.min_eq_left hle]
          by_cases hi2 : i = e
          · subst hi2
            rw [if_pos rfl, if_pos (by rw [h.len]; omega), Nat.sub_self]; rfl
          · rw [if_neg (by omega)]
            obtain ⟨j, hj⟩ : ∃ j, i = e + 1 + j := ⟨i - (e + 1), by omega⟩
            subst hj
            have : e + 1 + j - e = j + 1 := by omega
            rw [this, List.getElem?_cons_succ, List.getElem?_drop]
            congr 1; omega
      unfold strAt
      rw [hsplit]
      exact takeWhile_text _ _ (fun c hc => hz c (List.mem_of_mem_take hc))
    unfold getText Crash.get
    rw [if_neg h0]
    by_cases hw : s.start + s.used ≥ 2 ^ k
    · rw [if_pos hw]
      refine ⟨q.take (2 ^ k - s.start), q.drop (2 ^ k - s.start), (List.take_append_drop _ _).symm, ?_, ?_, ?_, .inr rfl, ?_⟩
      · intro e
        have := congrArg List.length e
        rw [List.length_take, List.length_nil] at this
        omega
      · dsimp only [Option.map_some]
        have := key (2 ^ k - s.start) (by omega) (by omega)
        have e : s.start + (2 ^ k - s.start) = 2 ^ k := by omega
        rw [e] at this; rw [this]
      · refine ⟨by simp [h.len], hk, by simp [hu], by rw [List.length_drop]; omega, ?_⟩
        intro i hi
        dsimp only
        rw [List.length_drop] at hi
        rw [Nat.zero_add, Nat.mod_eq_of_lt (by omega), List.getElem?_set, if_neg (by omega), List.getElem?_drop, ← h.at_ _ (by omega)]
        have : (s.start + (2 ^ k - s.start + i)) % 2 ^ k = i := by
          have e : s.start + (2 ^ k - s.start + i) = i + 2 ^ k := by omega
          rw [e, Nat.add_mod_right, Nat.mod_eq_of_lt (by omega)]
        rw [this]
      · intro hs0; exact List.drop_eq_nil_of_le (by omega)
    · rw [if_neg hw]
      refine ⟨q, [], by simp, ?_, ?_, ?_, .inl rfl, fun _ => rfl⟩
      · intro e; rw [e] at hu; exact h0 hu
      · dsimp only [Option.map_some]
        have := key s.used (by omega) (by omega)
        rw [this, hu, List.take_length]
      · exact ⟨by simp [h.len], by dsimp only; omega, rfl, by simp, by intro i hi; simp at hi⟩

theorem last_mem (n : Nat) (t : Text) : ∀ c ∈ lastBytes n t, c ∈ t := fun _ hc => List.mem_of_mem_drop hc

end CrP

/-- No text that is put in has a NUL. -/
def NoNul (l : List Op) : Prop := ∀ t, Op.put t ∈ l → ∀ c ∈ t, c ≠ 0

/-- C137: for every history of putting texts in and taking them out, what is taken out is a part from the front of the last bytes that were put in
    and not yet taken out, as many as there is room for; and nothing is said only when there is nothing. -/
theorem C137_ring_partial (k : Nat) (l : List Op) (h : NoNul l) : Allowed (2 ^ k) [] (Crash.run k (Crash.new k) l) := by
  have key : ∀ (l : List Op) (s : Crash.Ring) (q : Text), CrP.Holds k s q → (∀ c ∈ q, c ≠ 0) → NoNul l → Allowed (2 ^ k) q (Crash.run k s l) := by
    intro l
    induction l with
    | nil => intro s q _ _ _; exact .nil q
    | cons o l ih =>
      intro s q hh hz hn
      have hn' : NoNul l := fun t ht => hn t (by simp [ht])
      cases o with
      | put t =>
        refine .put q t _ (ih _ _ (CrP.holds_put k t s q hh) (fun c hc => ?_) hn')
        rcases List.mem_append.1 (CrP.last_mem _ _ c hc) with h | h
        · exact hz c h
        · exact hn t (by simp) c h
      | get =>
        show Allowed (2 ^ k) q ((.get, (Crash.getText k s).1) :: Crash.run k (Crash.getText k s).2 l)
        rcases CrP.get_spec k s q hh hz with ⟨e, hg⟩ | ⟨t, q', e, ht, hg, hh', _, _⟩
        · subst e
          rw [hg]
          exact .empty _ (ih s [] hh hz hn')
        · subst e
          rw [hg]
          exact .some t q' _ ht (ih _ _ hh' (fun c hc => hz c (by simp [hc])) hn')
  exact key l _ _ (CrP.holds_new k) (by simp) h

/-- C137: what a crash writes of the log is the last bytes of all that was put in, as many as there is room for. -/
theorem C137_dump_partial (k : Nat) (ts : List Text) (h : ∀ t ∈ ts, ∀ c ∈ t, c ≠ 0) :
    Crash.dump k 3 (ts.foldl (Crash.put k) (Crash.new k)) = some (lastBytes (2 ^ k) ts.flatten) := by
  have hall : ∀ (ts : List Text) (s : Crash.Ring) (q : Text), CrP.Holds k s (lastBytes (2 ^ k) q) →
      CrP.Holds k (ts.foldl (Crash.put k) s) (lastBytes (2 ^ k) (q ++ ts.flatten)) := by
    intro ts
    induction ts with
    | nil => intro s q h; simpa using h
    | cons t ts ih =>
      intro s q h
      rw [List.foldl_cons, List.flatten_cons, ← List.append_assoc]
      refine ih _ _ ?_
      have := CrP.holds_put k t s _ h
      rwa [CrP.last_last] at this
  have hh := hall ts (Crash.new k) [] (by simpa [lastBytes] using CrP.holds_new k)
  rw [List.nil_append] at hh
  have hz : ∀ c ∈ lastBytes (2 ^ k) ts.flatten, c ≠ 0 := by
    intro c hc
    obtain ⟨t, ht, hct⟩ := List.mem_flatten.1 (CrP.last_mem _ _ c hc)
    exact h t ht c hct
  generalize ts.foldl (Crash.put k) (Crash.new k) = s at hh
  generalize lastBytes (2 ^ k) ts.flatten = q at hh hz
  have hnil : ∀ n s, CrP.Holds k s [] → Crash.dump k (n + 1) s = some [] := by
    intro n s hs
    rcases CrP.get_spec k s [] hs (by simp) with ⟨_, hg⟩ | ⟨t, q', e, ht, _⟩
    · unfold Crash.dump; rw [hg]
    · cases t with
      | nil => exact absurd rfl ht
      | cons c t => cases e
  rcases CrP.get_spec k s q hh hz with ⟨e, hg⟩ | ⟨t, q', e, ht, hg, hh', hs, _⟩
  · rw [e]; unfold Crash.dump; rw [hg]
  · subst e
    unfold Crash.dump
    generalize Crash.getText k s = r at hg hh' hs
    obtain ⟨r1, r2⟩ := r
    dsimp only at hg hh' hs
    subst hg
    dsimp only
    rcases CrP.get_spec k r2 q' hh' (fun c hc => hz c (by simp [hc])) with ⟨e, hg⟩ | ⟨t', q'', e, ht', hg, hh'', _, hs'⟩
    · subst e; rw [hnil 1 _ hh']; rfl
    · have hq : q'' = [] := by
        rcases hs with hs | hs
        · rw [hs] at e
          cases t' with
          | nil => exact absurd rfl ht'
          | cons c t' => cases e
        · exact hs' hs
      subst hq
      subst e
      unfold Crash.dump
      generalize Crash.getText k r2 = r at hg hh''
      obtain ⟨a, b⟩ := r
      dsimp only at hg hh''
      subst hg
      dsimp only
      rw [hnil 0 _ hh'']; simp

example : Crash.dump 2 3 ([str ['a', 'b', 'c'], str ['d', 'e', 'f']].foldl (Crash.put 2) (Crash.new 2)) = some (str ['c', 'd', 'e', 'f']) := by
  decide +kernel
example : NoNul [.put (str ['a', 'b']), .get, .put (str ['c']), .get] := by
  intro t ht c hc
  simp at ht
  rcases ht with rfl | rfl <;> (revert c; decide)

/-- C137 fails for texts with a NUL, although their length is given: what follows is lost. -/
theorem C137_nul_fails : Crash.dump 2 3 (Crash.put 2 (Crash.new 2) [65, 0, 66]) = some [65] := by decide +kernel

/-- C137 fails for a caller who keeps a result while asking for the next: it is overwritten. -/
theorem C137_keep_fails :
    let r1 := Crash.get 2 (Crash.put 2 (Crash.new 2) (str ['a', 'b', 'c', 'd', 'e']))
    let r2 := Crash.get 2 r1.2
    r1.1 = some 1 ∧ Crash.strAt r1.2.buf 1 = str ['b', 'c', 'd'] ∧ r2.1 = some 0 ∧ Crash.strAt r2.2.buf 1 = [] := by
  decide +kernel

namespace CrP
open Wv.Crash

theorem dec_step' (m d : Nat) (hm : 0 < m) (hd : d < 10) : Num.dec (m * 10 + d) = Num.dec m ++ Num.dec d := by
  rw [Num.dec_step _ (by omega)]
  have e1 : (m * 10 + d) / 10 = m := by omega
  have e2 : (m * 10 + d) % 10 = d := by omega
  rw [e1, e2]

theorem dec_one (d : Nat) (hd : d < 10) : (Num.dec d).reverse = Num.dec d := by rw [(Num.dec_digit d hd).1]; rfl

/-- The digits in the other order. -/
theorem rev_spec (f : Nat) : ∀ (num tmp j : Nat), num < 10 ^ f → 0 < num → 0 < tmp → tmp < 10 ^ j → j + f ≤ 9 →
    ∃ r, revLoop (f + 1) num tmp = some r ∧ Num.dec r = Num.dec tmp ++ (Num.dec num).reverse ∧ 0 < r ∧ r < 10 ^ 9 := by
  induction f with
  | zero => intro num tmp j h1 h2; simp at h1; omega
  | succ f ih =>
    intro num tmp j h1 h2 h3 h4 h5
    have hd : num % 10 < 10 := Nat.mod_lt _ (by omega)
    have hp : tmp * 10 + num % 10 < 10 ^ (j + 1) := by rw [Nat.pow_succ]; omega
    have hle : 10 ^ (j + 1) ≤ 10 ^ 9 := Nat.pow_le_pow_right (by omega) (by omega)
    unfold revLoop
    rw [if_neg (by omega)]
    dsimp only
    rw [if_pos (by have : (10 : Nat) ^ 9 < 2 ^ 31 := by decide
                   omega)]
    by_cases h10 : num < 10
    · refine ⟨tmp * 10 + num % 10, ?_, ?_, by omega, by omega⟩
      · have e : num / 10 = 0 := by omega
        rw [e]; unfold revLoop; rw [if_pos rfl]
      · rw [dec_step' _ _ h3 hd, Nat.mod_eq_of_lt h10, dec_one num h10]
    · obtain ⟨r, e1, e2, e3, e4⟩ := ih (num / 10) (tmp * 10 + num % 10) (j + 1) (by rw [Nat.pow_succ] at h1; omega) (by omega) (by omega) hp (by omega)
      refine ⟨r, e1, ?_, e3, e4⟩
      rw [e2, dec_step' _ _ h3 hd, Num.dec_step num (by omega), List.reverse_append, dec_one _ hd, List.append_assoc]

theorem rev_more (n : Nat) : ∀ (m num tmp : Nat) (r : Nat), n ≤ m → num < 10 ^ n → revLoop (n + 1) num tmp = some r → revLoop (m + 1) num tmp = some r := by
  induction n with
  | zero =>
    intro m num tmp r _ h1 h
    have : num = 0 := by simp at h1; omega
    subst this
    unfold revLoop at h ⊢
    simpa using h
  | succ n ih =>
    intro m num tmp r hm h1 h
    unfold revLoop at h ⊢
    by_cases h0 : num = 0
    · rw [if_pos h0] at h ⊢; exact h
    · rw [if_neg h0] at h ⊢
      dsimp only at h ⊢
      split at h
      · rename_i hlt
        rw [if_pos hlt]
        obtain ⟨m', rfl⟩ : ∃ m', m = m' + 1 := ⟨m - 1, by omega⟩
        exact ih m' _ _ r (by omega) (by rw [Nat.pow_succ] at h1; omega) h
      · cases h

theorem out_spec (f : Nat) : ∀ tmp, tmp < 10 ^ f → 0 < tmp → outLoop f tmp = (Num.dec tmp).reverse := by
  induction f with
  | zero => intro tmp h h0; simp at h; omega
  | succ f ih =>
    intro tmp h h0
    unfold outLoop
    rw [if_neg (by omega)]
    have hd : tmp % 10 < 10 := Nat.mod_lt _ (by omega)
    by_cases h10 : tmp < 10
    · have e : tmp / 10 = 0 := by omega
      have e2 : outLoop f 0 = [] := by cases f <;> simp [outLoop]
      rw [e, e2, Nat.mod_eq_of_lt h10, (Num.dec_digit tmp h10).1]; rfl
    · rw [ih (tmp / 10) (by rw [Nat.pow_succ] at h; omega) (by omega), Num.dec_step tmp (by omega), List.reverse_append, (Num.dec_digit _ hd).1]
      rfl

theorem pos_number (n : Nat) (h0 : n % 10 ≠ 0) (h9 : n < 10 ^ 9) : (revLoop 11 n 0).map (outLoop 11) = some (Num.dec n) := by
  have hn : 0 < n := by omega
  have hd : n % 10 < 10 := Nat.mod_lt _ (by omega)
  have key : ∃ r, revLoop 11 n 0 = some r ∧ Num.dec r = (Num.dec n).reverse ∧ 0 < r ∧ r < 10 ^ 9 := by
    rw [revLoop, if_neg (by omega)]
    dsimp only
    rw [Nat.zero_mul, Nat.zero_add, if_pos (by omega)]
    by_cases h10 : n < 10
    · refine ⟨n % 10, ?_, ?_, by omega, by omega⟩
      · have e : n / 10 = 0 := by omega
        rw [e]; rfl
      · rw [Nat.mod_eq_of_lt h10, dec_one n h10]
    · obtain ⟨r, e1, e2, e3, e4⟩ := rev_spec 8 (n / 10) (n % 10) 1 (by omega) (by omega) (by omega) (by omega) (by omega)
      refine ⟨r, rev_more 8 9 _ _ r (by omega) (by omega) e1, ?_, e3, e4⟩
      rw [e2, Num.dec_step n (by omega), List.reverse_append, dec_one _ hd]
  obtain ⟨r, e1, e2, e3, e4⟩ := key
  rw [e1, Option.map_some, out_spec 11 r (by omega) e3, e2, List.reverse_reverse]

end CrP

/-- C137: numbers are written in decimal, if they have at most nine digits and do not end with 0. -/
theorem C137_number_partial (i : Int) (h : i = 0 ∨ i % 10 ≠ 0) (h9 : i.natAbs < 10 ^ 9) : Crash.wrn i = some (decimal i) := by
  by_cases h0 : i = 0
  · subst h0; decide +kernel
  · have hm : i.natAbs % 10 ≠ 0 := by
      rcases h with h | h
      · exact absurd h h0
      · omega
    have := CrP.pos_number i.natAbs hm h9
    unfold Crash.wrn
    rw [if_neg h0, if_neg (by omega)]
    dsimp only
    unfold decimal
    cases hr : Crash.revLoop 11 i.natAbs 0 with
    | none => rw [hr] at this; cases this
    | some r =>
      rw [hr, Option.map_some] at this
      rw [Option.map_some, Option.some.inj this]
      rfl

example : Crash.wrn (-105) = some (str ['-', '1', '0', '5']) := by decide +kernel

/-- C137 fails for numbers that end with 0: signal 10 is written as 1. -/
theorem C137_zero_fails : Crash.wrn 10 = some (str ['1']) ∧ Crash.wrn 65500 = some (str ['6', '5', '5']) := by decide +kernel

/-- C137 fails for large numbers: writing them is undefined. -/
theorem C137_large_fails : Crash.wrn 1000000003 = none ∧ Crash.wrn (-2147483648) = none := by decide +kernel

namespace CrP
open Wv.Crash

theorem addr_value (w : Nat) : ∀ a acc, Spec.Crash.hexFrom acc (addrDigits w a) = some (acc * 16 ^ w + a % 16 ^ w) := by
  induction w with
  | zero => intro a acc; simp [addrDigits, Spec.Crash.hexFrom, Nat.mod_one]
  | succ w ih =>
    intro a acc
    have hmask : (a >>> (4 * w)) &&& 15 = a / 16 ^ w % 16 := by
      have : (15 : Nat) = 2 ^ 4 - 1 := rfl
      rw [this, Nat.and_two_pow_sub_one_eq_mod, Nat.shiftRight_eq_div_pow, Nat.pow_mul]
    have hdig : ∀ d : Nat, d < 16 → Spec.Crash.hexDigit (hexDigits.getD d 0) = some d := by decide +kernel
    unfold addrDigits Spec.Crash.hexFrom
    rw [hmask, hdig _ (Nat.mod_lt _ (by omega))]
    dsimp only [Option.bind_some]
    rw [ih]
    congr 1
    rw [Nat.pow_succ, Nat.mod_mul, Nat.add_mul, Nat.mul_assoc, Nat.mul_comm 16 (16 ^ w), Nat.mul_comm (a / 16 ^ w % 16)]
    omega

end CrP

/-- C137: an address is written as 0x and two digits for each of its bytes, whose value it is. -/
theorem C137_address (bytes a : Nat) (h : a < 256 ^ bytes) :
    ∃ t, Crash.wra bytes a = str ['0', 'x'] ++ t ∧ t.length = 2 * bytes ∧ Spec.Crash.hexValue t = some a := by
  refine ⟨_, rfl, ?_, ?_⟩
  · generalize 2 * bytes = n
    induction n with
    | zero => rfl
    | succ n ih => simp [Crash.addrDigits, ih]
  · unfold Spec.Crash.hexValue
    rw [CrP.addr_value, Nat.pow_mul, Nat.zero_mul, Nat.zero_add, Nat.mod_eq_of_lt h]

example : Crash.wra 2 0x1A2F = str ['0', 'x', '1', 'A', '2', 'F'] := by decide +kernel

namespace CrP
open Wv.Crash

theorem read_leave (b w : Text) (hw : ∀ c ∈ w, c ≠ 0) : readWill (leaveWill b (some w)) = w.take 2047 := by
  unfold readWill strAt leaveWill
  rw [List.drop_zero]
  have e : (w.take 2048 ++ List.replicate (2048 - w.length) 0).set 2047 0 = w.take 2047 ++ 0 :: List.replicate (2048 - w.length - 1) 0 := by
    by_cases h : w.length ≤ 2047
    · have e1 : w.take 2048 = w := List.take_of_length_le (by omega)
      have e2 : w.take 2047 = w := List.take_of_length_le (by omega)
      obtain ⟨m, hm⟩ : ∃ m, 2048 - w.length = m + 1 := ⟨2047 - w.length, by omega⟩
      rw [e1, e2, hm, Nat.add_sub_cancel, ← List.replicate_succ]
      apply List.ext_getElem?
      intro i
      rw [List.getElem?_set]
      by_cases hi : 2047 = i
      · subst hi
        rw [if_pos rfl, if_pos (by rw [List.length_append, List.length_replicate]; omega), List.getElem?_append_right h, List.getElem?_replicate,
          if_pos (by omega)]
      · rw [if_neg hi]
    · have e1 : 2048 - w.length = 0 := by omega
      rw [e1]
      have hl : (w.take 2047).length = 2047 := by rw [List.length_take]; omega
      have e2 : w.take 2048 = w.take 2047 ++ [w[2047]'(by omega)] := by
        rw [List.take_succ_eq_append_getElem (by omega)]
      rw [e2, List.replicate_zero, List.append_nil, List.set_append_right _ _ (by omega), hl]; rfl
  show List.takeWhile _ ((w.take 2048 ++ List.replicate (2048 - w.length) 0).set 2047 0) = _
  rw [e, takeWhile_text _ _ (fun c hc => hw c (List.mem_of_mem_take hc))]

theorem read_leave_none (b : Text) (hb : b ≠ []) : readWill (leaveWill b none) = [] := by
  unfold readWill strAt leaveWill
  cases b with
  | nil => exact absurd rfl hb
  | cons c b => simp

theorem leave_ne (b : Text) (hb : b ≠ []) (w : Option Text) : leaveWill b w ≠ [] := by
  intro e
  have := congrArg List.length e
  cases w with
  | none => simp [leaveWill] at this; exact hb this
  | some w =>
    rw [leaveWill, List.length_set, List.length_append, List.length_take, List.length_replicate, List.length_nil] at this
    omega

theorem read_will (b : Text) (hb : b ≠ []) (w : Option Text) (hw : ∀ t, w = some t → ∀ c ∈ t, c ≠ 0) :
    readWill (leaveWill b w) = (w.getD []).take 2047 := by
  cases w with
  | none => rw [read_leave_none b hb]; rfl
  | some t => exact read_leave b t (hw t rfl)

/-- The wills that come back when objects are destroyed. -/
def Back (first : Option Text) : List Text → List (Option Text) → Prop
  | [], [] => True
  | o :: os, _ :: ws => o = said first ws ∧ Back first os ws
  | _, _ => False

end CrP

/-- A will without NULs. -/
def WillOk (w : Option Text) : Prop := ∀ t, w = some t → ∀ c ∈ t, c ≠ 0

/-- C137: whatever objects with wills are made inside of one another, rewritten and destroyed, the will that a crash shows is that of the innermost
    object that is there, up to 2047 bytes; and the first one if there is none. -/
theorem C137_will (b : List Byte) (hb : b ≠ []) (first : Option Text) (hf : WillOk first) (l : List WOp)
    (hl : ∀ w, WOp.make w ∈ l ∨ WOp.rewrite w ∈ l → WillOk w) (ws : List (Option Text)) (h : Spec.Crash.wafter [] l = some ws) :
    ∃ s, Crash.wrun ⟨Crash.leaveWill b first, []⟩ l = some s ∧ Crash.readWill s.buf = said first ws := by
  have key : ∀ (l : List WOp) (s : Crash.Wills) (ws0 : List (Option Text)), s.buf ≠ [] → Crash.readWill s.buf = said first ws0 →
      CrP.Back first s.olds ws0 → (∀ w ∈ ws0, WillOk w) → (∀ w, WOp.make w ∈ l ∨ WOp.rewrite w ∈ l → WillOk w) →
      Spec.Crash.wafter ws0 l = some ws → ∃ s', Crash.wrun s l = some s' ∧ Crash.readWill s'.buf = said first ws := by
    intro l
    induction l with
    | nil => intro s ws0 _ h1 _ _ _ h; cases h; exact ⟨s, rfl, h1⟩
    | cons o l ih =>
      intro s ws0 hne h1 h2 h3 hl h
      have hl' : ∀ w, WOp.make w ∈ l ∨ WOp.rewrite w ∈ l → WillOk w := fun w hw =>
        hl w (hw.imp (fun h => by simp [h]) (fun h => by simp [h]))
      cases o with
      | make w =>
        have hw : WillOk w := hl w (by simp)
        refine ih ⟨Crash.leaveWill s.buf w, Crash.readWill s.buf :: s.olds⟩ (w :: ws0) (CrP.leave_ne _ hne w) (CrP.read_will _ hne w hw) ⟨h1, h2⟩ ?_ hl' h
        intro x hx
        rcases List.mem_cons.1 hx with rfl | hx
        · exact hw
        · exact h3 x hx
      | rewrite w =>
        have hw : WillOk w := hl w (by simp)
        obtain ⟨buf, olds⟩ := s
        cases ws0 with
        | nil => cases h
        | cons x ws0 =>
          cases olds with
          | nil => exact h2.elim
          | cons o olds =>
            refine ih ⟨Crash.leaveWill buf w, o :: olds⟩ (w :: ws0) (CrP.leave_ne _ hne w) (CrP.read_will _ hne w hw) h2 ?_ hl' h
            intro y hy
            rcases List.mem_cons.1 hy with rfl | hy
            · exact hw
            · exact h3 y (by simp [hy])
      | destroy =>
        obtain ⟨buf, olds⟩ := s
        cases ws0 with
        | nil => cases h
        | cons x ws0 =>
          cases olds with
          | nil => exact h2.elim
          | cons o olds =>
            obtain ⟨e1, e2⟩ := h2
            have hz : ∀ c ∈ o, c ≠ 0 := by
              intro c hc
              rw [e1] at hc
              unfold said at hc
              have hc := List.mem_of_mem_take hc
              have hok : WillOk (ws0.headD first) := by
                cases ws0 with
                | nil => exact hf
                | cons y ws0 => exact h3 y (by simp)
              cases hd : ws0.headD first with
              | none => rw [hd] at hc; cases hc
              | some t => rw [hd] at hc; exact hok t hd c hc
            refine ih ⟨Crash.leaveWill buf (some o), olds⟩ ws0 (CrP.leave_ne buf hne (some o)) ?_ e2 (fun y hy => h3 y (by simp [hy])) hl' h
            rw [CrP.read_leave buf o hz, e1]
            unfold said
            rw [List.take_take]; rfl
  exact key l ⟨Crash.leaveWill b first, []⟩ [] (CrP.leave_ne b hb first) (CrP.read_will b hb first hf) trivial (by simp) hl h

example : Spec.Crash.wafter [] [.make (some (str ['a'])), .make (some (str ['b'])), .rewrite (some (str ['c'])), .destroy] = some [some (str ['a'])] := rfl
example : WillOk (some (str ['a'])) := by intro t ht; cases ht; decide

end Props
