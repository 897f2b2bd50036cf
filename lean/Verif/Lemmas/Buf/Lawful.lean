import Verif.Model.Buf.Store
import Mathlib.Tactic.Conv
/-
What the generic buffer algorithms need of a store, and what they then do. `hist` and `cont` are the bytes that can be
ungotten and the readable bytes; `At s p off n`: `p` points at `n` consecutive bytes, the first at offset `off`.
-/
namespace Wv.Buf
open Store

/-- `l` with `d` written over it at position `i`. -/
def splice (l : List Byte) (i : Nat) (d : List Byte) : List Byte := l.take i ++ d ++ l.drop (i + d.length)

class Lawful (σ : Type) [Store σ] where
  Inv : σ → Prop
  hist : σ → List Byte
  cont : σ → List Byte
  At : σ → Loc → Int → Nat → Prop
  /-- Whether bytes of the history can be peeked at. -/
  NegOk : σ → Prop
  /-- Whether so many bytes can be peeked at, at once. -/
  PeekOk : σ → Int → Nat → Prop
  used_eq : ∀ s, Inv s → used s = (cont s).length
  ungettable_eq : ∀ s, Inv s → ungettable s = (hist s).length
  optgettable_law : ∀ s, Inv s → optgettable s ≤ (cont s).length ∧ (cont s ≠ [] → 0 < optgettable s)
  get_law : ∀ s n, Inv s → n ≤ (cont s).length → ∃ p s', get s n = some (p, s') ∧ Inv s' ∧ cont s' = (cont s).drop n ∧
    (∃ k, hist s' = (hist s).drop k ++ (cont s).take n) ∧ At s' p (-n) n ∧ free s ≤ free s'
  unget_law : ∀ s n, Inv s → n ≤ (hist s).length → ∃ s', unget s n = some s' ∧ Inv s' ∧
    hist s' = (hist s).take ((hist s).length - n) ∧ cont s' = (hist s).drop ((hist s).length - n) ++ cont s
  zap_law : ∀ s, Inv s → Inv (zap s) ∧ cont (zap s) = [] ∧ hist (zap s) = []
  optallocable_law : ∀ s, Inv s → 0 < free s → 0 < optallocable s
  alloc_law : ∀ s n, Inv s → n ≤ free s ∨ n ≤ optallocable s → ∃ p s' g, alloc s n = some (p, s') ∧ Inv s' ∧
    g.length = n ∧ cont s' = cont s ++ g ∧ (∃ k, hist s' = (hist s).drop k) ∧ At s' p (cont s).length n ∧
    free s ≤ free s' + n
  unalloc_law : ∀ s n, Inv s → n ≤ (cont s).length → ∃ s', unalloc s n = some s' ∧ Inv s' ∧
    cont s' = (cont s).take ((cont s).length - n) ∧ (∃ k, hist s' = (hist s).drop k)
  optpeekable_law : ∀ s off, Inv s → -((hist s).length : Int) ≤ off → off < (cont s).length →
    0 < optpeekable s off ∧ off + optpeekable s off ≤ (cont s).length
  mutablepeek_law : ∀ s off n, Inv s → -((hist s).length : Int) ≤ off → off < (cont s).length → 0 < n →
    (off < 0 → NegOk s) → n ≤ optpeekable s off → ∃ p s', mutablepeek s off n = some (p, s') ∧ Inv s' ∧ hist s' = hist s ∧
    cont s' = cont s ∧ free s' = free s ∧ At s' p off n ∧ (NegOk s → NegOk s')
  peek_law : ∀ s off (n : Nat), Inv s → -((hist s).length : Int) ≤ off → off + n ≤ (cont s).length → 0 < n →
    (off < 0 → NegOk s) → PeekOk s off n → ∃ p s', mutablepeek s off n = some (p, s') ∧ Inv s' ∧
    (∃ k, hist s' = (hist s).drop k) ∧ (off < 0 → hist s' = hist s) ∧ cont s' = cont s ∧ At s' p off n
  at_bound : ∀ s p off n, At s p off n → -((hist s).length : Int) ≤ off ∧ off + n ≤ (cont s).length
  at_add : ∀ s p off n k, Inv s → At s p off n → k ≤ n → At s (p.add k) (off + k) (n - k)
  read_law : ∀ s p off n m, Inv s → At s p off n → m ≤ n →
    read s p m = some (((hist s ++ cont s).drop ((hist s).length + off).toNat).take m)
  write_law : ∀ s p off n d, Inv s → At s p off n → d.length ≤ n → ∃ s', write s p d = some s' ∧ Inv s' ∧
    (hist s').length = (hist s).length ∧ free s' = free s ∧
    hist s' ++ cont s' = splice (hist s ++ cont s) ((hist s).length + off).toNat d ∧ At s' p off n ∧ (NegOk s → NegOk s')

open Lawful

theorem splice_length (l d : List Byte) (i : Nat) (h : i + d.length ≤ l.length) : (splice l i d).length = l.length := by
  simp [splice]; omega

theorem splice_append_right (a l d : List Byte) (i : Nat) : splice (a ++ l) (a.length + i) d = a ++ splice l i d := by
  unfold splice
  rw [List.take_append, List.drop_append]
  simp [Nat.add_assoc, List.take_of_length_le, List.drop_of_length_le]

section
variable {σ τ : Type} [Store σ] [Lawful σ] [Store τ] [Lawful τ]

/-- Reading what lies wholly in the history, just before the read position. -/
theorem read_taken (s : σ) (p : Loc) (n : Nat) (h t : List Byte) (hi : Inv s) (hh : hist s = h ++ t) (ht : t.length = n)
    (ha : At s p (-n) n) (m : Nat) (hm : m ≤ n) : read s p m = some (t.take m) := by
  rw [read_law s p _ n m hi ha hm, hh]
  have : (((h ++ t).length : Int) + -(n : Int)).toNat = h.length := by simp; omega
  rw [this, List.append_assoc, List.drop_left, List.take_append_of_le_length (by omega)]

theorem getBytes_law (s : σ) (n : Nat) (hi : Inv s) (hn : n ≤ (cont s).length) :
    ∃ s', getBytes s n = some ((cont s).take n, s') ∧ Inv s' ∧ cont s' = (cont s).drop n ∧
      (∃ k, hist s' = (hist s).drop k ++ (cont s).take n) ∧ free s ≤ free s' := by
  obtain ⟨p, s', h1, h2, h3, ⟨k, h4⟩, h5, h6⟩ := get_law s n hi hn
  refine ⟨s', ?_, h2, h3, ⟨k, h4⟩, h6⟩
  have hl : ((cont s).take n).length = n := by simp; omega
  have := read_taken s' p n _ _ h2 h4 hl h5 n (Nat.le_refl _)
  rw [List.take_of_length_le (by omega)] at this
  simp [getBytes, h1, this]

theorem peekBytes_law (s : σ) (off : Int) (n : Nat) (hi : Inv s) (h0 : -((hist s).length : Int) ≤ off)
    (h1 : off + n ≤ (cont s).length) (hn : 0 < n) (hneg : off < 0 → NegOk s) (h2 : PeekOk s off n) :
    ∃ s', peekBytes s off n = some (((hist s ++ cont s).drop ((hist s).length + off).toNat).take n, s') ∧ Inv s' ∧
      (∃ k, hist s' = (hist s).drop k) ∧ cont s' = cont s := by
  obtain ⟨p, s', e1, e2, e3, e4, e5, e6⟩ := peek_law s off n hi h0 h1 hn hneg h2
  refine ⟨s', ?_, e2, e3, e5⟩
  have := read_law s' p off n n e2 e6 (Nat.le_refl _)
  simp only [peekBytes, e1, this, Option.bind_eq_bind, Option.bind_some]
  show some _ = some _
  congr 2
  by_cases ho : off < 0
  · rw [e4 ho, e5]
  · have x1 : (((hist s').length : Int) + off).toNat = (hist s').length + off.toNat := by omega
    have x2 : (((hist s).length : Int) + off).toNat = (hist s).length + off.toNat := by omega
    rw [x1, x2, ← List.drop_drop, ← List.drop_drop, List.drop_left, List.drop_left, e5]

/-- A write over readable bytes. -/
theorem write_cont (s : σ) (p : Loc) (i n : Nat) (d : List Byte) (hi : Inv s) (ha : At s p i n) (hd : d.length ≤ n) :
    ∃ s', write s p d = some s' ∧ Inv s' ∧ hist s' = hist s ∧ free s' = free s ∧ cont s' = splice (cont s) i d ∧
      At s' p i n := by
  obtain ⟨s', h1, h2, h3, h4, h5, h6, -⟩ := write_law s p i n d hi ha hd
  have e : (((hist s).length : Int) + (i : Int)).toNat = (hist s).length + i := by omega
  rw [e, splice_append_right] at h5
  have := List.append_inj h5 h3
  exact ⟨s', h1, h2, this.1, h4, this.2, h6⟩

/-- Filling the start of what was just allocated. -/
theorem write_tail (s : σ) (p : Loc) (base g : List Byte) (n : Nat) (d : List Byte) (hi : Inv s) (hc : cont s = base ++ g)
    (hg : g.length = n) (ha : At s p base.length n) (hd : d.length ≤ n) :
    ∃ s' g', write s p d = some s' ∧ Inv s' ∧ hist s' = hist s ∧ free s' = free s ∧ cont s' = base ++ d ++ g' ∧
      g'.length = n - d.length ∧ At s' (p.add d.length) (base ++ d).length (n - d.length) := by
  obtain ⟨s', h1, h2, h3, h4, h5, h6⟩ := write_cont s p base.length n d hi ha hd
  refine ⟨s', g.drop d.length, h1, h2, h3, h4, ?_, by simp [hg], ?_⟩
  · rw [h5, hc]
    have := splice_append_right base g d 0
    rw [Nat.add_zero] at this
    rw [this]; simp [splice]
  · have := at_add s' p _ n d.length h2 h6 hd
    simpa using this

theorem putLoop_law (fuel : Nat) : ∀ (s : σ) (d : List Byte), Inv s → d.length ≤ fuel → d.length ≤ free s →
    ∃ s', putLoop s fuel d = some s' ∧ Inv s' ∧ cont s' = cont s ++ d ∧ (∃ k, hist s' = (hist s).drop k) ∧
      free s ≤ free s' + d.length := by
  induction fuel with
  | zero =>
    intro s d hi hf _
    have : d = [] := List.eq_nil_of_length_eq_zero (by omega)
    subst this
    exact ⟨s, rfl, hi, by simp, ⟨0, by simp⟩, by simp⟩
  | succ fuel ih =>
    intro s d hi hf hr
    cases d with
    | nil => exact ⟨s, rfl, hi, by simp, ⟨0, by simp⟩, by simp⟩
    | cons c cs =>
      have hopt := optallocable_law s hi (by simp at hr; omega)
      rw [putLoop]
      simp only [if_neg (show ¬ optallocable s = 0 by omega)]
      generalize ha : (if optallocable s > (c :: cs).length then (c :: cs).length else optallocable s) = a
      have ha1 : a ≤ (c :: cs).length ∧ 0 < a ∧ a ≤ optallocable s := by
        rw [← ha]; split <;> simp at * <;> omega
      obtain ⟨p, s1, g, e1, e2, e3, e4, ⟨k1, e5⟩, e6, e7⟩ := alloc_law s a hi (Or.inr ha1.2.2)
      have hlen : ((c :: cs).take a).length = a := by rw [List.length_take]; omega
      obtain ⟨s2, g', f1, f2, f3, f4, f5, f6, f7⟩ := write_tail s1 p (cont s) g a ((c :: cs).take a) e2 e4 e3 e6 (by omega)
      have hg' : g' = [] := List.eq_nil_of_length_eq_zero (by omega)
      have hdrop : ((c :: cs).drop a).length = (c :: cs).length - a := List.length_drop
      obtain ⟨s3, r1, r2, r3, ⟨k3, r4⟩, r5⟩ := ih s2 ((c :: cs).drop a) f2 (by omega) (by omega)
      refine ⟨s3, ?_, r2, ?_, ⟨k1 + k3, ?_⟩, by omega⟩
      · simp only [e1, f1, Option.bind_eq_bind, Option.bind_some]; exact r1
      · rw [r3, f5, hg', List.append_nil, List.append_assoc, List.take_append_drop]
      · rw [r4, f3, e5, List.drop_drop]

theorem put_law (s : σ) (d : List Byte) (hi : Inv s) (hr : d.length ≤ free s) :
    ∃ s', put s d = some s' ∧ Inv s' ∧ cont s' = cont s ++ d ∧ (∃ k, hist s' = (hist s).drop k) ∧
      free s ≤ free s' + d.length := putLoop_law _ s d hi (Nat.le_refl _) hr

theorem fastput_law (s : σ) (d : List Byte) (hi : Inv s) (hr : d.length ≤ free s) :
    ∃ s', fastput s d = some s' ∧ Inv s' ∧ cont s' = cont s ++ d ∧ (∃ k, hist s' = (hist s).drop k) ∧
      free s ≤ free s' + d.length := by
  obtain ⟨p, s1, g, e1, e2, e3, e4, e5, e6, e7⟩ := alloc_law s d.length hi (Or.inl hr)
  obtain ⟨s2, g', f1, f2, f3, f4, f5, f6, f7⟩ := write_tail s1 p (cont s) g d.length d e2 e4 e3 e6 (Nat.le_refl _)
  have hg' : g' = [] := List.eq_nil_of_length_eq_zero (by omega)
  exact ⟨s2, by simp [fastput, e1, f1], f2, by rw [f5, hg', List.append_nil], by rw [f3]; exact e5, by omega⟩

theorem copyLoop_law (fuel : Nat) : ∀ (s : σ) (off : Int) (n : Nat), Inv s → n ≤ fuel → -((hist s).length : Int) ≤ off →
    off + n ≤ (cont s).length → (off < 0 → 0 < n → NegOk s) → ∃ s', copyLoop s off fuel n =
      some (((hist s ++ cont s).drop ((hist s).length + off).toNat).take n, s') ∧ Inv s' ∧ hist s' = hist s ∧
      cont s' = cont s ∧ free s' = free s := by
  induction fuel with
  | zero =>
    intro s off n hi hn _ _ _
    have : n = 0 := by omega
    subst this
    exact ⟨s, by simp [copyLoop], hi, rfl, rfl, rfl⟩
  | succ fuel ih =>
    intro s off n hi hn h0 h1 hneg
    cases n with
    | zero => exact ⟨s, by simp [copyLoop], hi, rfl, rfl, rfl⟩
    | succ n =>
      obtain ⟨o1, o2⟩ := optpeekable_law s off hi h0 (by omega)
      rw [copyLoop]
      simp only [if_neg (show ¬ optpeekable s off = 0 by omega)]
      generalize ha : (if optpeekable s off > n + 1 then n + 1 else optpeekable s off) = a
      have ha1 : a ≤ n + 1 ∧ 0 < a ∧ a ≤ optpeekable s off := by
        rw [← ha]; split <;> omega
      obtain ⟨p, s1, e1, e2, e3, e4, e5, e6, e7⟩ := mutablepeek_law s off a hi h0 (by omega) ha1.2.1 (fun h => hneg h (by omega)) ha1.2.2
      have hread := read_law s1 p off a a e2 e6 (Nat.le_refl _)
      rw [e3, e4] at hread
      obtain ⟨s2, f1, f2, f3, f4, f5⟩ := ih s1 (off + a) (n + 1 - a) e2 (by omega) (by rw [e3]; omega) (by rw [e4]; omega)
        (fun h _ => e7 (hneg (by omega) (by omega)))
      refine ⟨s2, ?_, f2, by rw [f3, e3], by rw [f4, e4], by rw [f5, e5]⟩
      simp only [e1, hread, f1, Option.bind_eq_bind, Option.bind_some]
      rw [e3, e4]
      have hx : (((hist s).length : Int) + (off + (a : Int))).toNat = (((hist s).length : Int) + off).toNat + a := by omega
      rw [hx, ← List.drop_drop]
      generalize (hist s ++ cont s).drop (((hist s).length : Int) + off).toNat = l
      show some (l.take a ++ (l.drop a).take (n + 1 - a), s2) = some (l.take (n + 1), s2)
      rw [← List.take_add]
      congr 3; omega

theorem copy_law (s : σ) (off : Int) (n : Nat) (hi : Inv s) (h0 : -((hist s).length : Int) ≤ off)
    (h1 : off + n ≤ (cont s).length) (hneg : off < 0 → 0 < n → NegOk s) : ∃ s', copy s off n =
      some (((hist s ++ cont s).drop ((hist s).length + off).toNat).take n, s') ∧ Inv s' ∧ hist s' = hist s ∧
      cont s' = cont s ∧ free s' = free s := copyLoop_law _ s off n hi (Nat.le_refl _) h0 h1 hneg

theorem splice_splice (l a b : List Byte) (i : Nat) (h : i + a.length + b.length ≤ l.length) :
    splice (splice l i a) (i + a.length) b = splice l i (a ++ b) := by
  unfold splice
  have h1 : (l.take i ++ a).length = i + a.length := by simp; omega
  rw [← h1, List.take_left]
  rw [List.drop_append, List.drop_of_length_le (by omega : (l.take i ++ a).length ≤ _)]
  simp only [List.nil_append, List.drop_drop, List.append_assoc, List.length_append]
  congr 4
  simp; omega

theorem pokeLoop_law (fuel : Nat) : ∀ (s : σ) (off : Int) (d : List Byte), Inv s → d.length ≤ fuel →
    -((hist s).length : Int) ≤ off → off + d.length ≤ (cont s).length →
    (off < 0 → 0 < d.length → NegOk s) → ∃ s', pokeLoop s off fuel d = some s' ∧ Inv s' ∧
      (hist s').length = (hist s).length ∧
      hist s' ++ cont s' = splice (hist s ++ cont s) ((hist s).length + off).toNat d ∧ free s' = free s := by
  induction fuel with
  | zero =>
    intro s off d hi hn _ _ _
    have : d = [] := List.eq_nil_of_length_eq_zero (by omega)
    subst this
    exact ⟨s, by simp [pokeLoop], hi, rfl, by simp [splice], rfl⟩
  | succ fuel ih =>
    intro s off d hi hn h0 h1 hneg
    cases d with
    | nil => exact ⟨s, by simp [pokeLoop], hi, rfl, by simp [splice], rfl⟩
    | cons c cs =>
      generalize hd : c :: cs = d at *
      have hne : 0 < d.length := by rw [← hd]; simp
      obtain ⟨o1, o2⟩ := optpeekable_law s off hi h0 (by omega)
      rw [← hd, pokeLoop, hd]
      simp only [if_neg (show ¬ optpeekable s off = 0 by omega)]
      generalize ha : (if optpeekable s off > d.length then d.length else optpeekable s off) = a
      have ha1 : a ≤ d.length ∧ 0 < a ∧ a ≤ optpeekable s off := by
        rw [← ha]; split <;> omega
      obtain ⟨p, s1, e1, e2, e3, e4, e5, e6, e7⟩ := mutablepeek_law s off a hi h0 (by omega) ha1.2.1 (fun h => hneg h (by omega)) ha1.2.2
      have hlen : (d.take a).length = a := by rw [List.length_take]; omega
      obtain ⟨s2, w1, w2, w3, w4, w5, -, w6⟩ := write_law s1 p off a (d.take a) e2 e6 (by omega)
      rw [e3, e4] at w5
      rw [e3] at w3
      have htot : (hist s2 ++ cont s2).length = (hist s ++ cont s).length := by
        rw [w5, splice_length]
        rw [List.length_append, hlen]; omega
      rw [List.length_append, List.length_append] at htot
      obtain ⟨s3, f1, f2, f3, f4, f5⟩ := ih s2 (off + a) (d.drop a) w2 (by rw [List.length_drop]; omega) (by omega)
        (by rw [List.length_drop]; omega)
        (fun h _ => w6 (e7 (hneg (by omega) (by omega))))
      refine ⟨s3, ?_, f2, by omega, ?_, by omega⟩
      · simp only [e1, w1, f1, Option.bind_eq_bind, Option.bind_some]
      · rw [f4, w5]
        have hx : (((hist s2).length : Int) + (off + (a : Int))).toNat =
            (((hist s).length : Int) + off).toNat + (d.take a).length := by rw [hlen]; omega
        rw [hx, splice_splice _ _ _ _ (by rw [List.length_append, List.length_drop, hlen]; omega), List.take_append_drop]

/-- `poke` over the end of the buffer, or within it. When it goes over the end, it must start in the readable part. -/
theorem poke_law (s : σ) (d : List Byte) (off : Int) (hi : Inv s) (h0 : -((hist s).length : Int) ≤ off)
    (h1 : off ≤ (cont s).length)
    (h2 : off + d.length ≤ (cont s).length ∨ (0 ≤ off ∧ off + d.length ≤ (cont s).length + free s))
    (hneg : off < 0 → 0 < d.length → NegOk s) :
    ∃ s', poke s d off = some s' ∧ Inv s' ∧
      ∃ k, hist s' ++ cont s' = (splice (hist s ++ cont s) ((hist s).length + off).toNat d).drop k ∧
        (hist s').length + k = (hist s).length := by
  unfold poke
  rw [used_eq s hi]
  simp only [if_pos h1]
  by_cases hend : ((cont s).length : Int) ≤ off + d.length
  · rw [if_pos hend]
    generalize ht : (off + (d.length : Int) - ((cont s).length : Int)).toNat = t
    generalize hc : d.length - t = c
    by_cases hin : off + d.length ≤ (cont s).length
    · have : t = 0 := by omega
      have hcd : c = d.length := by omega
      rw [hcd, List.drop_length, List.take_length]
      obtain ⟨s3, f1, f2, f3, f4, f5⟩ := pokeLoop_law d.length s off d hi (Nat.le_refl _) h0 hin hneg
      exact ⟨s3, by simp [put, putLoop, f1], f2, 0, by simpa using f4, by omega⟩
    · have hnn : 0 ≤ off ∧ off + d.length ≤ (cont s).length + free s := by
        rcases h2 with h | h
        · exact absurd h hin
        · exact h
      have hdl : (d.drop c).length = t := by rw [List.length_drop]; omega
      have htl : (d.take c).length = c := by rw [List.length_take]; omega
      obtain ⟨s1, e1, e2, e3, ⟨k, e4⟩, e5⟩ := put_law s (d.drop c) hi (by omega)
      obtain ⟨s3, f1, f2, f3, f4, f5⟩ := pokeLoop_law c s1 off (d.take c) e2 (by omega) (by omega)
        (by rw [e3, htl, List.length_append]; omega) (fun h => by omega)
      have hk : (hist s1).length = (hist s).length - k := by rw [e4, List.length_drop]
      refine ⟨s3, by simp [e1, f1], f2, (hist s).length - (hist s1).length, ?_, by omega⟩
      rw [f4]
      have x1 : (((hist s1).length : Int) + off).toNat = (hist s1).length + off.toNat := by omega
      have x2 : (((hist s).length : Int) + off).toNat = (hist s).length + off.toNat := by omega
      rw [x1, x2, splice_append_right, splice_append_right, List.drop_append, e3]
      have hz : (hist s).length - (hist s1).length - (hist s).length = 0 := by omega
      rw [hz, List.drop_zero]
      have hh : hist s1 = (hist s).drop ((hist s).length - (hist s1).length) := by
        rw [hk, e4]
        by_cases hkl : k ≤ (hist s).length
        · congr 1; omega
        · rw [List.drop_of_length_le (by omega), List.drop_of_length_le (by omega)]
      rw [← hh]
      congr 1
      unfold splice
      have hsum : off.toNat + c = (cont s).length := by omega
      rw [htl, hsum, List.drop_left, List.take_append_of_le_length (by omega),
        List.drop_of_length_le (by omega : (cont s).length ≤ off.toNat + d.length), List.append_nil, List.append_assoc,
        List.take_append_drop]
  · rw [if_neg hend]
    obtain ⟨s3, f1, f2, f3, f4, f5⟩ := pokeLoop_law d.length s off d hi (Nat.le_refl _) h0 (by omega) hneg
    exact ⟨s3, f1, f2, 0, by simpa using f4, by omega⟩

theorem drop_app (l x : List Byte) (k : Nat) : ∃ j, l.drop k ++ x = (l ++ x).drop j := by
  by_cases h : k ≤ l.length
  · exact ⟨k, (List.drop_append_of_le_length h).symm⟩
  · exact ⟨l.length, by rw [List.drop_left, List.drop_of_length_le (by omega)]; rfl⟩

/-- What is left of a history and what was taken after it, in two steps. -/
theorem hist_steps (h0 c0 h1 c1 h2 : List Byte) (a n k k2 : Nat) (e1 : h1 = h0.drop k ++ c0.take a) (e2 : c1 = c0.drop a)
    (e3 : h2 = (h1 ++ c1.take n).drop k2) : ∃ j, h2 = (h0 ++ c0.take (a + n)).drop j := by
  rw [e3, e1, e2, List.append_assoc, ← List.take_add]
  obtain ⟨j, hj⟩ := drop_app h0 (c0.take (a + n)) k
  exact ⟨j + k2, by rw [hj, List.drop_drop]⟩

/-- The copying loop of merge. `t` are the bytes already taken from `src` and not copied, `base` what the destination
    holds without the space already allocated. -/
theorem mergeLoop_law (fuel : Nat) : ∀ (dst : σ) (src : τ) (ip op : Loc) (ia oa count : Nat) (t h base g : List Byte),
    Inv dst → Inv src → 0 < count → count ≤ fuel → t.length = ia → ia ≤ count → oa ≤ count →
    (ia = 0 ∨ (hist src = h ++ t ∧ At src ip (-ia) ia)) →
    cont dst = base ++ g → g.length = oa → (oa = 0 ∨ At dst op base.length oa) →
    count ≤ ia + (cont src).length → count ≤ oa + free dst →
    ∃ dst' src', mergeLoop dst src ip ia op oa fuel count = some (dst', src') ∧ Inv dst' ∧ Inv src' ∧
      cont dst' = base ++ (t ++ cont src).take count ∧ cont src' = (t ++ cont src).drop count ∧
      (∃ k, hist dst' = (hist dst).drop k) ∧ free dst + oa ≤ free dst' + count ∧ free src ≤ free src' ∧
      (∃ k, hist src' = (hist src ++ (cont src).take (count - ia)).drop k) := by
  induction fuel with
  | zero => intro _ _ _ _ _ _ _ _ _ _ _ _ _ h1 h2; omega
  | succ fuel ih =>
    intro dst src ip op ia oa count t h base g hd hs hcount hfuel htl hia hoa hin hc hgl hout hav hroom
    -- the source side: there are now bytes to copy
    have hsrc : ∃ ip' ia' src' t' h', refillIn src ip ia count = some (ip', ia', src') ∧ Inv src' ∧ 0 < ia' ∧ ia' ≤ count ∧ t'.length = ia' ∧
        hist src' = h' ++ t' ∧ At src' ip' (-ia') ia' ∧ t' ++ cont src' = t ++ cont src ∧ free src ≤ free src' ∧
        (∃ a k, ia' = ia + a ∧ hist src' = (hist src).drop k ++ (cont src).take a ∧ cont src' = (cont src).drop a) := by
      by_cases h0 : ia = 0
      · have ht : t = [] := List.eq_nil_of_length_eq_zero (by omega)
        have hne : cont src ≠ [] := by intro h; rw [h] at hav; simp at hav; omega
        obtain ⟨o1, o2⟩ := optgettable_law src hs
        have o2 := o2 hne
        generalize ha : (if optgettable src > count then count else optgettable src) = a
        have ha1 : a ≤ count ∧ 0 < a ∧ a ≤ (cont src).length := by rw [← ha]; split <;> omega
        obtain ⟨p, s1, e1, e2, e3, ⟨k, e4⟩, e5, e6⟩ := get_law src a hs ha1.2.2
        refine ⟨p, a, s1, (cont src).take a, (hist src).drop k, ?_, e2, ha1.2.1, ha1.1, by rw [List.length_take]; omega,
          e4, e5, ?_, e6, a, k, by omega, e4, e3⟩
        · simp only [refillIn, if_pos h0, if_neg (show ¬ optgettable src = 0 by omega), ha, e1, Option.map_some]
        · rw [e3, ht, List.take_append_drop]; rfl
      · have hin := hin.resolve_left h0
        exact ⟨ip, ia, src, t, h, by rw [refillIn, if_neg h0], hs, by omega, hia, htl, hin.1, hin.2, rfl, Nat.le_refl _, 0, 0, rfl, by simp, by simp⟩
    obtain ⟨ip', ia', src', t', h', es, hs', hia0, hia', htl', hhs, hats, hts, hfs, ga, gk, hga, hgh, hgc⟩ := hsrc
    -- the destination side: there is now space
    have hdst : ∃ op' oa' dst' g' k, refillOut dst op oa count = some (op', oa', dst') ∧ Inv dst' ∧ 0 < oa' ∧ oa' ≤ count ∧ g'.length = oa' ∧
        cont dst' = base ++ g' ∧ At dst' op' base.length oa' ∧ hist dst' = (hist dst).drop k ∧
        free dst + oa ≤ free dst' + oa' := by
      by_cases h0 : oa = 0
      · have hg : g = [] := List.eq_nil_of_length_eq_zero (by omega)
        have o2 := optallocable_law dst hd (by omega)
        generalize ha : (if optallocable dst > count then count else optallocable dst) = a
        have ha1 : a ≤ count ∧ 0 < a ∧ a ≤ optallocable dst := by rw [← ha]; split <;> omega
        obtain ⟨p, s1, g1, e1, e2, e3, e4, ⟨k, e5⟩, e6, e7⟩ := alloc_law dst a hd (Or.inr ha1.2.2)
        rw [hg, List.append_nil] at hc
        refine ⟨p, a, s1, g1, k, ?_, e2, ha1.2.1, ha1.1, e3, by rw [e4, hc], by rw [← hc]; exact e6, e5, by omega⟩
        simp only [refillOut, if_pos h0, if_neg (show ¬ optallocable dst = 0 by omega), ha, e1, Option.map_some]
      · exact ⟨op, oa, dst, g, 0, by rw [refillOut, if_neg h0], hd, by omega, hoa, hgl, hc, hout.resolve_left h0, rfl, Nat.le_refl _⟩
    obtain ⟨op', oa', dst', g', k, ed, hd', hoa0, hoa', hgl', hcd, hatd, hhd, hfd⟩ := hdst
    have htsl : ia' + (cont src').length = ia + (cont src).length := by
      have := congrArg List.length hts
      rw [List.length_append, List.length_append] at this
      omega
    rw [mergeLoop, es, ed]
    simp only [Option.bind_eq_bind, Option.bind_some]
    rw [← hts]
    by_cases hlt : ia' < oa'
    · rw [if_pos hlt]
      have hr := read_taken src' ip' ia' h' t' hs' hhs htl' hats ia' (Nat.le_refl _)
      rw [List.take_of_length_le (by omega)] at hr
      obtain ⟨d2, g2, w1, w2, w3, w4, w5, w6, w7⟩ := write_tail dst' op' base g' oa' t' hd' hcd hgl' hatd (by omega)
      simp only [hr, w1, Option.bind_some]
      rw [if_neg (by omega)]
      have := ih d2 src' ip' (op'.add ia') 0 (oa' - ia') (count - ia') [] [] (base ++ t') g2 w2 hs' (by omega) (by omega) rfl
        (by omega) (by omega) (Or.inl rfl) w5 (by omega) (Or.inr (by rw [← htl']; exact w7)) (by omega) (by omega)
      obtain ⟨d3, s3, r1, r2, r3, r4, r5, ⟨k3, r6⟩, r7, r8, ⟨k4, r9⟩⟩ := this
      refine ⟨d3, s3, r1, r2, r3, ?_, ?_, ⟨k + k3, by rw [r6, w3, hhd, List.drop_drop]⟩, by omega, by omega, by
        rw [show count - ia = ga + (count - ia' - 0) by omega]
        exact hist_steps _ _ _ _ _ _ _ _ _ hgh hgc r9⟩
      · rw [r4, List.nil_append, List.take_append, htl', List.take_of_length_le (by omega : t'.length ≤ count),
          List.append_assoc]
      · rw [r5, List.nil_append, List.drop_append, htl', List.drop_of_length_le (by omega : t'.length ≤ count),
          List.nil_append]
    · rw [if_neg hlt]
      have hr := read_taken src' ip' ia' h' t' hs' hhs htl' hats oa' (by omega)
      have htk : (t'.take oa').length = oa' := by rw [List.length_take]; omega
      obtain ⟨d2, g2, w1, w2, w3, w4, w5, w6, w7⟩ := write_tail dst' op' base g' oa' (t'.take oa') hd' hcd hgl' hatd (by omega)
      have hg2 : g2 = [] := List.eq_nil_of_length_eq_zero (by omega)
      rw [hg2, List.append_nil] at w5
      simp only [hr, w1, Option.bind_some]
      by_cases hz : count - oa' = 0
      · rw [if_pos hz]
        have hteq : t'.take oa' = t' := List.take_of_length_le (by omega)
        refine ⟨d2, src', rfl, w2, hs', ?_, ?_, ⟨k, by rw [w3, hhd]⟩, by omega, hfs, by
          rw [show count - ia = ga + 0 by omega]
          exact hist_steps _ _ _ _ _ _ 0 _ 0 hgh hgc (by simp)⟩
        · rw [w5, hteq, List.take_append, List.take_of_length_le (by omega : t'.length ≤ count),
            show count - t'.length = 0 by omega, List.take_zero, List.append_nil]
        · rw [List.drop_append, List.drop_of_length_le (by omega : t'.length ≤ count),
            show count - t'.length = 0 by omega]; rfl
      · rw [if_neg hz]
        have hat2 : At src' (ip'.add oa') (-((ia' - oa' : Nat) : Int)) (ia' - oa') := by
          have := at_add src' ip' _ ia' oa' hs' hats (by omega)
          have e : -(ia' : Int) + (oa' : Int) = -((ia' - oa' : Nat) : Int) := by omega
          rw [e] at this; exact this
        have := ih d2 src' (ip'.add oa') op' (ia' - oa') 0 (count - oa') (t'.drop oa') (h' ++ t'.take oa') (base ++ t'.take oa')
          [] w2 hs' (by omega) (by omega) (by rw [List.length_drop]; omega)
          (by omega) (by omega) (Or.inr ⟨by rw [List.append_assoc, List.take_append_drop]; exact hhs, hat2⟩)
          (by rw [w5, List.append_nil]) rfl (Or.inl rfl) (by omega) (by omega)
        obtain ⟨d3, s3, r1, r2, r3, r4, r5, ⟨k3, r6⟩, r7, r8, ⟨k4, r9⟩⟩ := this
        have hsplit : t' ++ cont src' = t'.take oa' ++ (t'.drop oa' ++ cont src') := by
          rw [← List.append_assoc, List.take_append_drop]
        refine ⟨d3, s3, r1, r2, r3, ?_, ?_, ⟨k + k3, by rw [r6, w3, hhd, List.drop_drop]⟩, by omega, by omega, by
          rw [show count - ia = ga + (count - oa' - (ia' - oa')) by omega]
          exact hist_steps _ _ _ _ _ _ _ _ _ hgh hgc r9⟩
        · rw [r4, List.append_assoc, hsplit]
          congr 1
          rw [List.take_append (l₁ := t'.take oa'), htk, List.take_of_length_le (by omega : (t'.take oa').length ≤ count)]
        · rw [r5, hsplit, List.drop_append (l₁ := t'.take oa'), htk,
            List.drop_of_length_le (by omega : (t'.take oa').length ≤ count), List.nil_append]

theorem basicmerge_law (dst : σ) (src : τ) (n : Nat) (hd : Inv dst) (hs : Inv src) (hn : n ≤ (cont src).length)
    (hr : n ≤ free dst) :
    ∃ dst' src', basicmerge dst src n = some (dst', src') ∧ Inv dst' ∧ Inv src' ∧
      cont dst' = cont dst ++ (cont src).take n ∧ cont src' = (cont src).drop n ∧
      (∃ k, hist dst' = (hist dst).drop k) ∧ free dst ≤ free dst' + n ∧ free src ≤ free src' ∧
      (∃ k, hist src' = (hist src ++ (cont src).take n).drop k) := by
  unfold basicmerge
  by_cases h0 : n = 0
  · subst h0
    exact ⟨dst, src, rfl, hd, hs, by simp, by simp, ⟨0, by simp⟩, Nat.le_refl _, Nat.le_refl _, ⟨0, by simp⟩⟩
  · rw [if_neg h0]
    obtain ⟨d, s, h⟩ := mergeLoop_law n dst src ⟨0, 0⟩ ⟨0, 0⟩ 0 0 n [] [] (cont dst) [] hd hs (by omega) (Nat.le_refl _) rfl
      (by omega) (by omega) (Or.inl rfl) (by simp) rfl (Or.inl rfl) (by omega) (by omega)
    exact ⟨d, s, by simpa using h⟩

end
end Wv.Buf
