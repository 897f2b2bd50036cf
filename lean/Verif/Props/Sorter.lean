import Verif.Model.Sorter
/- C94: sorted iterators. -/
namespace Props
open Wv.Sorter
open Spec.Sorter (Consistent Sorted IsSort)

namespace Srt

/-- What `qsort` ends with, if `f` is the comparison. -/
def eval (f : Nat → Nat → Int) : Prog → List Nat
  | .ret l => l
  | .ask a b k => eval f (k (f a b))

/-- The contract of `qsort`. -/
def Sorts (q : List Nat → Prog) : Prop := ∀ f, Consistent f → ∀ l, IsSort f l (eval f (q l))

/-- What a comparison function answers. -/
def answer : Cmp → Nat → Nat → Int
  | .fn f => f
  | .nest f _ _ => f

theorem runProg_eq (inv : Global → Nat → Nat → Option (Int × Global)) (f : Nat → Nat → Int) (g : Global)
    (h : ∀ a b, inv g a b = some (f a b, g)) : ∀ p, runProg inv p g = some (eval f p, g)
  | .ret l => rfl
  | .ask a b k => by
    rw [runProg, h a b]
    exact runProg_eq inv f g h (k (f a b))

theorem sortWith_eq (inv : Global → Nat → Nat → Option (Int × Global)) (q : List Nat → Prog) (c : Cmp) (l : List Nat) (g : Global)
    (h : ∀ a b, inv (some c) a b = some (answer c a b, some c)) : sortWith inv q c l g = some (eval (answer c) (q l), g) := by
  unfold sortWith
  rw [runProg_eq inv (answer c) (some c) h]; rfl

/-- How deep a comparison function goes. -/
def depth : Cmp → Nat
  | .fn _ => 1
  | .nest _ c _ => depth c + 1

theorem invoke_eq (q : List Nat → Prog) (c : Cmp) : ∀ n, depth c ≤ n → ∀ a b, invoke q n (some c) a b = some (answer c a b, some c) := by
  induction c with
  | fn f =>
    intro n hn a b
    cases n with
    | zero => simp [depth] at hn
    | succ n => rfl
  | nest f c l ih =>
    intro n hn a b
    cases n with
    | zero => simp [depth] at hn
    | succ n =>
      rw [invoke, sortWith_eq _ q c l _ (ih n (by simp [depth] at hn; omega))]; rfl

theorem fill_eq : ∀ (n : Nat) (l : List Nat), fill n l = (l.take n, n - l.length)
  | n, [] => by cases n <;> rfl
  | 0, a :: l => by simp [fill]
  | n + 1, a :: l => by simp [fill, fill_eq n l]

theorem walk_eq (tail : List Nat) : ∀ (v pre : List Nat) (x : Nat) (n : Nat), (∀ a ∈ v, a ≠ 0) → v.length < n →
    walk n ⟨some (pre ++ x :: (v ++ 0 :: tail)), pre.length⟩ = some (v, ⟨some (pre ++ x :: (v ++ 0 :: tail)), pre.length + v.length + 1⟩)
  | [], pre, x, 0, _, hn => by simp at hn
  | [], pre, x, n + 1, _, _ => by
    have h : (pre ++ x :: ([] ++ 0 :: tail))[pre.length + 1]? = some 0 := by simp [List.getElem?_append_right]
    rw [walk, next]; dsimp only; rw [h]; rfl
  | a :: v, pre, x, 0, _, hn => by simp at hn
  | a :: v, pre, x, n + 1, hv, hn => by
    have h : (pre ++ x :: (a :: v ++ 0 :: tail))[pre.length + 1]? = some a := by simp [List.getElem?_append_right]
    have ha : a ≠ 0 := hv a (by simp)
    have hb : (a != 0) = true := by simp [ha]
    have hi := walk_eq tail v (pre ++ [x]) a n (fun b hb => hv b (by simp [hb])) (by simpa using hn)
    have e1 : pre ++ [x] ++ a :: (v ++ 0 :: tail) = pre ++ x :: (a :: v ++ 0 :: tail) := by simp
    have e2 : (pre ++ [x]).length = pre.length + 1 := by simp
    rw [e1, e2] at hi
    rw [walk, next]; dsimp only; rw [h]
    simp only [Option.bind_some, hb, if_true]
    rw [show ptr ⟨some (pre ++ x :: (a :: v ++ 0 :: tail)), pre.length + 1⟩ = some a from h]
    simp only [Option.bind_some]
    rw [hi]
    simp only [Option.map_some, List.length_cons]
    rw [show pre.length + 1 + v.length + 1 = pre.length + (v.length + 1) + 1 from by omega]

/-- Insertion sort, to show that there is such a `qsort`. -/
def insProg (a : Nat) : List Nat → (List Nat → Prog) → Prog
  | [], k => k [a]
  | b :: r, k => .ask a b fun i => if i ≤ 0 then k (a :: b :: r) else insProg a r fun r' => k (b :: r')

def insertion : List Nat → (List Nat → Prog) → Prog
  | [], k => k []
  | a :: l, k => insertion l fun r => insProg a r k

def ins (f : Nat → Nat → Int) (a : Nat) : List Nat → List Nat
  | [] => [a]
  | b :: r => if f a b ≤ 0 then a :: b :: r else b :: ins f a r

theorem insProg_eval (f : Nat → Nat → Int) (a : Nat) : ∀ (l : List Nat) (k : List Nat → Prog), eval f (insProg a l k) = eval f (k (ins f a l))
  | [], _ => rfl
  | b :: r, k => by
    rw [insProg, eval, ins]
    split
    · rfl
    · exact insProg_eval f a r _

theorem insertion_eval (f : Nat → Nat → Int) : ∀ (l : List Nat) (k : List Nat → Prog), eval f (insertion l k) = eval f (k (l.foldr (ins f) []))
  | [], _ => rfl
  | a :: l, k => by
    rw [insertion, insertion_eval f l, insProg_eval]; rfl

theorem ins_perm (f : Nat → Nat → Int) (a : Nat) : ∀ l, (ins f a l).Perm (a :: l)
  | [] => List.Perm.refl _
  | b :: r => by
    rw [ins]
    split
    · exact List.Perm.refl _
    · exact ((ins_perm f a r).cons b).trans (List.Perm.swap a b r)

theorem ins_sorted (f : Nat → Nat → Int) (hf : Consistent f) (a : Nat) : ∀ l, Sorted f l → Sorted f (ins f a l)
  | [], _ => by simp [ins, Sorted]
  | b :: r, h => by
    rw [ins]
    have hb := List.pairwise_cons.mp h
    split
    · rename_i hab
      refine List.pairwise_cons.mpr ⟨fun c hc => ?_, h⟩
      rcases List.mem_cons.mp hc with rfl | hc
      · exact hab
      · exact hf.trans a b c hab (hb.1 c hc)
    · rename_i hab
      refine List.pairwise_cons.mpr ⟨fun c hc => ?_, ins_sorted f hf a r hb.2⟩
      rcases List.mem_cons.mp ((ins_perm f a r).mem_iff.mp hc) with rfl | hc
      · have := (hf.opposite b c).mpr (by omega); omega
      · exact hb.1 c hc

theorem insertion_sorts : Sorts fun l => insertion l .ret := by
  intro f hf l
  rw [insertion_eval]
  show IsSort f l (l.foldr (ins f) [])
  induction l with
  | nil => exact ⟨List.Perm.refl _, List.Pairwise.nil⟩
  | cons a l ih => exact ⟨(ins_perm f a _).trans (ih.1.cons a), ins_sorted f hf a _ ih.2⟩

end Srt
open Srt

/-- C94: after `rewind` the loop over a sorter visits the elements that the list has then, each exactly as often as the list has it, in sorted order; it ends
    at the terminating NULL. The comparison function may itself sort with other sorters, to any depth; sorters that are in progress further out are not
    disturbed: the comparison function in use afterwards is the one before. If the list changes between counting and copying, what is visited is what the copying finds, up to the number counted. -/
theorem C94_walk_partial (q : List Nat → Prog) (hq : Sorts q) (c : Cmp) (hc : Consistent (answer c)) (l1 l2 : List Nat) (h0 : 0 ∉ l2) (junk : Nat) (g : Global)
    (d : Nat) (hd : depth c ≤ d) : ∃ s v s', rewind q d junk c l1 l2 g = some (s, g) ∧ (∀ n, l2.length < n → walk n s = some (v, s')) ∧
      IsSort (answer c) (l2.take l1.length) v ∧ cur s = some false ∧ cur s' = some false := by
  have hs := hq (answer c) hc (l2.take l1.length)
  have hv : ∀ a ∈ eval (answer c) (q (l2.take l1.length)), a ≠ 0 := by
    intro a ha he
    exact h0 (he ▸ List.mem_of_mem_take (hs.1.mem_iff.mp ha))
  have hlen : (eval (answer c) (q (l2.take l1.length))).length ≤ l2.length := by
    rw [hs.1.length_eq, List.length_take]; omega
  generalize hve : eval (answer c) (q (l2.take l1.length)) = v at hs hv hlen
  have hr : rewind q d junk c l1 l2 g = some (⟨some (0 :: (v ++ 0 :: List.replicate (l1.length - l2.length) junk)), 0⟩, g) := by
    unfold rewind
    dsimp only
    rw [fill_eq, sortWith_eq _ q c _ g (invoke_eq q c d hd), hve]
    simp
  refine ⟨_, v, _, hr, fun n hn => walk_eq (List.replicate (l1.length - l2.length) junk) v [] 0 n hv (by omega), hs, rfl, ?_⟩
  unfold cur
  simp [List.getElem?_append_right]

example : ((rewind (fun l => insertion l .ret) 2 9 (.nest (fun a b => a - b) (.fn fun a b => b - a) [1, 2, 3]) [5, 3, 8, 3] [5, 3, 8, 3] none).bind fun s =>
    (walk 10 s.1).map fun w => w.1) = some [3, 3, 5, 8] := by decide +kernel

/-- C94: there are such sorting procedures and comparisons. -/
example : Sorts (fun l => insertion l .ret) ∧ Consistent (fun a b => (a : Int) - b) :=
  ⟨insertion_sorts, ⟨fun a b => by omega, fun a b c h1 h2 => by omega⟩⟩

/-- C94: one more `next` after the one that returned false reads beyond the array. -/
theorem C94_after_fails (q : List Nat → Prog) (hq : Sorts q) (c : Cmp) (hc : Consistent (answer c)) (l : List Nat) (h0 : 0 ∉ l) (junk : Nat) (g : Global) :
    ∃ s v s', rewind q (depth c) junk c l l g = some (s, g) ∧ walk (l.length + 1) s = some (v, s') ∧ next s' = none := by
  have hs := hq (answer c) hc (l.take l.length)
  have hv : ∀ a ∈ eval (answer c) (q (l.take l.length)), a ≠ 0 := by
    intro a ha he
    exact h0 (he ▸ List.mem_of_mem_take (hs.1.mem_iff.mp ha))
  have hlen : (eval (answer c) (q (l.take l.length))).length = l.length := by
    rw [hs.1.length_eq, List.length_take]; omega
  generalize hve : eval (answer c) (q (l.take l.length)) = v at hs hv hlen
  have hr : rewind q (depth c) junk c l l g = some (⟨some (0 :: (v ++ 0 :: List.replicate (l.length - l.length) junk)), 0⟩, g) := by
    unfold rewind
    dsimp only
    rw [fill_eq, sortWith_eq _ q c _ g (invoke_eq q c _ (Nat.le_refl _)), hve]
    simp
  refine ⟨_, v, _, hr, walk_eq (List.replicate (l.length - l.length) junk) v [] 0 _ hv (by omega), ?_⟩
  simp [next]

/-- C94: a sorter that was not rewound cannot be used. -/
theorem C94_fresh_fails (p : Nat) : next ⟨none, p⟩ = none ∧ cur ⟨none, p⟩ = none ∧ ptr ⟨none, p⟩ = none := ⟨rfl, rfl, rfl⟩

/-- C94: if the list has a NULL pointer, the loop ends there, and what sorts after it is not visited. -/
theorem C94_null_fails : ((rewind (fun l => insertion l .ret) 1 9 (.fn fun a b => (a : Int) - b) [5, 0, 8] [5, 0, 8] none).bind fun s =>
    (walk 10 s.1).map fun w => w.1) = some [] := by decide +kernel

end Props
