import Verif.Model.Refs
import Verif.Spec.Refs
import Verif.Props.Xplc
/- C86: references and weak references. -/
namespace Props
open Wv Wv.Refs
open Wv.Xplc (Obj Ledger)
open Xp (balance balance_append balance_one)

namespace RefC

/-- What the program does for a call. -/
def exec (m : Mem) : Spec.Refs.Op → Option (Spec.Refs.Answer × Mem)
  | .addRef => (addRef m).map fun r => (.count r.1, r.2)
  | .release => (release m).map fun r => (.count r.1, r.2)
  | .getWeak => (getWeak m).map fun r => (.nothing, r.2)
  | .weakAddRef => (weakAddRef m).map fun r => (.nothing, r.2)
  | .weakRelease => (weakRelease m).map fun r => (.nothing, r.2)
  | .weakGet => (weakGet m).map fun r => (.object r.1, r.2)

def execAll : Mem → List Spec.Refs.Op → Option (List Spec.Refs.Answer × Mem)
  | m, [] => some ([], m)
  | m, op :: ops =>
    match exec m op with
    | none => none
    | some (a, m1) => (execAll m1 ops).map fun r => (a :: r.1, r.2)

/-- The state of the memory when these references are held. -/
structure Inv (m : Mem) (asked : Bool) (h : Spec.Refs.Held) : Prop where
  count : m.count = if h.strong = 0 then none else some h.strong
  has : m.hasWeak = asked
  weak : m.weak = if asked = true ∧ 0 < h.strong then some (h.weak + 1, true) else
    if 0 < h.weak then some (h.weak, false) else none
  never : asked = false → h.weak = 0

theorem inv_step (m : Mem) (asked : Bool) (h : Spec.Refs.Held) (hi : Inv m asked h) (op : Spec.Refs.Op) (ha : Spec.Refs.allowed h op)
    (hk : Spec.Refs.keeps asked h op) :
    ∃ m', exec m op = some (Spec.Refs.answer h op, m') ∧
      Inv m' (Spec.Refs.askedAfter asked op) (Spec.Refs.step h op) := by
  obtain ⟨h1, h2, h3, h4⟩ := hi
  obtain ⟨c, w, k⟩ := m
  obtain ⟨s, n⟩ := h
  simp only at h1 h2 h3 h4
  subst h1 h2 h3
  cases op with
  | addRef =>
    have hs : 0 < s := ha
    have : ¬ s = 0 := by omega
    cases w with
    | false =>
      have hn : n = 0 := h4 rfl
      subst hn
      exact ⟨⟨some (s + 1), false, none⟩, by simp [exec, addRef, this, Spec.Refs.answer], by simp [Spec.Refs.step, Spec.Refs.askedAfter], rfl,
        by simp [Spec.Refs.step, Spec.Refs.askedAfter], fun _ => rfl⟩
    | true =>
      exact ⟨⟨some (s + 1), true, some (n + 1, true)⟩, by simp [exec, addRef, this, hs, Spec.Refs.answer], by simp [Spec.Refs.step, Spec.Refs.askedAfter], rfl,
        by simp [Spec.Refs.step, Spec.Refs.askedAfter], by simp [Spec.Refs.askedAfter]⟩
  | release =>
    have hs : 0 < s := ha
    have hs0 : ¬ s = 0 := by omega
    by_cases h1 : s = 1
    · subst h1
      cases w with
      | false =>
        have hn : n = 0 := h4 rfl
        subst hn
        exact ⟨⟨none, false, none⟩, by simp [exec, release, Spec.Refs.answer], by simp [Spec.Refs.step, Spec.Refs.askedAfter], rfl, by simp [Spec.Refs.step, Spec.Refs.askedAfter], fun _ => rfl⟩
      | true =>
        have hn : 0 < n := hk rfl rfl
        have hn0 : ¬ n = 0 := by omega
        exact ⟨⟨none, true, some (n, false)⟩, by simp [exec, release, weakRelease, clearWeak, Spec.Refs.answer, hn0],
          by simp [Spec.Refs.step, Spec.Refs.askedAfter], rfl, by simp [Spec.Refs.step, Spec.Refs.askedAfter, hn], by simp [Spec.Refs.askedAfter]⟩
    · have h2 : ¬ s - 1 = 0 := by omega
      have h3 : 0 < s - 1 := by omega
      cases w with
      | false =>
        have hn : n = 0 := h4 rfl
        subst hn
        exact ⟨⟨some (s - 1), false, none⟩, by simp [exec, release, hs0, h2, Spec.Refs.answer], by simp [Spec.Refs.step, Spec.Refs.askedAfter, h2], rfl,
          by simp [Spec.Refs.step, Spec.Refs.askedAfter], fun _ => rfl⟩
      | true =>
        exact ⟨⟨some (s - 1), true, some (n + 1, true)⟩, by simp [exec, release, hs0, h2, hs, Spec.Refs.answer], by simp [Spec.Refs.step, Spec.Refs.askedAfter, h2], rfl,
          by simp [Spec.Refs.step, Spec.Refs.askedAfter, h3], by simp [Spec.Refs.askedAfter]⟩
  | getWeak =>
    have hs : 0 < s := ha
    have hs0 : ¬ s = 0 := by omega
    cases w with
    | false =>
      have hn : n = 0 := h4 rfl
      subst hn
      exact ⟨⟨some s, true, some (2, true)⟩, by simp [exec, getWeak, weakAddRef, hs0, Spec.Refs.answer], by simp [Spec.Refs.step, Spec.Refs.askedAfter, hs0], rfl,
        by simp [Spec.Refs.step, Spec.Refs.askedAfter, hs], by simp [Spec.Refs.askedAfter]⟩
    | true =>
      exact ⟨⟨some s, true, some (n + 2, true)⟩, by simp [exec, getWeak, weakAddRef, hs0, hs, Spec.Refs.answer], by simp [Spec.Refs.step, Spec.Refs.askedAfter, hs0], rfl,
        by simp [Spec.Refs.step, Spec.Refs.askedAfter, hs], by simp [Spec.Refs.askedAfter]⟩
  | weakAddRef =>
    have hn : 0 < n := ha
    have hw : w = true := by
      cases w with
      | true => rfl
      | false => have := h4 rfl; omega
    subst hw
    by_cases hs : 0 < s
    · have hs0 : ¬ s = 0 := by omega
      exact ⟨⟨some s, true, some (n + 2, true)⟩, by simp [exec, weakAddRef, hs, hs0, Spec.Refs.answer], by simp [Spec.Refs.step, Spec.Refs.askedAfter, hs0], rfl,
        by simp [Spec.Refs.step, Spec.Refs.askedAfter, hs], by simp [Spec.Refs.askedAfter]⟩
    · have hs0 : s = 0 := by omega
      subst hs0
      exact ⟨⟨none, true, some (n + 1, false)⟩, by simp [exec, weakAddRef, hn, Spec.Refs.answer], by simp [Spec.Refs.step, Spec.Refs.askedAfter], rfl,
        by simp [Spec.Refs.step, Spec.Refs.askedAfter], by simp [Spec.Refs.askedAfter]⟩
  | weakRelease =>
    have hn : 0 < n := ha
    have hn0 : ¬ n = 0 := by omega
    have hw : w = true := by
      cases w with
      | true => rfl
      | false => have := h4 rfl; omega
    subst hw
    by_cases hs : 0 < s
    · have hs0 : ¬ s = 0 := by omega
      refine ⟨⟨some s, true, some (n, true)⟩, by simp [exec, weakRelease, hs, hs0, hn0, Spec.Refs.answer], by simp [Spec.Refs.step, Spec.Refs.askedAfter, hs0], rfl,
        ?_, by simp [Spec.Refs.askedAfter]⟩
      have : n - 1 + 1 = n := by omega
      simp [Spec.Refs.step, Spec.Refs.askedAfter, hs, this]
    · have hs0 : s = 0 := by omega
      subst hs0
      refine ⟨_, by simp [exec, weakRelease, hn, Spec.Refs.answer]; rfl, by simp [Spec.Refs.step, Spec.Refs.askedAfter], rfl, ?_, by simp [Spec.Refs.askedAfter]⟩
      by_cases h1 : n - 1 = 0
      · simp [Spec.Refs.step, Spec.Refs.askedAfter, h1]
      · have : 0 < n - 1 := by omega
        simp [Spec.Refs.step, Spec.Refs.askedAfter, h1, this]
  | weakGet =>
    have hn : 0 < n := ha
    have hw : w = true := by
      cases w with
      | true => rfl
      | false => have := h4 rfl; omega
    subst hw
    by_cases hs : 0 < s
    · have hs0 : ¬ s = 0 := by omega
      exact ⟨⟨some (s + 1), true, some (n + 1, true)⟩, by simp [exec, weakGet, addRef, hs, hs0, Spec.Refs.answer], by simp [Spec.Refs.step, Spec.Refs.askedAfter, hs], rfl,
        by simp [Spec.Refs.step, Spec.Refs.askedAfter, hs], by simp [Spec.Refs.askedAfter]⟩
    · have hs0 : s = 0 := by omega
      subst hs0
      exact ⟨⟨none, true, some (n, false)⟩, by simp [exec, weakGet, hn, Spec.Refs.answer], by simp [Spec.Refs.step, Spec.Refs.askedAfter], rfl,
        by simp [Spec.Refs.step, Spec.Refs.askedAfter, hn], by simp [Spec.Refs.askedAfter]⟩

theorem inv_all : ∀ (ops : List Spec.Refs.Op) (m : Mem) (asked : Bool) (h : Spec.Refs.Held), Inv m asked h → Spec.Refs.Allowed h ops →
    Spec.Refs.Kept asked h ops → ∃ m' asked', execAll m ops = some (Spec.Refs.answers h ops, m') ∧ Inv m' asked' (ops.foldl Spec.Refs.step h)
  | [], m, asked, h, hi, _, _ => ⟨m, asked, rfl, hi⟩
  | op :: ops, m, asked, h, hi, ha, hk => by
    obtain ⟨m1, e1, hi1⟩ := inv_step m asked h hi op ha.1 hk.1
    obtain ⟨m2, asked2, e2, hi2⟩ := inv_all ops m1 _ _ hi1 ha.2 hk.2
    exact ⟨m2, asked2, by simp only [execAll, e1, e2, Option.map_some, Spec.Refs.answers], hi2⟩

theorem inv_new : Inv Mem.new false ⟨1, 0⟩ := ⟨rfl, rfl, rfl, fun _ => rfl⟩

end RefC
open RefC

/-- C86: as long as whoever calls holds what is called, nothing that was destroyed is used; the object is destroyed when its last
    reference goes, and the weak reference once neither it nor the object is referenced; a weak reference gives the object until then,
    and nothing afterwards. This is proved when a weak reference is still held at the time the object goes, or none was ever asked for;
    without that it is false, see below. -/
theorem C86_weak_partial (ops : List Spec.Refs.Op) (ha : Spec.Refs.Allowed ⟨1, 0⟩ ops) (hk : Spec.Refs.Kept false ⟨1, 0⟩ ops) :
    ∃ m, execAll Mem.new ops = some (Spec.Refs.answers ⟨1, 0⟩ ops, m) ∧
      (m.count = none ↔ (ops.foldl Spec.Refs.step ⟨1, 0⟩).strong = 0) ∧
      ((ops.foldl Spec.Refs.step ⟨1, 0⟩).strong = 0 → (m.weak = none ↔ (ops.foldl Spec.Refs.step ⟨1, 0⟩).weak = 0)) := by
  obtain ⟨m, asked, e, h⟩ := inv_all ops Mem.new false ⟨1, 0⟩ inv_new ha hk
  refine ⟨m, e, ?_, ?_⟩
  · rw [h.count]
    by_cases h0 : (ops.foldl Spec.Refs.step ⟨1, 0⟩).strong = 0
    · simp [h0]
    · simp [h0]
  · intro h0
    rw [h.weak, if_neg (by rw [h0]; simp)]
    by_cases hn : 0 < (ops.foldl Spec.Refs.step ⟨1, 0⟩).weak
    · rw [if_pos hn]; simp; omega
    · rw [if_neg hn]; simp; omega

/-- C86 fails: when the last weak reference goes before the object does, the weak reference is used after it was destroyed. -/
theorem C86_weak_fails : Spec.Refs.Allowed ⟨1, 0⟩ [.getWeak, .weakRelease, .release] ∧
    execAll Mem.new [.getWeak, .weakRelease, .release] = none := by
  refine ⟨?_, by decide⟩
  simp [Spec.Refs.Allowed, Spec.Refs.allowed, Spec.Refs.step]

example : Spec.Refs.Allowed ⟨1, 0⟩ [.getWeak, .weakGet, .release, .release, .weakGet, .weakRelease] ∧
    Spec.Refs.Kept false ⟨1, 0⟩ [.getWeak, .weakGet, .release, .release, .weakGet, .weakRelease] ∧
    Spec.Refs.answers ⟨1, 0⟩ [.getWeak, .weakGet, .release, .release, .weakGet, .weakRelease] =
      [.nothing, .object true, .count 1, .count 0, .object false, .nothing] := by
  refine ⟨?_, ?_, by decide⟩ <;>
  simp [Spec.Refs.Allowed, Spec.Refs.allowed, Spec.Refs.step, Spec.Refs.Kept, Spec.Refs.keeps, Spec.Refs.askedAfter]

/-- C86: a destructor that takes references to its own object and gives back no more than it has taken is not entered again. -/
theorem C86_destructor (calls : List Bool) (h : ∀ k ≤ calls.length, (calls.take k).count false ≤ (calls.take k).count true) :
    inDestructor calls 1 ≠ none := by
  have key : ∀ (calls : List Bool) (n : Nat), (∀ k ≤ calls.length, (calls.take k).count false < n + (calls.take k).count true) →
      inDestructor calls n ≠ none := by
    intro calls
    induction calls with
    | nil => intro n _; simp [inDestructor]
    | cons b r ih =>
      intro n h
      cases b with
      | true =>
        rw [inDestructor]
        refine ih (n + 1) fun k hk => ?_
        have := h (k + 1) (by simpa using hk)
        simp [List.count_cons] at this
        omega
      | false =>
        have h1 := h 1 (by simp)
        simp at h1
        rw [inDestructor, if_pos (by omega)]
        refine ih (n - 1) fun k hk => ?_
        have := h (k + 1) (by simpa using hk)
        simp [List.count_cons] at this
        omega
  exact key calls 1 fun k hk => by have := h k hk; omega

example : inDestructor [true, false, true, true, false, false] 1 = some 1 := by decide

/-! ### Pointers that hold a reference -/

namespace RefC

/-- What the program does. -/
def ptrCall (s : Ptrs) : Spec.Refs.PtrOp → Ptrs
  | .adopt p o => s.adopt p o
  | .other p q => s.other p q
  | .assign p o => s.assign p o
  | .drop p => s.drop p

theorem balance_add (s : Ptrs) (r : Option Obj) (i : Int) (o : Obj) :
    balance (s.add r i).ledger o = balance s.ledger o + if r = some o then i else 0 := by
  cases r with
  | none => simp [Ptrs.add]
  | some x => simp only [Ptrs.add, balance_append, balance_one, Option.some.injEq]

theorem ptr_add (s : Ptrs) (r : Option Obj) (i : Int) : (s.add r i).ptr = s.ptr := by cases r <;> rfl

/-- Setting one pointer changes the number of those that point to an object by what one expects. -/
theorem count_put (m : Nat → Option Nat) (p : Nat) (r : Option Nat) (o : Nat) (ps : List Nat) (hn : ps.Nodup)
    (h : ∀ x, x ∈ ps ↔ m x = some o) :
    ∃ ps' : List Nat, ps'.Nodup ∧ (∀ x, x ∈ ps' ↔ (if x = p then r else m x) = some o) ∧
      (ps'.length : Int) = ps.length - (if m p = some o then 1 else 0) + (if r = some o then 1 else 0) := by
  have hlen : ((ps.filter (· ≠ p)).length : Int) = ps.length - (if m p = some o then 1 else 0) := by
    by_cases hp : p ∈ ps
    · have he : ps.filter (· ≠ p) = ps.erase p := by
        rw [hn.erase_eq_filter]; congr 1; funext x
        by_cases hx : x = p <;> simp [hx]
      rw [if_pos ((h p).mp hp), he, List.length_erase_of_mem hp]
      have := List.length_pos_of_mem hp
      omega
    · have he : ps.filter (· ≠ p) = ps := List.filter_eq_self.mpr fun x hx => by
        simp only [ne_eq, decide_eq_true_eq]; intro e; subst e; exact hp hx
      rw [if_neg (fun e => hp ((h p).mpr e)), he]; simp
  by_cases hr : r = some o
  · refine ⟨p :: ps.filter (· ≠ p), ?_, ?_, ?_⟩
    · rw [List.nodup_cons]; exact ⟨by simp, hn.filter _⟩
    · intro x
      rw [List.mem_cons, List.mem_filter]
      by_cases hx : x = p
      · simp [hx, hr]
      · simp [hx, h x]
    · rw [List.length_cons, if_pos hr]; push_cast; rw [hlen]
  · refine ⟨ps.filter (· ≠ p), hn.filter _, ?_, ?_⟩
    · intro x
      rw [List.mem_filter]
      by_cases hx : x = p
      · simp [hx, hr]
      · simp [hx, h x]
    · rw [if_neg hr, hlen]; simp

theorem handed_adopt (o p : Nat) (r : Option Nat) : Spec.Refs.handed o [.adopt p r] = if r = some o then 1 else 0 := by
  by_cases h : r = some o
  · simp [Spec.Refs.handed, Spec.Refs.hands, h]
  · simp [Spec.Refs.handed, Spec.Refs.hands, h]
theorem handed_assign (o p : Nat) (r : Option Nat) : Spec.Refs.handed o [.assign p r] = 0 := rfl
theorem handed_drop (o p : Nat) : Spec.Refs.handed o [.drop p] = 0 := rfl
theorem handed_other (o p q : Nat) : Spec.Refs.handed o [.other p q] = 0 := rfl

/-- The invariant for an object. -/
def Counts (s : Ptrs) (m : Nat → Option Nat) (o : Nat) (k : Nat) : Prop :=
  s.ptr = m ∧ ∃ ps : List Nat, ps.Nodup ∧ (∀ p, p ∈ ps ↔ m p = some o) ∧ balance s.ledger o + k = ps.length

theorem counts_step (s : Ptrs) (m : Nat → Option Nat) (o k : Nat) (h : Counts s m o k) (op : Spec.Refs.PtrOp)
    (hnew : Spec.Refs.isNew m op) :
    Counts (ptrCall s op) (Spec.Refs.points m op) o (k + Spec.Refs.handed o [op]) := by
  obtain ⟨rfl, ps, hn, hm, hb⟩ := h
  cases op with
  | adopt p r =>
    obtain ⟨ps', h1, h2, h3⟩ := count_put s.ptr p r o ps hn hm
    have hnew : s.ptr p = none := hnew
    refine ⟨rfl, ps', h1, h2, ?_⟩
    show balance s.ledger o + _ = _
    rw [h3, hnew, ← hb]
    rw [handed_adopt]
    by_cases hr : r = some o
    · simp [hr]; omega
    · simp [hr]
  | other p q =>
    obtain ⟨ps', h1, h2, h3⟩ := count_put s.ptr p (s.ptr q) o ps hn hm
    have hnew : s.ptr p = none := hnew
    refine ⟨?_, ps', h1, h2, ?_⟩
    · show ((s.put p (s.ptr q)).add (s.ptr q) 1).ptr = _
      rw [ptr_add]; rfl
    · show balance ((s.put p (s.ptr q)).add (s.ptr q) 1).ledger o + _ = _
      rw [balance_add, h3, hnew, ← hb]
      show balance s.ledger o + _ + _ = _
      rw [handed_other]; simp; omega
  | assign p r =>
    obtain ⟨ps', h1, h2, h3⟩ := count_put s.ptr p r o ps hn hm
    refine ⟨?_, ps', h1, h2, ?_⟩
    · funext x
      show (if x = p then r else ((s.add r 1).add (s.ptr p) (-1)).ptr x) = _
      rw [ptr_add, ptr_add]; rfl
    · show balance ((s.add r 1).add (s.ptr p) (-1)).ledger o + _ = _
      rw [balance_add, balance_add, h3, ← hb]
      rw [handed_assign]
      split <;> split <;> simp <;> omega
  | drop p =>
    obtain ⟨ps', h1, h2, h3⟩ := count_put s.ptr p none o ps hn hm
    refine ⟨?_, ps', h1, h2, ?_⟩
    · funext x
      show (if x = p then none else (s.add (s.ptr p) (-1)).ptr x) = _
      rw [ptr_add]; rfl
    · show balance (s.add (s.ptr p) (-1)).ledger o + _ = _
      rw [balance_add, h3, ← hb]
      rw [handed_drop]
      split <;> simp <;> omega

theorem counts_all (o : Nat) : ∀ (ops : List Spec.Refs.PtrOp) (s : Ptrs) (m : Nat → Option Nat) (k : Nat), Counts s m o k →
    Spec.Refs.New m ops → Counts (ops.foldl ptrCall s) (ops.foldl Spec.Refs.points m) o (k + Spec.Refs.handed o ops)
  | [], s, m, k, h, _ => h
  | op :: ops, s, m, k, h, hn => by
    have h1 := counts_step s m o k h op hn.1
    have h2 := counts_all o ops _ _ _ h1 hn.2
    have : Spec.Refs.handed o (op :: ops) = Spec.Refs.handed o [op] + Spec.Refs.handed o ops := by
      simp only [Spec.Refs.handed, Spec.Refs.hands]
      rw [← List.length_append, ← List.filter_append]; rfl
    rw [this, ← Nat.add_assoc]
    exact h2

end RefC

/-- C86: pointers hold one reference each: the references that were handed to them, and those that they took and gave back, are together
    as many as there are pointers to the object. -/
theorem C86_ptr (ops : List Spec.Refs.PtrOp) (hn : Spec.Refs.New (fun _ => none) ops) (o : Nat) :
    ∃ ps : List Nat, ps.Nodup ∧ (∀ p, p ∈ ps ↔ (ops.foldl ptrCall ⟨fun _ => none, []⟩).ptr p = some o) ∧
      (ops.foldl ptrCall ⟨fun _ => none, []⟩).ptr = ops.foldl Spec.Refs.points (fun _ => none) ∧
      balance (ops.foldl ptrCall ⟨fun _ => none, []⟩).ledger o + Spec.Refs.handed o ops = ps.length := by
  obtain ⟨h, ps, h1, h2, h3⟩ := counts_all o ops ⟨fun _ => none, []⟩ (fun _ => none) 0 ⟨rfl, [], List.nodup_nil, by simp, rfl⟩ hn
  rw [Nat.zero_add] at h3
  exact ⟨ps, h1, by rw [h]; exact h2, h, h3⟩

/-- C86 fails for a pointer that is copied to one of the same type: no reference is taken, and the only one is given back twice. -/
theorem C86_copy_fails : ∃ o : Nat,
    balance ((((Ptrs.mk (fun _ => none) []).adopt 1 (some o)).copy 2 1).drop 1 |>.drop 2).ledger o + 1 = -1 :=
  ⟨7, by decide⟩

example : Spec.Refs.New (fun _ => none) [.adopt 1 (some 7), .other 2 1, .assign 1 (some 7), .assign 1 none] := by
  simp [Spec.Refs.New, Spec.Refs.isNew, Spec.Refs.points]

end Props
