import Verif.Model.Regex
/-!
C126: regular expressions.
-/
namespace Props
open Wv Wv.Regex
open Spec.Regex

namespace ReP

theorem part_eq (t : Text) (e : Extent) : (t.drop e.1).take (e.2 - e.1) = part t e := by
  unfold part
  rw [List.drop_take]

theorem stores_eq {subj : Subject} {t : Text} {m : Nat → Option Extent} : ∀ (regs : List Nat) (i : Nat) (v : Vars), (∀ r ∈ regs, subj ≠ .var r) → regs.Nodup →
    ∃ w, stores subj t m i regs v = some w ∧ (∀ x, x ∉ regs → w x = v x) ∧
      ∀ k r, regs[k]? = some r → w r = match m (i + k + 1) with | some e => some (part t e) | none => v r := by
  intro regs
  induction regs with
  | nil => intro i v _ _; exact ⟨v, rfl, fun _ _ => rfl, fun k r h => by simp at h⟩
  | cons r l ih =>
    intro i v hs hn
    have hr : subj ≠ .var r := hs r (by simp)
    obtain ⟨hnr, hnl⟩ := List.nodup_cons.1 hn
    have key : ∃ v', store subj t v r (m (i + 1)) = some v' ∧ (∀ x, x ≠ r → v' x = v x) ∧ v' r = match m (i + 1) with | some e => some (part t e) | none => v r := by
      unfold store
      cases hm : m (i + 1) with
      | none => exact ⟨v, rfl, fun _ _ => rfl, rfl⟩
      | some e =>
        dsimp only
        rw [if_neg hr, part_eq]
        exact ⟨_, rfl, fun x hx => by simp [upd, hx], by simp [upd]⟩
    obtain ⟨v', h1, h2, h3⟩ := key
    obtain ⟨w, w1, w2, w3⟩ := ih (i + 1) v' (fun x hx => hs x (List.mem_cons_of_mem _ hx)) hnl
    refine ⟨w, by unfold stores; rw [h1]; exact w1, fun x hx => ?_, fun k q hk => ?_⟩
    · rw [w2 x (fun h => hx (List.mem_cons_of_mem _ h)), h2 x (fun h => hx (by simp [h]))]
    · cases k with
      | zero =>
        simp only [List.getElem?_cons_zero, Option.some.injEq] at hk
        subst hk
        rw [w2 r hnr, h3]
      | succ k =>
        rw [List.getElem?_cons_succ] at hk
        have hq : q ≠ r := by
          rintro rfl
          exact hnr (List.mem_of_getElem? hk)
        rw [w3 k q hk, h2 q hq, show i + 1 + k + 1 = i + (k + 1) + 1 from by omega]

end ReP

/-- A library that finds the first `b`, with the characters before and after it as parts; expressions are `b` (good) or anything else (an error). -/
def ReP.sample : Lib Unit where
  comp t _ := if t = str ['b'] then .ok () else .error 3
  exec _ t _ :=
    match t.findIdx? (· == ch 'b') with
    | none => none
    | some k => some fun i => if i = 0 then some (k, k + 1) else if i = 1 then some (0, k) else if i = 2 ∧ k + 1 < t.length then some (k + 1, t.length) else none
  nosub f := f = 4
  message _ := str ['o', 'h']

/-- C126 (matching, the part that holds): a text matches if and only if the library says so. If it does, the place is that of the whole match, each register has the part of the text
    with its number, if that took part, and is as it was if not; all other strings are as they were. If it does not match, nothing is changed. The registers must be different from each
    other and from the text, and the expression not compiled with `NOSUB`. -/
theorem C126_match_partial {R : Type} (L : Lib R) (hL : L.Ok) (o : Obj R) (r : R) (cf : Nat) (ho : o.preg = some (r, cf)) (hc : L.nosub cf = false)
    (v : Vars) (subj : Subject) (t : Text) (ht : subj.get v = some t) (ef : Nat) (regs : List Nat) (hr : ∀ x ∈ regs, subj ≠ .var x) (hn : regs.Nodup) (start stop : Nat) :
    ∃ res, match_ L o v subj ef regs start stop = some res ∧
    (L.exec r t ef = none → res.ok = false ∧ res.vars = v ∧ res.start = start ∧ res.stop = stop) ∧
    (∀ m, L.exec r t ef = some m → res.ok = true ∧ m 0 = some (res.start, res.stop) ∧ res.start ≤ res.stop ∧ res.stop ≤ t.length ∧
      (∀ x, x ∉ regs → res.vars x = v x) ∧
      ∀ k x, regs[k]? = some x → (∀ e, m (k + 1) = some e → res.vars x = some (part t e)) ∧ (m (k + 1) = none → res.vars x = v x)) := by
  unfold match_
  rw [ho]
  dsimp only
  rw [ht]
  simp only [Option.bind_some]
  cases he : L.exec r t ef with
  | none => exact ⟨_, rfl, fun _ => ⟨rfl, rfl, rfl, rfl⟩, (fun m h => by cases h)⟩
  | some m =>
    dsimp only
    rw [hc]
    simp only [Bool.false_eq_true, if_false]
    obtain ⟨e, h0⟩ := Option.isSome_iff_exists.1 (hL.whole r t ef m he)
    rw [h0]
    dsimp only
    obtain ⟨w, w1, w2, w3⟩ := ReP.stores_eq (subj := subj) (t := t) (m := m) regs 0 v hr hn
    rw [w1]
    refine ⟨_, rfl, (fun h => by cases h), fun m' hm => ?_⟩
    cases hm
    obtain ⟨i1, i2⟩ := hL.inside r t ef m he 0 e h0
    refine ⟨rfl, h0, i1, i2, w2, fun k x hk => ?_⟩
    have := w3 k x hk
    rw [Nat.zero_add] at this
    exact ⟨fun e' h => by rw [h] at this; exact this, fun h => by rw [h] at this; exact this⟩

/-- "aabc" with three registers; the third part took no part in it. -/
example : ReP.sample.Ok := by
  refine ⟨?_, ?_, ?_, fun _ => (by simp [ReP.sample, str])⟩
  · intro r t f m h i e he
    simp only [ReP.sample] at h
    split at h
    · cases h
    · rename_i k hk
      have hkl : k < t.length := by
        obtain ⟨h1, _⟩ := List.findIdx?_eq_some_iff_getElem.1 hk
        exact h1
      cases h
      dsimp only at he
      split at he
      · cases he; dsimp only; omega
      · split at he
        · cases he; dsimp only; omega
        · split at he
          · cases he; dsimp only; omega
          · cases he
  · intro r t f m h
    simp only [ReP.sample] at h
    split at h
    · cases h
    · cases h; rfl
  · intro t f e h
    simp only [ReP.sample] at h
    split at h <;> cases h
    decide

example : ((match_ ReP.sample ⟨some ((), 0), ⟨0, none, 0⟩⟩ (fun n => if n = 0 then some (str ['a', 'a', 'b', 'c']) else some (str ['x'])) (.var 0) 0 [3, 1, 2] 7 7).map fun r =>
    (r.ok, r.start, r.stop, [r.vars 0, r.vars 3, r.vars 1, r.vars 2])) =
    some (true, 2, 3, [some (str ['a', 'a', 'b', 'c']), some (str ['a', 'a']), some (str ['c']), some (str ['x'])]) := by rfl

/-- C126 (which expression is used): after any calls of `set`, matching uses the last expression, if that was good; if it was not, `set` says so and nothing matches and nothing is changed,
    until there is a good one. -/
theorem C126_set {R : Type} (L : Lib R) (hL : L.Ok) (o : Obj R) (regex : Text) (cf : Nat) :
    (∀ r, L.comp regex cf = .ok r → ∃ q, setRe L o regex cf = some (true, q) ∧ q.preg = some (r, cf) ∧ q.err = o.err) ∧
    (∀ e, L.comp regex cf = .error e → ∃ q, setRe L o regex cf = some (false, q) ∧ q.err.num ≠ 0 ∧
      ∀ v subj ef regs a b, match_ L q v subj ef regs a b = some ⟨false, a, b, v⟩) := by
  unfold setRe
  constructor
  · intro r h
    rw [h]
    exact ⟨_, rfl, rfl, rfl⟩
  · intro e h
    rw [h]
    have hz : ((e : Int)) ≠ 0 := by have := hL.codes _ _ _ h; omega
    have hm : ((e : Int)) ≠ -1 := by omega
    have key : ∃ q, seterr L o e = some q ∧ q.err.num ≠ 0 := by
      unfold seterr
      split
      · unfold ErrorObj.seterrBoth
        rw [if_pos (hL.text e)]
        split
        · rename_i h0
          unfold ErrorObj.seterr
          dsimp only
          rw [if_pos h0, if_pos (Or.inl hm)]
          exact ⟨_, rfl, hz⟩
        · rename_i h0
          exact ⟨_, rfl, h0⟩
      · unfold ErrorObj.seterr
        split
        · rw [if_pos (Or.inl hm)]
          exact ⟨_, rfl, hz⟩
        · rename_i h0
          exact ⟨_, rfl, h0⟩
    obtain ⟨q, h1, h2⟩ := key
    dsimp only
    rw [h1]
    exact ⟨{ q with preg := none }, rfl, h2, fun _ _ _ _ _ _ => rfl⟩

/-- C126 (new objects): an object without an expression matches nothing. -/
theorem C126_empty {R : Type} (L : Lib R) (v : Vars) (subj : Subject) (ef : Nat) (regs : List Nat) (a b : Nat) : match_ L (new R) v subj ef regs a b = some ⟨false, a, b, v⟩ := rfl

/-- C126 (a register that is the text): when a string is matched and the same string is to get a part of it, memory is read that was never written, for every expression that matches
    with such a part. -/
theorem C126_alias_fails {R : Type} (L : Lib R) (hL : L.Ok) (o : Obj R) (r : R) (cf : Nat) (ho : o.preg = some (r, cf)) (v : Vars) (n : Nat) (t : Text) (ht : v n = some t) (ef : Nat)
    (m : Nat → Option Extent) (hm : L.exec r t ef = some m) (e : Extent) (h1 : m 1 = some e) (a b : Nat) : match_ L o v (.var n) ef [n] a b = none := by
  unfold match_
  rw [ho]
  dsimp only [Subject.get]
  rw [ht]
  simp only [Option.bind_some, hm]
  split
  · rfl
  · obtain ⟨e0, h0⟩ := Option.isSome_iff_exists.1 (hL.whole r t ef m hm)
    rw [h0]
    simp [stores, store, h1]

example : (ReP.sample.exec () (str ['a', 'b']) 0).map (fun m => m 1) = some (some (0, 1)) := by decide +kernel

/-- C126 (`NOSUB`): with an expression compiled with this flag, every match reads places that were never written, also when no place is asked for. -/
theorem C126_nosub_fails {R : Type} (L : Lib R) (o : Obj R) (r : R) (cf : Nat) (ho : o.preg = some (r, cf)) (hc : L.nosub cf = true) (v : Vars) (t : Text) (ef : Nat)
    (m : Nat → Option Extent) (hm : L.exec r t ef = some m) (a b : Nat) : match_ L o v (.text t) ef [] a b = none := by
  unfold match_
  rw [ho]
  simp [Subject.get, hm, hc]

/-- C126 (what is wrong with an expression): for a bad expression given to a new object, the error is the system's message for the number of the library's error, which has nothing to do with
    it; the description of the library is used only if there was a good expression before. -/
theorem C126_message_fails {R : Type} (L : Lib R) (hL : L.Ok) (sys : Int → Text) (regex : Text) (cf e : Nat) (h : L.comp regex cf = .error e) :
    ((setRe L (new R) regex cf).bind fun q => ErrorObj.errstr sys q.2.err) = some (sys e) ∧
    ∀ o : Obj R, o.preg.isSome → o.err = ⟨0, none, 0⟩ → ((setRe L o regex cf).bind fun q => ErrorObj.errstr sys q.2.err) = some (L.message e) := by
  have hz : ((e : Int)) ≠ 0 := by have := hL.codes _ _ _ h; omega
  have hm : ((e : Int)) ≠ -1 := by omega
  have hp : ¬ ((e : Int)) < 0 := by omega
  have ht := hL.text e
  constructor
  · simp [setRe, h, seterr, new, ErrorObj.seterr, hm, ErrorObj.errstr, ErrorObj.given]
  · intro o ho he
    simp [setRe, h, seterr, ho, he, ErrorObj.seterrBoth, ErrorObj.seterr, hm, ht, ErrorObj.errstr, ErrorObj.given]

example : ReP.sample.comp (str ['[']) 1 = .error 3 := by rfl

/-- C126 (errors stay): after a bad expression and a good one the object is not ok, though it matches. -/
theorem C126_stuck_fails : ∃ o p : Obj Unit, setRe ReP.sample (new Unit) (str ['[']) 1 = some (false, o) ∧ setRe ReP.sample o (str ['b']) 1 = some (true, p) ∧ ErrorObj.isok p.err = false ∧
    (match_ ReP.sample p (fun _ => none) (.text (str ['b'])) 0 [] 0 0).map (·.ok) = some true :=
  ⟨⟨none, ⟨3, none, 1⟩⟩, ⟨some ((), 1), ⟨3, none, 1⟩⟩, by rfl, by rfl, by rfl, by rfl⟩

namespace ReP

/-- A match in a text that has one, and none in one that has none. -/
theorem match_text {R : Type} (L : Lib R) (hL : L.Ok) (o : Obj R) (r : R) (cf : Nat) (ho : o.preg = some (r, cf)) (hc : L.nosub cf = false) (t : Text) :
    match_ L o (fun _ => none) (.text t) 0 [] 0 0 = match L.exec r t 0 with
      | none => some ⟨false, 0, 0, fun _ => none⟩
      | some m => (m 0).map fun e => ⟨true, e.1, e.2, fun _ => none⟩ := by
  unfold match_
  rw [ho]
  simp only [Subject.get, Option.bind_some]
  cases he : L.exec r t 0 with
  | none => rfl
  | some m =>
    dsimp only
    rw [hc]
    simp only [Bool.false_eq_true, if_false]
    cases m 0 <;> rfl

end ReP

/-- One after another, from `start` on, none empty. -/
def ReP.Ordered (start n : Nat) : List Extent → Prop
  | [] => True
  | e :: l => start ≤ e.1 ∧ e.1 < e.2 ∧ e.2 ≤ n ∧ ReP.Ordered e.2 n l

/-- C126 (all matches of a line): with an expression that never matches the empty text, the loop of the documentation ends, and what it finds are parts of the line one after the other. -/
theorem C126_loop_partial {R : Type} (L : Lib R) (hL : L.Ok) (o : Obj R) (r : R) (cf : Nat) (ho : o.preg = some (r, cf)) (hc : L.nosub cf = false)
    (hne : ∀ t m e, L.exec r t 0 = some m → m 0 = some e → e.1 < e.2) (line : Text) :
    (loop L o line (line.length + 1) 0).2 = true ∧ ReP.Ordered 0 line.length (loop L o line (line.length + 1) 0).1 := by
  have key : ∀ n start, start ≤ line.length → line.length < start + n → (loop L o line n start).2 = true ∧ ReP.Ordered start line.length (loop L o line n start).1 := by
    intro n
    induction n with
    | zero => intro start h1 h2; omega
    | succ n ih =>
      intro start h1 h2
      unfold loop
      rw [ReP.match_text L hL o r cf ho hc]
      cases he : L.exec r (line.drop start) 0 with
      | none => exact ⟨rfl, trivial⟩
      | some m =>
        obtain ⟨e, h0⟩ := Option.isSome_iff_exists.1 (hL.whole _ _ _ m he)
        obtain ⟨i1, i2⟩ := hL.inside _ _ _ m he 0 e h0
        have i3 := hne _ _ _ he h0
        rw [List.length_drop] at i2
        simp only [h0, Option.map_some]
        obtain ⟨g1, g2⟩ := ih (start + e.2) (by omega) (by omega)
        exact ⟨g1, by show start ≤ start + e.1; omega, by show start + e.1 < start + e.2; omega, by show start + e.2 ≤ line.length; omega, g2⟩
  exact key (line.length + 1) 0 (by omega) (by omega)

example : loop ReP.sample ⟨some ((), 0), ⟨0, none, 0⟩⟩ (str ['a', 'b', 'b', 'c', 'b']) 6 0 = ([(1, 2), (2, 3), (4, 5)], true) := by decide +kernel

/-- C126 (the loop that does not end): with an expression that matches the empty text at the beginning, the loop of the documentation never ends. -/
theorem C126_endless_fails {R : Type} (L : Lib R) (hL : L.Ok) (o : Obj R) (r : R) (cf : Nat) (ho : o.preg = some (r, cf)) (hc : L.nosub cf = false) (line : Text)
    (m : Nat → Option Extent) (hm : L.exec r line 0 = some m) (h0 : m 0 = some (0, 0)) (n : Nat) : (loop L o line n 0).2 = false := by
  induction n with
  | zero => rfl
  | succ n ih =>
    unfold loop
    rw [ReP.match_text L hL o r cf ho hc]
    simp only [List.drop_zero, hm, h0, Option.map_some]
    exact ih

end Props
