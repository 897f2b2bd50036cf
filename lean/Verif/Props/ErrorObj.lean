import Verif.Model.ErrorObj
/- C93: objects that remember errors. -/
namespace Props
open Wv Wv.ErrorObj
open Spec.ErrorObj (Text Op Err upd objs Proper)

namespace ErO

/-- An object remembers what it should. -/
def Rep (o : Obj) (e : Option Err) (news : Nat) : Prop :=
  o.calls = news ∧
  match e with
  | none => o.num = 0 ∧ o.text = none
  | some e => e.code ≠ 0 ∧ o.num = e.code ∧ o.text = e.text ∧ (∀ t, e.text = some t → t ≠ []) ∧ (e.code < 0 → e.text ≠ none)

def Good (e : Err) : Prop := e.code ≠ 0 ∧ (∀ t, e.text = some t → t ≠ []) ∧ (e.code < 0 → e.text ≠ none)

theorem errstr_rep (sys : Int → Text) {o : Obj} {e : Err} {n : Nat} (h : Rep o (some e) n) : errstr sys o = some (e.message sys) := by
  obtain ⟨_, h1, h2, h3, h4, h5⟩ := h
  unfold errstr Err.message
  rw [h2, h3]
  cases ht : e.text with
  | none =>
    have : ¬ e.code < 0 := fun hx => h5 hx ht
    rw [if_neg this]; simp [given]
  | some t =>
    have := h4 t ht
    simp [given, this]

/-- Telling an object an error with a number that was in order. -/
theorem seterr_none {o : Obj} {n : Nat} (h : Rep o none n) (e : Err) (he : Good e) :
    ∃ o', seterr { o with text := e.text } e.code = some o' ∧ Rep o' (some e) (n + 1) := by
  obtain ⟨h1, h2, h3⟩ := h
  unfold seterr
  rw [if_pos h2, if_pos]
  · exact ⟨_, rfl, by show (if e.code ≠ 0 then o.calls + 1 else o.calls) = n + 1; rw [if_pos he.1, h1], he.1, rfl, rfl, he.2.1, he.2.2⟩
  · by_cases hm : e.code = -1
    · right
      cases ht : e.text with
      | none => exact absurd ht (he.2.2 (by omega))
      | some t => simp [given, he.2.1 t ht]
    · exact Or.inl hm

theorem seterr_some {o : Obj} {e : Err} {n : Nat} (h : Rep o (some e) n) (m : Int) : seterr o m = some o := by
  unfold seterr; rw [if_neg (by rw [h.2.2.1]; exact h.2.1)]

theorem both_tell {o : Obj} {e : Option Err} {n : Nat} (h : Rep o e n) (m : Int) (t : Text) (hm : m ≠ 0) (ht : t ≠ []) :
    ∃ o', seterrBoth o m t = some o' ∧ Rep o' (some (e.getD ⟨m, some t⟩)) (if e.isSome then n else n + 1) := by
  unfold seterrBoth
  rw [if_pos ht]
  cases e with
  | none =>
    rw [if_pos h.2.1]
    exact seterr_none h ⟨m, some t⟩ ⟨hm, by intro t' ht'; rw [← Option.some.inj ht']; exact ht, by simp⟩
  | some e =>
    rw [if_neg (by rw [h.2.2.1]; exact h.2.1)]
    exact ⟨o, rfl, h⟩

theorem obj_tell (sys : Int → Text) {o p : Obj} {e : Option Err} {f : Err} {n m : Nat} (h : Rep o e n) (hp : Rep p (some f) m) :
    ∃ o', seterrObj sys o p = some o' ∧ Rep o' (some (e.getD f)) (if e.isSome then n else n + 1) := by
  unfold seterrObj
  cases e with
  | some e =>
    rw [if_neg (by rw [h.2.2.1]; exact h.2.1)]
    exact ⟨o, rfl, h⟩
  | none =>
    rw [if_pos h.2.1]
    have hg : Good f := ⟨hp.2.1, hp.2.2.2.2.1, hp.2.2.2.2.2⟩
    obtain ⟨o', h1, h2⟩ := seterr_none h f hg
    refine ⟨o', ?_, h2⟩
    rw [hp.2.2.2.1, hp.2.2.1]
    cases ht : f.text with
    | none =>
      rw [show given none = false from rfl, if_neg (by simp)]
      rw [ht] at h1
      have : { o with text := none } = o := by rw [← h.2.2]
      rw [this] at h1; exact h1
    | some t =>
      have hne := hp.2.2.2.2.1 t ht
      rw [show given (some t) = true from by simp [given, hne], if_pos rfl, errstr_rep sys hp]
      rw [ht] at h1
      simp only [Err.message, ht, Option.getD_some, Option.bind_some]
      exact h1

theorem obj_none (sys : Int → Text) {o p : Obj} {e : Option Err} {n m : Nat} (h : Rep o e n) (hp : Rep p none m) : seterrObj sys o p = some o := by
  unfold seterrObj
  rw [hp.2.2, hp.2.1]
  split
  · rename_i h0
    rw [show given none = false from rfl, if_neg (by simp)]
    unfold seterr
    rw [if_pos h0, if_pos (Or.inl (by decide))]
    rw [if_neg (by decide), ← h0]
  · rfl

def All (s : Nat → Obj) (u : Spec.ErrorObj.Objs) : Prop := ∀ k, Rep (s k) (u.err k) (u.news k)

theorem all_upd {s : Nat → Obj} {u : Spec.ErrorObj.Objs} (h : All s u) (k : Nat) (o : Obj) (e : Option Err) (n : Nat) (ho : Rep o e n) :
    All (upd s k o) ⟨upd u.err k e, upd u.news k n⟩ := by
  intro j
  by_cases hj : j = k
  · subst hj; simpa [upd] using ho
  · simpa [upd, hj] using h j

theorem upd_self {α : Type} (f : Nat → α) (k : Nat) : upd f k (f k) = f := by
  funext j; unfold upd; split
  · rename_i h; rw [h]
  · rfl

/-- Telling, in terms of the specification. -/
theorem tell_eq (u : Spec.ErrorObj.Objs) (k : Nat) (e : Err) : Spec.ErrorObj.tell u k e =
    ⟨upd u.err k (some ((u.err k).getD e)), upd u.news k (if (u.err k).isSome then u.news k else u.news k + 1)⟩ := by
  unfold Spec.ErrorObj.tell
  cases h : u.err k with
  | none => rfl
  | some f =>
    simp only [Option.getD_some, Option.isSome_some, if_true]
    rw [← h, upd_self, upd_self]

theorem all_step (sys : Int → Text) {s : Nat → Obj} {u : Spec.ErrorObj.Objs} (h : All s u) (o : Op) (ho : Proper o) :
    ∃ s', step sys s o = some s' ∧ All s' (Spec.ErrorObj.step sys u o) := by
  cases o with
  | set k n =>
    by_cases hn : n = 0
    · subst hn
      refine ⟨upd s k (s k), ?_, ?_⟩
      · have : seterr (s k) 0 = some (s k) := by
          unfold seterr
          split
          · rename_i h0; rw [if_pos (Or.inl (by decide)), if_neg (by decide), ← h0]
          · rfl
        rw [step, this]; rfl
      · rw [Spec.ErrorObj.step, if_pos rfl, upd_self]; exact h
    · rw [Spec.ErrorObj.step, if_neg hn, tell_eq]
      cases he : u.err k with
      | none =>
        have hk := h k
        rw [he] at hk
        obtain ⟨o', h1, h2⟩ := seterr_none hk ⟨n, none⟩ ⟨hn, by simp, fun hx => by have : 0 ≤ n := ho; simp only at hx; omega⟩
        have e0 : { (s k) with text := none } = s k := by rw [← hk.2.2]
        rw [e0] at h1
        exact ⟨upd s k o', by rw [step, h1]; rfl, all_upd h k o' _ _ h2⟩
      | some e =>
        have hk := h k
        rw [he] at hk
        exact ⟨upd s k (s k), by rw [step, seterr_some hk]; rfl, all_upd h k (s k) _ _ (by simpa using hk)⟩
  | text k t =>
    obtain ⟨o', h1, h2⟩ := both_tell (h k) (-1) t (by decide) ho
    rw [Spec.ErrorObj.step, tell_eq]
    exact ⟨upd s k o', by rw [step, seterrText, h1]; rfl, all_upd h k o' _ _ h2⟩
  | both k n t =>
    obtain ⟨o', h1, h2⟩ := both_tell (h k) n t ho.1 ho.2
    rw [Spec.ErrorObj.step, if_neg ho.1, tell_eq]
    exact ⟨upd s k o', by rw [step, h1]; rfl, all_upd h k o' _ _ h2⟩
  | copy k j =>
    rw [Spec.ErrorObj.step]
    cases hj : u.err j with
    | none =>
      have hj' := h j
      rw [hj] at hj'
      exact ⟨upd s k (s k), by rw [step, obj_none sys (h k) hj']; rfl, by rw [upd_self]; exact h⟩
    | some f =>
      have hj' := h j
      rw [hj] at hj'
      obtain ⟨o', h1, h2⟩ := obj_tell sys (h k) hj'
      dsimp only
      rw [tell_eq]
      exact ⟨upd s k o', by rw [step, h1]; rfl, all_upd h k o' _ _ h2⟩
  | assign k j =>
    have hne : k ≠ j := ho
    have e1 : upd s k (noerr (s k)) k = noerr (s k) := if_pos rfl
    have e2 : upd s k (noerr (s k)) j = s j := if_neg (Ne.symm hne)
    have e3 : ∀ o, upd (upd s k (noerr (s k))) k o = upd s k o := by
      intro o; funext i; unfold upd; split <;> rfl
    have hk : Rep (noerr (s k)) none (u.news k) := ⟨(h k).1, rfl, rfl⟩
    rw [Spec.ErrorObj.step, step, e1, e2]
    cases hj : u.err j with
    | none =>
      have hj' := h j
      rw [hj] at hj'
      rw [obj_none sys hk hj']
      refine ⟨_, rfl, ?_⟩
      dsimp only
      rw [e3]
      have := all_upd h k _ _ _ hk
      rw [upd_self] at this; exact this
    | some f =>
      have hj' := h j
      rw [hj] at hj'
      obtain ⟨o', h1, h2⟩ := obj_tell sys hk hj'
      rw [h1]
      refine ⟨_, rfl, ?_⟩
      dsimp only
      rw [e3]
      exact all_upd h k o' _ _ h2
  | pre k p j =>
    rw [Spec.ErrorObj.step]
    cases hj : u.err j with
    | none =>
      have hj' := h j
      rw [hj] at hj'
      refine ⟨upd s k (s k), ?_, by rw [upd_self]; exact h⟩
      rw [step, setPre, show isok (s j) = true from by simp [isok, hj'.2.1]]; rfl
    | some f =>
      have hj' := h j
      rw [hj] at hj'
      have hok : isok (s j) = false := by simp [isok, hj'.2.2.1, hj'.2.1]
      obtain ⟨o', h1, h2⟩ := both_tell (h k) f.code (p ++ str [':', ' '] ++ f.message sys) hj'.2.1 (by
        intro hx
        have : (p ++ str [':', ' '] ++ f.message sys).length = 0 := by rw [hx]; rfl
        rw [List.length_append, List.length_append, show (str [':', ' ']).length = 2 from rfl] at this
        omega)
      dsimp only
      rw [tell_eq]
      refine ⟨upd s k o', ?_, all_upd h k o' _ _ h2⟩
      rw [step, setPre, hok, errstr_rep sys hj', hj'.2.2.1]
      simp only [Bool.not_false, if_true, Option.bind_some, h1, Option.map_some]
  | reset k =>
    refine ⟨_, rfl, ?_⟩
    have := all_upd h k (noerr (s k)) none (u.news k) ⟨(h k).1, rfl, rfl⟩
    rw [upd_self] at this; exact this

theorem all_run (sys : Int → Text) (l : List Op) : ∀ (s : Nat → Obj) (u : Spec.ErrorObj.Objs), All s u → (∀ o ∈ l, Proper o) →
    ∃ s', run sys s l = some s' ∧ All s' (l.foldl (Spec.ErrorObj.step sys) u) := by
  induction l with
  | nil => intro s u h _; exact ⟨s, rfl, h⟩
  | cons o l ih =>
    intro s u h hl
    obtain ⟨s', h1, h2⟩ := all_step sys h o (hl o (by simp))
    obtain ⟨s'', h3, h4⟩ := ih s' _ h2 (fun o ho => hl o (by simp [ho]))
    exact ⟨s'', by rw [run, h1]; exact h3, h4⟩

end ErO
open ErO

/-- C93: whatever is told to objects, in whatever order, each remembers the first error since it was last reset or assigned: no assertion fails, the number and
    the text are those of that error, and the callback was called once for each first error. -/
theorem C93_first_partial (sys : Int → Text) (l : List Op) (hl : ∀ o ∈ l, Proper o) :
    ∃ s, run sys new l = some s ∧ ∀ k, (s k).calls = (objs sys l).news k ∧ (isok (s k) = true ↔ (objs sys l).err k = none) ∧
      ∀ e, (objs sys l).err k = some e → (s k).num = e.code ∧ errstr sys (s k) = some (e.message sys) := by
  obtain ⟨s, h1, h2⟩ := all_run sys l new ⟨fun _ => none, fun _ => 0⟩ (fun _ => ⟨rfl, rfl, rfl⟩) hl
  refine ⟨s, h1, fun k => ?_⟩
  have h := h2 k
  refine ⟨h.1, ?_, ?_⟩
  · show _ ↔ (l.foldl (Spec.ErrorObj.step sys) _).err k = none
    cases he : (l.foldl (Spec.ErrorObj.step sys) ⟨fun _ => none, fun _ => 0⟩).err k with
    | none => rw [he] at h; simp [isok, h.2.1]
    | some e => rw [he] at h; simp [isok, h.2.2.1, h.2.1]
  · intro e he
    have he' : (l.foldl (Spec.ErrorObj.step sys) ⟨fun _ => none, fun _ => 0⟩).err k = some e := he
    rw [he'] at h
    exact ⟨h.2.2.1, errstr_rep sys h⟩

example : ((run (fun _ => str ['e']) new [.set 1 5, .text 1 (str ['x']), .pre 2 (str ['p']) 1, .assign 3 2, .reset 1, .copy 1 3]).map fun s =>
    (s 1, errstr (fun _ => str ['e']) (s 2))) = some (⟨5, some (str ['p', ':', ' ', 'e']), 2⟩, some (str ['p', ':', ' ', 'e'])) := by decide +kernel

/-- C93: a text told with the number 0 is not an error, but becomes that of the next one. -/
theorem C93_leftover_fails : ((run (fun _ => str ['e']) new [.both 1 0 (str ['x']), .set 1 5]).map fun s => errstr (fun _ => str ['e']) (s 1)) = some (some (str ['x'])) ∧
    ((objs (fun _ => str ['e']) [.both 1 0 (str ['x']), .set 1 5]).err 1).map (Err.message fun _ => str ['e']) = some (str ['e']) := by decide +kernel

/-- C93: assigning an object to itself loses its error. -/
theorem C93_self_fails (sys : Int → Text) (k : Nat) (n : Int) (hn : 0 < n) : ∃ s, run sys new [.set k n, .assign k k] = some s ∧ isok (s k) = true ∧
    (objs sys [.set k n, .assign k k]).err k = some ⟨n, none⟩ := by
  have h1 : seterr (new k) n = some ⟨n, none, 1⟩ := by
    unfold seterr new
    rw [if_pos rfl, if_pos (Or.inl (by omega))]
    rw [if_pos (by omega)]
  have h2 : step sys new (.set k n) = some (upd new k ⟨n, none, 1⟩) := by rw [step, h1]; rfl
  refine ⟨upd (upd (upd new k ⟨n, none, 1⟩) k ⟨0, none, 1⟩) k ⟨0, none, 1⟩, ?_, ?_, ?_⟩
  · rw [run, h2]
    show (step sys (upd new k ⟨n, none, 1⟩) (.assign k k)).bind _ = _
    rw [step]
    have e : noerr (upd new k ⟨n, none, 1⟩ k) = ⟨0, none, 1⟩ := by simp [upd, noerr]
    rw [e]
    have e2 : (upd (upd new k ⟨n, none, 1⟩) k ⟨0, none, 1⟩) k = ⟨0, none, 1⟩ := if_pos rfl
    rw [e2]
    have e3 : seterrObj sys ⟨0, none, 1⟩ ⟨0, none, 1⟩ = some ⟨0, none, 1⟩ := by
      simp [seterrObj, given, seterr]
    rw [e3]; rfl
  · simp [upd, isok]
  · have : n ≠ 0 := by omega
    simp [objs, Spec.ErrorObj.step, this, Spec.ErrorObj.tell, upd]

/-- C93: a negative number that is told without a text makes `errstr` fail an assertion; -1 makes `seterr` fail one. -/
theorem C93_negative_fails (sys : Int → Text) (n : Int) (hn : n < 0) :
    (n ≠ -1 → (seterr (new 1) n).map (errstr sys) = some none) ∧ (n = -1 → seterr (new 1) n = none) := by
  constructor
  · intro h
    have h0 : n ≠ 0 := by omega
    simp [seterr, new, h, h0, errstr, given, hn]
  · intro h
    subst h
    decide

/-- C93: an empty text makes an assertion fail. -/
theorem C93_empty_fails (o : Obj) (n : Int) : seterrBoth o n [] = none := by simp [seterrBoth]

end Props
