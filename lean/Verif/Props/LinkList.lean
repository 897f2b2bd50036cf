import Verif.Lemmas.LinkList
/-
C51: a linked list behaves like a sequence with a cursor (`Spec.Cursor`).
-/
namespace Props
open Wv Wv.LinkList Spec.Cursor
variable {α : Type} [DecidableEq α]

/-- For any allocator that hands out addresses not in use, and any history of calls that are allowed: no call goes through a
    null or dangling pointer, every call shows what the sequence shows, and the links that are allocated at the end are
    exactly one for each element that is left and the list's own. -/
theorem C51_list_is_sequence (alloc : List Nat → Nat) (halloc : ∀ l, alloc l ∉ l) (ops : List (Call α)) (t : Spec.Cursor.St α)
    (os : List (Out α)) (h : Spec.Cursor.run ⟨[], .unset⟩ ops = some (t, os)) :
    ∃ s, LinkList.run alloc new ops = some (s, os) ∧ s.heap.live.length = t.items.length + 1 := by
  obtain ⟨s, h1, F, r, -⟩ := Rel.run halloc ops new_rel h
  exact ⟨s, h1, r.liveLen⟩

/-- Whatever happened before, an appended element is the last one and a prepended element the first one. -/
theorem C51_append_last (alloc : List Nat → Nat) (halloc : ∀ l, alloc l ∉ l) (ops : List (Call α)) (t : Spec.Cursor.St α)
    (os : List (Out α)) (h : Spec.Cursor.run ⟨[], .unset⟩ ops = some (t, os)) (x y : α) (a b : Bool) :
    ∃ s, LinkList.run alloc new (ops ++ [.append x a, .prepend y b, .last, .first, .count]) =
      some (s, os ++ [.freed [], .freed [], .obj (some x), .obj (some y), .num (t.items.length + 2)]) := by
  have hrun : ∀ (ops ops' : List (Call α)) (t t1 t2 : Spec.Cursor.St α) (os os' : List (Out α)),
      Spec.Cursor.run t ops = some (t1, os) → Spec.Cursor.run t1 ops' = some (t2, os') →
      Spec.Cursor.run t (ops ++ ops') = some (t2, os ++ os') := by
    intro ops
    induction ops with
    | nil =>
      intro ops' t t1 t2 os os' h1 h2
      simp only [Spec.Cursor.run, Option.some.injEq, Prod.mk.injEq] at h1
      obtain ⟨rfl, rfl⟩ := h1
      exact h2
    | cons op ops ih =>
      intro ops' t t1 t2 os os' h1 h2
      simp only [Spec.Cursor.run, Option.bind_eq_some_iff, Option.map_eq_some_iff, Prod.mk.injEq] at h1
      obtain ⟨⟨t3, o⟩, e1, ⟨t4, os4⟩, e2, rfl, rfl⟩ := h1
      simp [Spec.Cursor.run, e1, ih _ _ _ _ _ _ e2 h2]
  have h2 : Spec.Cursor.run t [.append x a, .prepend y b, .last, .first, .count] =
      some (⟨(y, b) :: (t.items ++ [(x, a)]), t.it.shift 0⟩,
        [.freed [], .freed [], .obj (some x), .obj (some y), .num (t.items.length + 2)]) := by
    simp [Spec.Cursor.run, Spec.Cursor.step, List.getLast?_cons]
  obtain ⟨s, e, -⟩ := C51_list_is_sequence alloc halloc _ _ _ (hrun _ _ _ _ _ _ _ h h2)
  exact ⟨s, e⟩

/-- The documentation of `find` says: "In order to locate multiple matching elements, first call find() and then use
    find_next()" (include/wvlinklist.h:128-129). It is not so: if the current element matches, find_next() stays there. -/
theorem C51_find_next_fails :
    ¬ ∀ (alloc : List Nat → Nat) (ops : List (Call Nat)) (x : Nat) (s : LinkList.St Nat) (os : List (Out Nat))
      (t : Spec.Cursor.St Nat) (i j : Nat), (∀ l, alloc l ∉ l) → LinkList.run alloc new (ops ++ [.find x]) = some (s, os) →
      Spec.Cursor.run ⟨[], .unset⟩ (ops ++ [.find x]) = some (t, os) → i < j →
      t.it = .at (some i) (some (i + 1)) → (t.items[j]?.map Prod.fst) = some x →
      ∃ p, LinkList.findNext s.heap s.prev s.link x = some p ∧ p.2 ≠ s.link := by
  intro h
  have halloc : ∀ l : List Nat, l.foldr max 0 + 1 ∉ l := by
    intro l hm
    have : ∀ (l : List Nat) (n : Nat), n ∈ l → n ≤ l.foldr max 0 := by
      intro l
      induction l with
      | nil => simp
      | cons a l ih =>
        intro n hn
        rw [List.foldr_cons]
        rcases List.mem_cons.mp hn with rfl | hn
        · exact Nat.le_max_left _ _
        · exact Nat.le_trans (ih n hn) (Nat.le_max_right _ _)
    have := this l _ hm
    omega
  obtain ⟨s, e, -⟩ := C51_list_is_sequence (fun l => l.foldr max 0 + 1) halloc
    ([.append 7 false, .append 8 false, .append 7 false] ++ [.find 7] : List (Call Nat)) _ _ rfl
  obtain ⟨p, hp, hne⟩ := h (fun l => l.foldr max 0 + 1) [.append 7 false, .append 8 false, .append 7 false] 7 s _ _ 0 2 halloc e rfl
    (by omega) rfl rfl
  have hev : (LinkList.run (fun l => l.foldr max 0 + 1) new
      ([.append 7 false, .append 8 false, .append 7 false] ++ [.find 7] : List (Call Nat))).map (fun r =>
        (LinkList.findNext r.1.heap r.1.prev r.1.link 7).map (fun p => decide (p.2 = r.1.link))) = some (some true) := by
    decide +kernel
  rw [e] at hev
  simp only [Option.map_some, Option.some.injEq, hp] at hev
  exact hne (by simpa using hev)

/- The hypotheses are met by a history that uses every call, with an allocator that reuses addresses. -/
def C51.history : List (Call Nat) :=
  [.append 1 true, .append 2 false, .append 3 true, .prepend 0 true, .rewind, .next, .ptr, .next, .ptr, .addAfterCur 9 true,
   .setAutofree false, .getAutofree, .unlink true, .ptr, .xunlink true, .next, .ptr, .append 3 true, .unlinkAll 3, .append 5 true,
   .reverse, .last, .first, .find 5, .find 6, .count, .unlinkFirst, .isempty, .zap true, .isempty, .append 4 true, .last]

example : (Spec.Cursor.run ⟨[], .unset⟩ C51.history).isSome = true := by decide

example : (Spec.Cursor.run ⟨[], .unset⟩ C51.history).map Prod.snd =
    some [.freed [], .freed [], .freed [], .freed [], .freed [], .flag true, .obj (some 0), .flag true, .obj (some 1), .freed [],
      .freed [], .flag false, .freed [], .obj (some 9), .freed [9], .flag true, .obj (some 2), .freed [], .freed [3, 3], .freed [],
      .freed [], .obj (some 0), .obj (some 5), .flag true, .flag false, .num 3, .freed [5], .flag false, .freed [0], .flag true,
      .freed [], .obj (some 4)] := by decide

/-- The first free address. -/
def C51.firstFree (l : List Nat) : Nat := ((List.range (l.length + 1)).find? fun n => n ∉ l).getD 0

example : C51.firstFree [0, 1, 3] = 2 := by decide

end Props
