import Verif.Model.CallbackGen
import Verif.Lemmas.KeyOrder
import Verif.Props.TempGen
/-!
C129: values computed by functions of the program.
-/
namespace Props
open Wv Wv.CallbackGen
open Spec.CallbackGen (Op Ans St slot Slot)

namespace CgP

/-- Two keys are the same for the map exactly if they have the same place and the same slash. -/
theorem same_iff (a b : List Byte) : Key.compareto (Key.parse a) (Key.parse b) = 0 ↔ slot a = slot b := by
  rw [(Key.compareto_order _ _).2.1, Key.parse_eq, Key.parse_eq]
  unfold slot
  rw [TempGen.place_eq, TempGen.place_eq, Prod.mk.injEq]
  have nm : ∀ s : List Byte, [] ∉ Key.fold (Spec.Path.names s) := by
    intro s h
    unfold Key.fold at h
    obtain ⟨n, h1, h2⟩ := List.mem_map.1 h
    exact (Key.names_ok s n h1).1 (List.map_eq_nil_iff.1 h2)
  have fm : ∀ (s : List Byte), Key.fold (Key.mk (Spec.Path.names s) (Spec.Path.dir s)) = Key.fold (Spec.Path.names s) ++ (if Spec.Path.dir s then [[]] else []) := by
    intro s
    unfold Key.fold Key.mk
    cases Spec.Path.dir s <;> simp
  rw [fm, fm]
  generalize hx : Key.fold (Spec.Path.names a) = x
  generalize hy : Key.fold (Spec.Path.names b) = y
  have na : [] ∉ x := hx ▸ nm a
  have nb : [] ∉ y := hy ▸ nm b
  cases Spec.Path.dir a <;> cases Spec.Path.dir b
  · simp
  · simp only [if_true, List.append_nil, Bool.false_eq_true, if_false]
    constructor
    · intro h
      exact absurd (by rw [h]; simp) na
    · intro h
      cases h.2
  · simp only [if_true, List.append_nil, Bool.false_eq_true, if_false]
    constructor
    · intro h
      exact absurd (by rw [← h]; simp) nb
    · intro h
      cases h.2
  · simp

/-- The map holds what is registered. -/
def MapHolds (m : Map) (f : Slot → Option Nat) : Prop := (∀ e ∈ m, ∃ s, e.1 = Key.parse s) ∧ ∀ s, m.find (Key.parse s) = f (slot s)

theorem find_cons (k : Key) (e : Key × Nat) (m : Map) : Map.find (e :: m) k = if Key.compareto k e.1 = 0 then some e.2 else Map.find m k := by
  unfold Map.find
  rw [List.find?_cons]
  by_cases h : Key.compareto k e.1 = 0
  · simp [h]
  · have : (Key.compareto k e.1 == 0) = false := by simpa using h
    rw [this, if_neg h]

theorem find_filter (s t : List Byte) : ∀ m : Map, (∀ e ∈ m, ∃ s, e.1 = Key.parse s) →
    Map.find (m.filter fun e => Key.compareto (Key.parse s) e.1 != 0) (Key.parse t) = if slot t = slot s then none else Map.find m (Key.parse t)
  | [], _ => by simp [Map.find]
  | e :: m, h => by
    have ih := find_filter s t m fun e he => h e (List.mem_cons_of_mem _ he)
    obtain ⟨u, hu⟩ := h e List.mem_cons_self
    rw [List.filter_cons]
    by_cases hs : Key.compareto (Key.parse s) e.1 = 0
    · have hs' : slot s = slot u := (same_iff s u).1 (hu ▸ hs)
      rw [if_neg (by simp [hs]), ih]
      by_cases ht : slot t = slot s
      · rw [if_pos ht, if_pos ht]
      · rw [if_neg ht, if_neg ht, find_cons, if_neg]
        rw [hu, same_iff, ← hs']
        exact ht
    · have hs' : slot s ≠ slot u := fun hc => hs (by rw [hu]; exact (same_iff s u).2 hc)
      rw [if_pos (by simp [hs]), find_cons, find_cons, ih]
      by_cases ht : slot t = slot s
      · rw [if_pos ht, if_pos ht, if_neg]
        rw [hu, same_iff, ht]
        exact hs'
      · rw [if_neg ht, if_neg ht]

theorem store_holds {m : Map} {f : Slot → Option Nat} (h : MapHolds m f) (s : List Byte) (v : Option Nat) :
    MapHolds (m.store (Key.parse s) v) (fun k => if k = slot s then v else f k) := by
  have keys : ∀ e ∈ m.filter (fun e => Key.compareto (Key.parse s) e.1 != 0), ∃ s, e.1 = Key.parse s := fun e he => h.1 e (List.mem_filter.1 he).1
  cases v with
  | none =>
    refine ⟨keys, fun t => ?_⟩
    unfold Map.store
    rw [find_filter s t m h.1, h.2 t]
  | some v =>
    refine ⟨fun e he => ?_, fun t => ?_⟩
    · rcases List.mem_cons.1 he with rfl | he
      · exact ⟨s, rfl⟩
      · exact keys e he
    · unfold Map.store
      dsimp only
      rw [find_cons, find_filter s t m h.1, h.2 t]
      by_cases ht : slot t = slot s
      · rw [if_pos ((same_iff t s).2 ht), if_pos ht]
      · rw [if_neg (fun hc => ht ((same_iff t s).1 hc)), if_neg ht, if_neg ht]

variable {W : Type}

/-- The functions of the program, seen with the text of keys. -/
def funs (F : Funs W) : Spec.CallbackGen.Funs W := ⟨fun i w s => F.compute i w (Key.parse s), fun i w s v => F.told i w (Key.parse s) v⟩

/-- The generator holds the configuration. -/
structure Holds (g : Gen W) (st : St W) : Prop where
  temp : Temp.Holds g.temp st.conf
  world : g.world = st.world
  gets : MapHolds g.gets st.gets
  sets : MapHolds g.sets st.sets
  before : g.before = st.before
  after : g.after = st.after

theorem update_holds (F : Funs W) (ord : Order) (ho : ∀ l, (ord l).Perm l) {g : Gen W} {st : St W} (h : Holds g st) (s : List Byte) (v : Option (List Byte)) :
    Holds (update F ord g (Key.parse s) v) (Spec.CallbackGen.update (funs F) st s v) := by
  unfold update Spec.CallbackGen.update
  rw [h.gets.2 s]
  cases hf : st.gets (slot s) with
  | none => exact ⟨(Temp.call_spec _ _ h.temp ⟨s, v, ord, ho⟩).1, h.world, h.gets, h.sets, h.before, h.after⟩
  | some i =>
    dsimp only [funs]
    rw [h.world]
    exact ⟨(Temp.call_spec _ _ h.temp ⟨s, (F.compute i st.world (Key.parse s)).2, ord, ho⟩).1, rfl, h.gets, h.sets, h.before, h.after⟩

theorem step_holds (F : Funs W) (ord : Order) (ho : ∀ l, (ord l).Perm l) {g : Gen W} {st : St W} (h : Holds g st) (o : Op) :
    (step F ord g o).1 = (Spec.CallbackGen.step (funs F) st o).1 ∧ Holds (step F ord g o).2 (Spec.CallbackGen.step (funs F) st o).2 := by
  have rd : ∀ s, TempGen.get (CallbackGen.get F ord g (Key.parse s)).2.temp (Key.parse s) = Spec.Conf.get (if st.before then Spec.CallbackGen.update (funs F) st s none else st).conf s ∧
      Holds (CallbackGen.get F ord g (Key.parse s)).2 (if st.before then Spec.CallbackGen.update (funs F) st s none else st) := by
    intro s
    unfold CallbackGen.get
    dsimp only
    rw [h.before]
    cases st.before with
    | true =>
      have := update_holds F ord ho h s none
      exact ⟨Temp.get_holds _ _ this.temp s, this⟩
    | false => exact ⟨Temp.get_holds _ _ h.temp s, h⟩
  cases o with
  | setGet s f => exact ⟨rfl, h.temp, h.world, store_holds h.gets s f, h.sets, h.before, h.after⟩
  | setSet s f => exact ⟨rfl, h.temp, h.world, h.gets, store_holds h.sets s f, h.before, h.after⟩
  | before b => exact ⟨rfl, h.temp, h.world, h.gets, h.sets, rfl, h.after⟩
  | after b => exact ⟨rfl, h.temp, h.world, h.gets, h.sets, h.before, rfl⟩
  | update s v => exact ⟨rfl, update_holds F ord ho h s v⟩
  | put s v =>
    refine ⟨rfl, ?_⟩
    unfold step put Spec.CallbackGen.step
    dsimp only
    rw [h.sets.2 s]
    cases hf : st.sets (slot s) with
    | none =>
      dsimp only
      rw [h.after]
      cases st.after with
      | true => exact update_holds F ord ho h s v
      | false => exact h
    | some i =>
      dsimp only [funs]
      rw [h.after]
      have h' : Holds { g with world := F.told i g.world (Key.parse s) v } { st with world := F.told i st.world (Key.parse s) v } :=
        ⟨h.temp, (by simp [h.world]), h.gets, h.sets, h.before, h.after⟩
      by_cases hc : st.after = true
      · rw [if_pos hc, if_pos hc, ← h.after]
        simp only [h.after]
        have := update_holds F ord ho h' s v
        simp only [h.after] at this
        exact this
      · rw [if_neg hc, if_neg hc]
        simp only [h.after] at h'
        exact h'
  | get s => exact ⟨congrArg Ans.value (rd s).1, (rd s).2⟩
  | exists_ s =>
    exact ⟨congrArg (fun v => Ans.bool (Option.isSome v)) (rd s).1, (rd s).2⟩

theorem new_holds (w : W) : Holds (new w) (Spec.CallbackGen.start w) :=
  ⟨Temp.new_holds, rfl, ⟨by simp [new], fun _ => rfl⟩, ⟨by simp [new], fun _ => rfl⟩, rfl, rfl⟩

/-- An order that changes nothing. -/
def same (l : List Op) : List (Op × Order) := l.map fun o => (o, fun l => l)

end CgP

variable {W : Type}

/-- Whatever is called in whatever order, and however the hash tables order things, a `UniCallbackGen` answers as the specification says, and calls exactly the
    functions it says, with the same arguments and in the same order (the program `W` is the same after it): the function told of a value first, then the one that computes
    the value that is stored; keys are the same up to case, but not with and without a slash at the end. -/
theorem C129_answers_partial (F : Funs W) (w : W) (l : List (Op × Order)) (ho : ∀ x ∈ l, ∀ t, (x.2 t).Perm t) :
    (run F (new w) l).1 = (Spec.CallbackGen.run (CgP.funs F) (Spec.CallbackGen.start w) (l.map Prod.fst)).1 ∧
    (run F (new w) l).2.world = (Spec.CallbackGen.run (CgP.funs F) (Spec.CallbackGen.start w) (l.map Prod.fst)).2.world := by
  have key : ∀ (l : List (Op × Order)) (g : Gen W) (st : St W), (∀ x ∈ l, ∀ t, (x.2 t).Perm t) → CgP.Holds g st →
      (run F g l).1 = (Spec.CallbackGen.run (CgP.funs F) st (l.map Prod.fst)).1 ∧ CgP.Holds (run F g l).2 (Spec.CallbackGen.run (CgP.funs F) st (l.map Prod.fst)).2 := by
    intro l
    induction l with
    | nil => intro g st _ h; exact ⟨rfl, h⟩
    | cons x l ih =>
      intro g st ho h
      obtain ⟨o, ord⟩ := x
      obtain ⟨s1, s2⟩ := CgP.step_holds F ord (ho _ List.mem_cons_self) h o
      obtain ⟨i1, i2⟩ := ih _ _ (fun x hx => ho x (List.mem_cons_of_mem _ hx)) s2
      refine ⟨?_, i2⟩
      show (step F ord g o).1 :: _ = _ :: _
      rw [s1, i1]
  exact ⟨(key l _ _ ho (CgP.new_holds w)).1, (key l _ _ ho (CgP.new_holds w)).2.world⟩

/-- A program whose one function counts how often it is called, and gives one more letter each time. -/
def CgP.counting : Funs Nat := ⟨fun _ n _ => (n + 1, some (List.replicate (n + 1) (ch 'x'))), fun _ n _ _ => n + 10⟩

example : (run CgP.counting (new 0) (CgP.same [.setGet (str ['a', '/', 'b']) (some 0), .setSet (str ['c']) (some 0), .get (str ['a', '/', 'b']), .put (str ['A', '/', 'b']) (some []), .get (str ['a', '/', 'B']),
    .put (str ['c']) (some (str ['q'])), .put (str ['a', '/', 'b']) none, .get (str ['a', '/', 'b']), .get (str ['c'])])).1 =
    [.unit, .unit, .value none, .unit, .value (some (str ['x'])), .unit, .unit, .value (some (List.replicate 12 (ch 'x'))), .value (some (str ['q']))] := by decide +kernel

/-- The documented use: after `set`, with whatever value, reading the key gives what its function computed just then, and reading does not call it again. -/
theorem C129_recent (F : Funs W) (w : W) (l : List (Op × Order)) (ho : ∀ x ∈ l, ∀ t, (x.2 t).Perm t) (s : List Byte) (v : Option (List Byte)) (hd : Spec.Path.dir s = false)
    (i : Nat) (st : St W) (hst : st = (Spec.CallbackGen.run (CgP.funs F) (Spec.CallbackGen.start w) (l.map Prod.fst)).2)
    (hb : st.before = false) (ha : st.after = true) (hg : st.gets (slot s) = some i) (hs : st.sets (slot s) = none) :
    (run F (new w) (l ++ CgP.same [.put s v, .get s])).1.getLast? = some (.value (F.compute i st.world (Key.parse s)).2) ∧
    (run F (new w) (l ++ CgP.same [.put s v, .get s])).2.world = (F.compute i st.world (Key.parse s)).1 := by
  have ho' : ∀ x ∈ l ++ CgP.same [.put s v, .get s], ∀ t, (x.2 t).Perm t := by
    intro x hx t
    rcases List.mem_append.1 hx with hx | hx
    · exact ho x hx t
    · simp [CgP.same] at hx
      rcases hx with rfl | rfl <;> exact List.Perm.refl _
  obtain ⟨h1, h2⟩ := C129_answers_partial F w _ ho'
  have app : ∀ (a b : List Op) (st : St W), Spec.CallbackGen.run (CgP.funs F) st (a ++ b) =
      ((Spec.CallbackGen.run (CgP.funs F) st a).1 ++ (Spec.CallbackGen.run (CgP.funs F) (Spec.CallbackGen.run (CgP.funs F) st a).2 b).1,
       (Spec.CallbackGen.run (CgP.funs F) (Spec.CallbackGen.run (CgP.funs F) st a).2 b).2) := by
    intro a b
    induction a with
    | nil => intro st; rfl
    | cons o a ih =>
      intro st
      have e : ∀ (o : Op) (l : List Op), Spec.CallbackGen.run (CgP.funs F) st (o :: l) =
          ((Spec.CallbackGen.step (CgP.funs F) st o).1 :: (Spec.CallbackGen.run (CgP.funs F) (Spec.CallbackGen.step (CgP.funs F) st o).2 l).1,
           (Spec.CallbackGen.run (CgP.funs F) (Spec.CallbackGen.step (CgP.funs F) st o).2 l).2) := fun _ _ => rfl
      rw [List.cons_append, e, ih, e]
      rfl
  rw [h1, h2, List.map_append, app, ← hst]
  have two : Spec.CallbackGen.run (CgP.funs F) st ((CgP.same [Op.put s v, Op.get s]).map Prod.fst) =
      ([Ans.unit, Ans.value (F.compute i st.world (Key.parse s)).2],
        { st with world := (F.compute i st.world (Key.parse s)).1, conf := Spec.Conf.set st.conf s (F.compute i st.world (Key.parse s)).2 }) := by
    have e : (CgP.same [Op.put s v, Op.get s]).map Prod.fst = [Op.put s v, Op.get s] := rfl
    rw [e]
    unfold Spec.CallbackGen.run Spec.CallbackGen.run Spec.CallbackGen.step Spec.CallbackGen.update
    dsimp only
    rw [hs]
    dsimp only
    rw [ha, if_pos rfl, hg]
    dsimp only
    rw [hb]
    dsimp only [CgP.funs]
    have rd : ∀ (m : Spec.Conf.State) (x : Option (List Byte)), Spec.Conf.get (Spec.Conf.set m s x) s = x := by
      intro m x
      unfold Spec.Conf.get Spec.Conf.set
      rw [hd]
      cases x <;> simp
    simp only [Bool.false_eq_true, if_false, rd]
    rfl
  rw [two]
  exact ⟨by simp, rfl⟩

/-- DISAGREEMENT: with `update_before_get`, reading a key that no function computes removes it, with all keys below it, although a value was set for it. -/
theorem C129_before_fails : ∃ (F : Funs Nat) (l : List Op), (run F (new 0) (CgP.same l)).1 = [.unit, .unit, .value none, .unit, .value none, .unit] ∧
    l = [.put (str ['a', '/', 'b']) (some (str ['v'])), .before true, .get (str ['a']), .before false, .get (str ['a', '/', 'b']), .before true] :=
  ⟨CgP.counting, _, by decide +kernel, rfl⟩

/-- DISAGREEMENT: the function that computes a key is not called when the keys are iterated: the iterator gives an older value than `get` gives. -/
theorem C129_iterate_fails : ∃ (F : Funs Nat) (l : List Op), (iterator (run F (new 0) (CgP.same l)).2 []) = some [(Key.parse (str ['a']), str ['x'])] ∧
    (run F (new 0) (CgP.same (l ++ [.get (str ['a'])]))).1.getLast? = some (.value (some (str ['x', 'x']))) :=
  ⟨CgP.counting, [.setGet (str ['a']) (some 0), .put (str ['a']) none, .before true], by decide +kernel⟩

/-- DISAGREEMENT: without `update_after_set`, a value that is set is lost, also for keys that no function knows. -/
theorem C129_after_fails : ∃ (F : Funs Nat) (l : List Op), (run F (new 0) (CgP.same l)).1 = [.unit, .unit, .value none] ∧
    l = [.after false, .put (str ['a']) (some (str ['v'])), .get (str ['a'])] :=
  ⟨CgP.counting, _, by decide +kernel, rfl⟩

end Props
