import Verif.Spec.WatchObj
import Verif.Model.WatchObj
import Verif.Props.Watch
/- C135: objects that watch a configuration as long as they are there. -/
namespace Props
open Wv Wv.WatchObj Watching
open Spec.Conf (Place Text place)
open Spec.Watch (Watches upper lower)
open Spec.WatchObj (Proper watch)

/-- Something done with objects, and the order of the hash table afterwards. -/
structure WoStep where
  op : Spec.WatchObj.Op
  ord : List Watch.Tree → List Watch.Tree
  perm : ∀ l, (ord l).Perm l

/-- Doing it. -/
def woExec (s : St) (x : WoStep) : St :=
  match x.op with
  | .make o => make x.ord s o.addr (Key.parse o.key) o.callback o.recurse
  | .copy a b => copy s a b
  | .destroy a => destroy x.ord s a

def woAfter (s : St) : List WoStep → St
  | [] => s
  | x :: l => woAfter (woExec s x) l

/-- The objects that watch then. -/
def watchers (l : List WoStep) : List Spec.WatchObj.Obj := Spec.WatchObj.after [] (l.map WoStep.op)

/-- A proper history. -/
def WoProper (l : List WoStep) : Prop := Proper [] (l.map WoStep.op)

namespace WoP

theorem after_snoc (s : Step) : ∀ (l : List Step) (t : Watch.Tree), Watching.after t (l ++ [s]) = Watching.exec (Watching.after t l) s := by
  intro l
  induction l with
  | nil => intro t; rfl
  | cons x l ih => intro t; exact ih _

theorem specAfter_snoc (o : Spec.Watch.Op) : ∀ (l : List Spec.Watch.Op) (ws : List Spec.Watch.Watch),
    Spec.Watch.after ws (l ++ [o]) = Spec.Watch.step (Spec.Watch.after ws l) o := by
  intro l
  induction l with
  | nil => intro t; rfl
  | cons x l ih => intro t; exact ih _

theorem watches_snoc (s : Step) (l : List Step) : watches (l ++ [s]) = Spec.Watch.step (watches l) s.op := by
  unfold watches; rw [List.map_append]; exact specAfter_snoc _ _ _

/-- The watches are those of the objects that watch, and the objects know where they watch. -/
structure Inv (s : St) (ws : List Spec.WatchObj.Obj) (u : List Nat) : Prop where
  tree : ∃ l : List Step, s.tree = Watching.after Watch.new l ∧ watches l = ws.map watch
  addrs : s.objs.map Obj.addr = u
  nodup : u.Nodup
  wnodup : (ws.map Spec.WatchObj.Obj.addr).Nodup
  inUse : ∀ w ∈ ws, w.addr ∈ u
  keys : ∀ o ∈ s.objs, ∃ t, o.cfg = Key.parse t ∧ ∀ w ∈ ws, w.addr = o.addr → w.key = t ∧ w.recurse = o.recurse

theorem erase_filter (a : Nat) (p : Spec.Watch.Watch → Bool) : ∀ ws : List Spec.WatchObj.Obj, (ws.map Spec.WatchObj.Obj.addr).Nodup →
    (∀ w ∈ ws, p (watch w) = decide (w.addr = a)) →
    (ws.map watch).eraseP p = (ws.filter fun o => decide (o.addr ≠ a)).map watch := by
  intro ws
  induction ws with
  | nil => intro _ _; rfl
  | cons w ws ih =>
    intro hn hp
    rw [List.map_cons, List.nodup_cons] at hn
    rw [List.map_cons, List.eraseP_cons, hp w (by simp)]
    by_cases h : w.addr = a
    · have hf : ws.filter (fun o => decide (o.addr ≠ a)) = ws := by
        rw [List.filter_eq_self]
        intro o ho
        have : o.addr ≠ w.addr := fun e => hn.1 (by rw [← e]; exact List.mem_map_of_mem ho)
        simpa [h] using this
      rw [List.filter_cons_of_neg (by simp [h]), hf]
      simp [h]
    · rw [List.filter_cons_of_pos (by simpa using h), List.map_cons, ← ih hn.2 (fun w hw => hp w (by simp [hw]))]
      simp [h]

theorem find_addr (s : St) (u : List Nat) (h : s.objs.map Obj.addr = u) (a : Nat) (ha : a ∈ u) :
    ∃ o ∈ s.objs, o.addr = a ∧ s.objs.find? (fun o => o.addr == a) = some o := by
  cases hf : s.objs.find? (fun o => o.addr == a) with
  | none =>
    rw [← h] at ha
    obtain ⟨o, ho, e⟩ := List.mem_map.1 ha
    have := List.find?_eq_none.1 hf o ho
    simp [e] at this
  | some o =>
    have h1 := List.find?_some hf
    exact ⟨o, List.mem_of_find?_eq_some hf, by simpa using h1, rfl⟩

theorem inv_make {s : St} {ws u} (h : Inv s ws u) (o : Spec.WatchObj.Obj) (ho : o.addr ∉ u) (ord : Ord) (perm : ∀ l, (ord l).Perm l) :
    Inv (make ord s o.addr (Key.parse o.key) o.callback o.recurse) (ws ++ [o]) (o.addr :: u) := by
  obtain ⟨l, h1, h2⟩ := h.tree
  refine ⟨⟨l ++ [⟨.add o.key o.recurse o.addr o.callback, ord, perm⟩], ?_, ?_⟩, ?_, ?_, ?_, ?_, ?_⟩
  · rw [after_snoc, ← h1]; rfl
  · rw [watches_snoc, h2, List.map_append]; rfl
  · simp [make, h.addrs]
  · exact List.nodup_cons.2 ⟨ho, h.nodup⟩
  · rw [List.map_append, List.nodup_append]
    refine ⟨h.wnodup, by simp, ?_⟩
    intro a ha b hb e
    obtain ⟨w, hw, rfl⟩ := List.mem_map.1 ha
    have : b = o.addr := by simpa using hb
    exact ho (by rw [← this, ← e]; exact h.inUse w hw)
  · intro w hw
    rcases List.mem_append.1 hw with hw | hw
    · exact List.mem_cons_of_mem _ (h.inUse w hw)
    · rw [List.mem_singleton.1 hw]; simp
  · intro x hx
    rcases List.mem_cons.1 hx with rfl | hx
    · refine ⟨o.key, rfl, fun w hw e => ?_⟩
      rcases List.mem_append.1 hw with hw | hw
      · exact absurd (h.inUse w hw) (by rw [e]; exact ho)
      · rw [List.mem_singleton.1 hw]; exact ⟨rfl, rfl⟩
    · obtain ⟨t, e1, e2⟩ := h.keys x hx
      refine ⟨t, e1, fun w hw e => ?_⟩
      rcases List.mem_append.1 hw with hw | hw
      · exact e2 w hw e
      · rw [List.mem_singleton.1 hw] at e
        have : x.addr ∈ u := by rw [← h.addrs]; exact List.mem_map_of_mem hx
        exact absurd this (by rw [← e]; exact ho)

theorem inv_copy {s : St} {ws u} (h : Inv s ws u) (a b : Nat) (ha : a ∈ u) (hb : b ∉ u) : Inv (copy s a b) ws (b :: u) := by
  obtain ⟨o, ho, he, hf⟩ := find_addr s u h.addrs a ha
  unfold copy
  rw [hf]
  refine ⟨h.tree, ?_, List.nodup_cons.2 ⟨hb, h.nodup⟩, h.wnodup, fun w hw => List.mem_cons_of_mem _ (h.inUse w hw), ?_⟩
  · simp [h.addrs]
  · intro x hx
    rcases List.mem_cons.1 hx with rfl | hx
    · obtain ⟨t, e1, _⟩ := h.keys o ho
      refine ⟨t, e1, fun w hw e => ?_⟩
      exact absurd (h.inUse w hw) (by rw [e]; exact hb)
    · exact h.keys x hx

theorem inv_destroy {s : St} {ws u} (h : Inv s ws u) (a : Nat) (ha : a ∈ u) (ord : Ord) (perm : ∀ l, (ord l).Perm l) :
    Inv (destroy ord s a) (ws.filter fun o => decide (o.addr ≠ a)) (u.filter fun b => decide (b ≠ a)) := by
  obtain ⟨o, ho, he, hf⟩ := find_addr s u h.addrs a ha
  obtain ⟨l, h1, h2⟩ := h.tree
  obtain ⟨t, e1, e2⟩ := h.keys o ho
  unfold destroy
  rw [hf]
  dsimp only
  refine ⟨⟨l ++ [⟨.del t o.recurse o.addr, ord, perm⟩], ?_, ?_⟩, ?_, h.nodup.filter _, ?_, ?_, ?_⟩
  · rw [after_snoc, ← h1, e1]; rfl
  · rw [watches_snoc, h2]
    refine erase_filter a _ ws h.wnodup (fun w hw => ?_)
    by_cases e : w.addr = a
    · obtain ⟨k1, k2⟩ := e2 w hw (e.trans he.symm)
      simp [watch, e, he, k1, k2]
    · simp [watch, e, he]
  · rw [← h.addrs, List.filter_map]
    congr 1
    exact List.filter_congr (fun x _ => by simp [bne, Function.comp, BEq.beq])
  · exact h.wnodup.sublist (List.filter_sublist.map _)
  · intro w hw
    obtain ⟨h3, h4⟩ := List.mem_filter.1 hw
    exact List.mem_filter.2 ⟨h.inUse w h3, h4⟩
  · intro x hx
    obtain ⟨t, k1, k2⟩ := h.keys x (List.mem_filter.1 hx).1
    exact ⟨t, k1, fun w hw => k2 w (List.mem_filter.1 hw).1⟩

theorem inv_after : ∀ (l : List WoStep) {s : St} {ws u}, Inv s ws u → Proper u (l.map WoStep.op) →
    Inv (woAfter s l) (Spec.WatchObj.after ws (l.map WoStep.op)) (Spec.WatchObj.usedAfter u (l.map WoStep.op)) := by
  intro l
  induction l with
  | nil => intro s ws u h _; exact h
  | cons x l ih =>
    intro s ws u h hp
    obtain ⟨op, ord, perm⟩ := x
    cases op with
    | make o => exact ih (inv_make h o hp.1 ord perm) hp.2
    | copy a b => exact ih (inv_copy h a b hp.1 hp.2.1) hp.2.2
    | destroy a => exact ih (inv_destroy h a hp.1 ord perm) hp.2

theorem inv (l : List WoStep) (h : WoProper l) :
    Inv (woAfter new l) (watchers l) (Spec.WatchObj.usedAfter [] (l.map WoStep.op)) :=
  inv_after l ⟨⟨[], rfl, rfl⟩, rfl, by simp, by simp, by simp, by simp [new]⟩ h

end WoP

/-- C135: when something changes, exactly the objects are called that have been made and not yet destroyed, and that watch it: each
    once, those above first; and if it is removed, those below. Copies that come and go make no difference. -/
theorem C135_calls_partial (l : List WoStep) (hl : WoProper l) (k : Text) (hk : Spec.Path.dir k = false) (v : Option Text) :
    ∃ first second, Watch.genCallback (woAfter new l).tree (Key.parse k) v = first ++ second ∧
      first.map call = upper ((watchers l).map watch) (place k) ∧
      (second.map call).Perm (if v = none then lower ((watchers l).map watch) (place k) else []) := by
  obtain ⟨steps, h1, h2⟩ := (WoP.inv l hl).tree
  rw [h1, ← h2]
  exact C53_calls_partial steps k hk v

/-- C135: over a configuration in memory, an object is called if and only if it is there and something has changed that it watches, or
    something has been removed above it. -/
theorem C135_set (l : List WoStep) (hl : WoProper l) (cs : List Temp.SetCall) (c : Temp.SetCall) (x : Spec.Watch.Call) :
    x ∈ (calls (woAfter new l).tree (Temp.call (Temp.after TempGen.new cs) c).2).map call ↔
      (∃ o ∈ watchers l, x.1 = watch o) ∧ ∃ q, Temp.conf cs q ≠ Temp.conf (cs ++ [c]) q ∧
        (Watches x.1 q ∧ x.1.point ++ x.2 = q ∨
          Temp.conf (cs ++ [c]) q = none ∧ x.2 = [] ∧ q <+: x.1.point ∧ x.1.point ≠ q) := by
  obtain ⟨steps, h1, h2⟩ := (WoP.inv l hl).tree
  rw [h1, C53_set steps cs c x, h2]
  have : x.1 ∈ (watchers l).map watch ↔ ∃ o ∈ watchers l, x.1 = watch o := by
    rw [List.mem_map]
    exact ⟨fun ⟨o, h, e⟩ => ⟨o, h, e.symm⟩, fun ⟨o, h, e⟩ => ⟨o, h, e.symm⟩⟩
  rw [this]

/-- C135: when all objects have been destroyed, nothing is left of them, and the root can be destroyed. -/
theorem C135_forgotten (l : List WoStep) (hl : WoProper l) (h : Spec.WatchObj.usedAfter [] (l.map WoStep.op) = []) :
    (woAfter new l).tree = Watch.new ∧ Watch.watchout (woAfter new l).tree.children = false := by
  have hi := WoP.inv l hl
  have hw : watchers l = [] := by
    cases hw : watchers l with
    | nil => rfl
    | cons w ws => have := hi.inUse w (by rw [hw]; simp); rw [h] at this; cases this
  obtain ⟨steps, h1, h2⟩ := hi.tree
  rw [hw] at h2
  have := C53_forgotten steps h2
  rw [h1, this]
  exact ⟨rfl, rfl⟩

/-- C135: an object that has been destroyed is never called. -/
theorem C135_gone (l : List WoStep) (hl : WoProper l) (a : Nat) (ha : a ∉ Spec.WatchObj.usedAfter [] (l.map WoStep.op))
    (k : Text) (hk : Spec.Path.dir k = false) (v : Option Text) :
    ∀ c ∈ Watch.genCallback (woAfter new l).tree (Key.parse k) v, c.watch.cookie ≠ a := by
  intro c hc e
  obtain ⟨f, s, h1, h2, h3⟩ := C135_calls_partial l hl k hk v
  have hm : ∃ o ∈ watchers l, (call c).1 = watch o := by
    rw [h1] at hc
    rcases List.mem_append.1 hc with hc | hc
    · have := List.mem_map_of_mem (f := call) hc
      rw [h2] at this
      obtain ⟨p, _, hp⟩ := List.mem_flatMap.1 this
      obtain ⟨w, hw, ew⟩ := List.mem_map.1 hp
      obtain ⟨o, ho, eo⟩ := List.mem_map.1 (List.mem_filter.1 hw).1
      exact ⟨o, ho, by rw [← ew, eo]⟩
    · have := h3.mem_iff.1 (List.mem_map_of_mem (f := call) hc)
      split at this
      · obtain ⟨w, hw, ew⟩ := List.mem_map.1 this
        obtain ⟨o, ho, eo⟩ := List.mem_map.1 (List.mem_filter.1 hw).1
        exact ⟨o, ho, by rw [← ew, eo]⟩
      · cases this
  obtain ⟨o, ho, eo⟩ := hm
  have hu := (WoP.inv l hl).inUse o ho
  have : (call c).1.cookie = o.addr := by rw [eo]; rfl
  exact ha (by rw [← e]; exact (show c.watch.cookie = o.addr from this) ▸ hu)

/-- Two objects, one of them copied and destroyed. -/
def sampleWo : List WoStep :=
  [⟨.make ⟨1, str ['a'], true, 10⟩, id, fun _ => .refl _⟩, ⟨.make ⟨2, str ['a', '/', 'b'], false, 20⟩, id, fun _ => .refl _⟩,
   ⟨.copy 1 3, id, fun _ => .refl _⟩, ⟨.destroy 1, id, fun _ => .refl _⟩]
theorem sampleWo_proper : WoProper sampleWo := by
  refine ⟨by decide, by decide, by decide, by decide, by decide, trivial⟩
example : watchers sampleWo = [⟨2, str ['a', '/', 'b'], false, 20⟩] := by decide +kernel
example : (Watch.genCallback (woAfter new sampleWo).tree (Key.parse (str ['a', '/', 'b'])) (some [])).map (fun c => c.watch.callback) = [20] := by
  decide +kernel
example : Spec.WatchObj.usedAfter [] (sampleWo.map WoStep.op ++ [.destroy 2, .destroy 3]) = [] := by
  decide +kernel
example : (1 : Nat) ∉ Spec.WatchObj.usedAfter [] (sampleWo.map WoStep.op) := by decide +kernel

/-- C135 fails for copies: when the first object is gone its copy, that is still there, is not called. -/
theorem C135_copy_fails : ¬ ∀ (s : St) (o : Obj) (k : Text), o ∈ s.objs → o.recurse = true → o.cfg = [] →
    ∃ c ∈ Watch.genCallback s.tree (Key.parse k) (some []), c.watch.callback = o.cb := by
  intro h
  have := h (destroy id (copy (make id new 1 [] 10 true) 1 2) 1) ⟨2, [], 10, true⟩ (str ['a']) (by simp [destroy, copy, make, new]) rfl rfl
  revert this; decide +kernel

/-- C135 fails for assignments: an object that has been assigned to does not give up its watch when it is destroyed; it is called when no
    object is there any more. -/
theorem C135_assign_fails :
    let s := destroy id (destroy id (assign (make id (make id new 1 (Key.parse (str ['a'])) 10 true) 2 (Key.parse (str ['b'])) 20 true) 1 2) 1) 2
    s.objs.map Obj.addr = [] ∧ (Watch.genCallback s.tree (Key.parse (str ['a'])) (some [])).map (fun c => c.watch.callback) = [10] ∧
      Watch.watchout s.tree.children = true := by
  decide +kernel

end Props
