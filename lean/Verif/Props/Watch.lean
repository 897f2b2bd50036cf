import Verif.Lemmas.Watch
import Verif.Props.TempGen
/- C53: which watches are called when something changes. -/
set_option linter.unusedSimpArgs false
namespace Props
open Wv Wv.Watch
open Wv.Key (Names fold)
open Spec.Conf (Place Text place)
open Spec.Watch (Watches above upper lower)

namespace Watching

/-- A call that adds or removes a watch, and the order its children have in the hash table afterwards. -/
structure Step where
  op : Spec.Watch.Op
  ord : List Tree → List Tree
  perm : ∀ l, (ord l).Perm l

/-- Making the call. -/
def exec (t : Tree) (s : Step) : Tree :=
  match s.op with
  | .add k r c f => Watch.add s.ord t c (Key.parse k) f r
  | .del k r c => Watch.del s.ord t c (Key.parse k) r

/-- The tree of watches after a history. -/
def after (t : Tree) : List Step → Tree
  | [] => t
  | s :: l => after (exec t s) l

/-- The watches there are then. -/
def watches (l : List Step) : List Spec.Watch.Watch := Spec.Watch.after [] (l.map Step.op)

/-- A call of a callback as in the specification: the watch with the place of the UniConf object it is given, and the place of the
    relative key. -/
def call (c : Watch.Call) : Spec.Watch.Call :=
  (⟨place (Key.printable c.base), c.watch.recurse, c.watch.cookie, c.watch.callback⟩, place (Key.printable c.rel))

def info (w : Spec.Watch.Watch) : Info := ⟨w.cookie, w.recurse, w.callback⟩
def full (p : Place) (i : Info) : Spec.Watch.Watch := ⟨p, i.recurse, i.cookie, i.callback⟩
def up (x : Place × Info × Place) : Spec.Watch.Call := (full x.1 x.2.1, x.2.2)

theorem call_eq (l : List Watch.Call) : l.map call = (l.map toC).map up := by rw [List.map_map]; rfl

/-- The tree holds these watches. -/
def Holds (t : Tree) (ws : List Spec.Watch.Watch) : Prop :=
  Good t ∧ t.key = [] ∧ ∀ q, ats t q = (ws.filter fun w => decide (w.point = q)).map info

theorem new_holds : Holds Watch.new [] := by
  refine ⟨Good.of ⟨by simp [Watch.new, Tree.children], by simp [Watch.new, Tree.children, Uniq], by simp [Watch.new, Tree.children],
    by simp [Watch.new, Tree.children]⟩, rfl, ?_⟩
  intro q; cases q <;> rfl

theorem filter_erase (ws : List Spec.Watch.Watch) (k q : Place) (c : Nat) (r : Bool) :
    ((ws.eraseP fun w => decide (w.point = k ∧ w.cookie = c ∧ w.recurse = r)).filter fun w => decide (w.point = q)).map info =
      if q = k then ((ws.filter fun w => decide (w.point = q)).map info).eraseP (fun w => w.cookie == c && w.recurse == r)
      else (ws.filter fun w => decide (w.point = q)).map info := by
  induction ws with
  | nil => simp
  | cons w ws ih =>
    rw [List.eraseP_cons]
    by_cases hw : w.point = k ∧ w.cookie = c ∧ w.recurse = r
    · rw [decide_eq_true hw]
      simp only [cond_true]
      by_cases hq : q = k
      · subst hq
        rw [if_pos rfl, List.filter_cons_of_pos (by simpa using hw.1), List.map_cons, List.eraseP_cons_of_pos]
        simp [info, hw.2.1, hw.2.2]
      · rw [if_neg hq, List.filter_cons_of_neg]
        simp only [decide_eq_true_eq]
        rw [hw.1]; exact fun h => hq h.symm
    · rw [decide_eq_false hw]
      simp only [cond_false]
      by_cases hp : w.point = q
      · rw [List.filter_cons_of_pos (by simpa using hp), List.filter_cons_of_pos (by simpa using hp), List.map_cons, List.map_cons, ih]
        by_cases hq : q = k
        · rw [if_pos hq, if_pos hq, List.eraseP_cons_of_neg]
          simp only [info, Bool.and_eq_true, beq_iff_eq]
          exact fun h => hw ⟨hp.trans hq, h⟩
        · rw [if_neg hq, if_neg hq]
      · rw [List.filter_cons_of_neg (by simpa using hp), List.filter_cons_of_neg (by simpa using hp), ih]

theorem segments_parse (k : Text) : TempGen.segments (Key.parse k) = segs (Spec.Path.names k) (Spec.Path.dir k) := by
  rw [Key.parse_eq, TempGen.segments_mk _ _ (Key.names_ok k)]; rfl

theorem exec_holds (t : Tree) (ws : List Spec.Watch.Watch) (h : Holds t ws) (s : Step) : Holds (exec t s) (Spec.Watch.step ws s.op) := by
  obtain ⟨op, ord, hord⟩ := s
  obtain ⟨h1, h2, h3⟩ := h
  cases op with
  | add k r c f =>
    obtain ⟨a1, a2, _, a4⟩ := add_spec ord hord ⟨c, r, f⟩ (Spec.Path.dir k) (Spec.Path.names k) t (Key.names_ok k) h1
    show Holds (addLoop ord ⟨c, r, f⟩ t (TempGen.segments (Key.parse k))) _
    rw [segments_parse]
    refine ⟨a1, a2.trans h2, fun q => ?_⟩
    rw [a4, h3, Spec.Watch.step, List.filter_append, List.map_append, TempGen.place_eq]
    congr 1
    by_cases hq : q = fold (Spec.Path.names k)
    · simp [hq, info]
    · have : ¬ (fold (Spec.Path.names k) = q) := fun h => hq h.symm
      simp [hq, this]
  | del k r c =>
    obtain ⟨a1, a2⟩ := del_spec ord hord c r (Spec.Path.dir k) (Spec.Path.names k) t (Key.names_ok k) h1
    show Holds ((delLoop ord c r t (TempGen.segments (Key.parse k))).getD t) _
    rw [segments_parse]
    cases hd : delLoop ord c r t (segs (Spec.Path.names k) (Spec.Path.dir k)) with
    | none =>
      refine ⟨h1, h2, fun q => ?_⟩
      rw [Spec.Watch.step, filter_erase, TempGen.place_eq]
      show ats t q = _
      by_cases hq : q = fold (Spec.Path.names k)
      · rw [if_pos hq, ← h3, hq, a1 hd]; rfl
      · rw [if_neg hq, h3]
    | some t' =>
      obtain ⟨b1, b2, b3⟩ := a2 t' hd
      refine ⟨b1, b2.trans h2, fun q => ?_⟩
      rw [Spec.Watch.step, filter_erase, TempGen.place_eq, ← h3]
      exact b3 q

theorem after_holds (l : List Step) : ∀ (t : Tree) (ws : List Spec.Watch.Watch), Holds t ws →
    Holds (after t l) (Spec.Watch.after ws (l.map Step.op)) := by
  induction l with
  | nil => intro t ws h; exact h
  | cons s l ih => intro t ws h; exact ih _ _ (exec_holds t ws h s)

theorem holds (l : List Step) : Holds (after Watch.new l) (watches l) := after_holds l _ _ new_holds

theorem count_up (l : List (Place × Info × Place)) (w : Spec.Watch.Watch) (r : Place) :
    (l.map up).count (w, r) = l.count (w.point, info w, r) := by
  induction l with
  | nil => rfl
  | cons x l ih =>
    obtain ⟨p, ⟨a, b, c⟩, r'⟩ := x
    obtain ⟨p', b', a', c'⟩ := w
    rw [List.map_cons, List.count_cons, List.count_cons, ih]
    congr 1
    have : (up (p, ⟨a, b, c⟩, r') == (⟨p', b', a', c'⟩, r)) = ((p, (⟨a, b, c⟩ : Info), r') == (p', info ⟨p', b', a', c'⟩, r)) := by
      rw [Bool.eq_iff_iff]
      simp only [beq_iff_eq, up, full, info, Prod.mk.injEq, Spec.Watch.Watch.mk.injEq, Info.mk.injEq]
      constructor
      · rintro ⟨⟨rfl, rfl, rfl, rfl⟩, rfl⟩; simp
      · rintro ⟨rfl, ⟨rfl, rfl, rfl⟩, rfl⟩; simp
    rw [this]

theorem count_info (ws : List Spec.Watch.Watch) (w : Spec.Watch.Watch) :
    ((ws.filter fun x => decide (x.point = w.point)).map info).count (info w) = ws.count w := by
  induction ws with
  | nil => rfl
  | cons x ws ih =>
    by_cases hx : x.point = w.point
    · rw [List.filter_cons_of_pos (by simpa using hx), List.map_cons, List.count_cons, List.count_cons, ih]
      congr 1
      have : (info x == info w) = (x == w) := by
        obtain ⟨p, b, a, c⟩ := x
        obtain ⟨p', b', a', c'⟩ := w
        rw [Bool.eq_iff_iff]
        simp only at hx
        subst hx
        simp only [beq_iff_eq, info, Spec.Watch.Watch.mk.injEq, Info.mk.injEq, true_and]
        constructor
        · rintro ⟨rfl, rfl, rfl⟩; simp
        · rintro ⟨rfl, rfl, rfl⟩; simp
      rw [this]
    · rw [List.filter_cons_of_neg (by simpa using hx), ih, List.count_cons_of_ne]
      exact fun h => hx (by rw [h])

theorem count_lower (ws : List Spec.Watch.Watch) (q : Place) (w : Spec.Watch.Watch) (r : Place) :
    (lower ws q).count (w, r) = if r = [] ∧ q <+: w.point ∧ q ≠ w.point then ws.count w else 0 := by
  unfold lower
  induction ws with
  | nil => simp
  | cons x ws ih =>
    by_cases hx : q <+: x.point ∧ x.point ≠ q
    · rw [List.filter_cons_of_pos (by simpa using hx), List.map_cons, List.count_cons, ih]
      by_cases hw : x = w
      · subst hw
        by_cases hr : r = []
        · have hc : r = [] ∧ q <+: x.point ∧ q ≠ x.point := ⟨hr, hx.1, fun h => hx.2 h.symm⟩
          rw [if_pos hc, if_pos hc, hr]
          simp
        · have hc : ¬ (r = [] ∧ q <+: x.point ∧ q ≠ x.point) := fun h => hr h.1
          rw [if_neg hc, if_neg hc]
          have : ¬ ([] = r) := fun h => hr h.symm
          simp [this]
      · rw [List.count_cons_of_ne hw]
        have : ¬ ((x, ([] : Place)) = (w, r)) := fun h => hw (Prod.mk.inj h).1
        simp [this]
    · rw [List.filter_cons_of_neg (by simpa using hx), ih]
      by_cases hw : x = w
      · subst hw
        have hc : ¬ (r = [] ∧ q <+: x.point ∧ q ≠ x.point) := fun h => hx ⟨h.2.1, fun h' => h.2.2 h'.symm⟩
        rw [if_neg hc, if_neg hc]
      · rw [List.count_cons_of_ne hw]

theorem findP_ats (t : Tree) (q r : Place) : ats t (q ++ r) = ((findP t q).map fun x => ats x r).getD [] := by
  induction q generalizing t with
  | nil => rfl
  | cons m q ih =>
    rw [List.cons_append, ats_cons, findP]
    cases lk t.children m with
    | none => rfl
    | some x => simp [ih]

theorem good_findP (t : Tree) (h : Good t) (q : Place) (x : Tree) (hx : findP t q = some x) : Good x := by
  induction q generalizing t with
  | nil => cases hx; exact h
  | cons m q ih =>
    rw [findP] at hx
    cases hl : lk t.children m with
    | none => rw [hl] at hx; cases hx
    | some y =>
      rw [hl] at hx
      obtain ⟨_, hu, _, hc⟩ := h.parts
      exact ih y (hc y ((lk_some _ hu _ _).mp hl).1) hx

/-- The calls for the watches on the way to a place. -/
theorem upper_eq (t : Tree) (ws : List Spec.Watch.Watch) (h : Holds t ws) (ns : List Seg) (hn : Names ns) :
    (Watch.check t (Key.mk ns false) ns.length ++ (walk (Key.mk ns false) t (segs ns false)).1).map call = upper ws (fold ns) := by
  rw [call_eq, List.map_append, (walk_spec ns hn ns [] t rfl).1, check_mk t ns hn ns.length (Nat.le_refl _)]
  have hl : (fold ns).length = ns.length := by simp [fold]
  have ht : ∀ i, (fold ns).take i = fold (ns.take i) := by intro i; simp [fold]
  have hd : ∀ i, (fold ns).drop i = fold (ns.drop i) := by intro i; simp [fold]
  have one : ∀ i, i ≤ ns.length → 
      (((ats t (fold (ns.take i))).filter fun w => w.recurse || i == ns.length).map fun w =>
        (fold (ns.take i), w, fold (ns.drop i))).map up =
      (ws.filter fun w => decide (w.point = (fold ns).take i ∧ Watches w (fold ns))).map fun w => (w, (fold ns).drop ((fold ns).take i).length) := by
    intro i hi
    rw [h.2.2, ht, hd]
    have hli : (fold (ns.take i)).length = i := by simp [fold]; omega
    rw [hli]
    clear h
    induction ws with
    | nil => rfl
    | cons w ws ih =>
      by_cases hp : w.point = fold (ns.take i)
      · rw [List.filter_cons_of_pos (by simpa using hp), List.map_cons]
        have hpre : w.point <+: fold ns := by rw [hp, ← ht]; exact List.take_prefix _ _
        have hiff : (w.recurse || i == ns.length) = true ↔ Watches w (fold ns) := by
          unfold Spec.Watch.Watches
          rw [Bool.or_eq_true, beq_iff_eq]
          constructor
          · rintro (h | h)
            · exact Or.inr ⟨h, hpre⟩
            · left; rw [hp, h, List.take_length]
          · rintro (h | h)
            · right
              have := congrArg List.length (hp.symm.trans h)
              rw [hli, hl] at this; exact this
            · exact Or.inl h.1
        by_cases hw : Watches w (fold ns)
        · rw [List.filter_cons_of_pos (a := info w) (hiff.mpr hw), List.map_cons, List.map_cons, ih,
            List.filter_cons_of_pos (by simp [hp, hw]), List.map_cons]
          congr 1
          show (full (fold (ns.take i)) (info w), _) = _
          rw [← hp]
          rfl
        · rw [List.filter_cons_of_neg (a := info w) (fun h => hw (hiff.mp h)), ih, List.filter_cons_of_neg (by simp [hw])]
      · rw [List.filter_cons_of_neg (by simpa using hp), ih, List.filter_cons_of_neg (by simp [hp])]
  unfold upper above
  rw [List.map_append, List.flatMap_map, hl, List.range_succ_eq_map, List.flatMap_cons]
  congr 1
  · have := one 0 (Nat.zero_le _)
    rw [← this]
    have e : (fun w : Info => w.recurse || ns.length == 0) = fun w => w.recurse || 0 == ns.length := by
      funext w; congr 1; rw [Bool.eq_iff_iff]; simp only [beq_iff_eq]; exact eq_comm
    rw [e, Nat.sub_self]
    rfl
  · rw [List.flatMap_map, List.map_flatMap]
    have : ∀ l : List Nat, (∀ i ∈ l, i < ns.length) → 
        (l.flatMap fun i => (((ats t (fold (ns.take (i + 1)))).filter fun w => w.recurse || i + 1 == ns.length).map fun w =>
          (fold ([] ++ ns.take (i + 1)), w, fold (ns.drop (i + 1)))).map up) =
        l.flatMap fun i => (ws.filter fun w => decide (w.point = (fold ns).take i.succ ∧ Watches w (fold ns))).map fun w =>
          (w, (fold ns).drop ((fold ns).take i.succ).length) := by
      intro l
      induction l with
      | nil => intro _; rfl
      | cons i l ih =>
        intro hi
        rw [List.flatMap_cons, List.flatMap_cons, ih fun j hj => hi j (by simp [hj])]
        congr 1
        exact one (i + 1) (hi i (by simp))
    exact this _ fun i hi => List.mem_range.mp hi

/-- The calls for the watches below a place. -/
theorem lower_perm (t : Tree) (ws : List Spec.Watch.Watch) (h : Holds t ws) (ns : List Seg) (hn : Names ns) (d : Bool) :
    ((match findP t (fold ns) with
      | none => []
      | some x => deletionAll (Key.mk ns d) x.children).map call).Perm (lower ws (fold ns)) := by
  rw [List.perm_iff_count]
  rintro ⟨w, r⟩
  rw [count_lower, call_eq, count_up]
  cases hx : findP t (fold ns) with
  | none =>
    show 0 = _
    split
    · rename_i hc
      obtain ⟨_, ⟨q, hq⟩, _⟩ := hc
      have h1 := h.2.2 w.point
      rw [← count_info, ← h1, ← hq, findP_ats, hx]; rfl
    · rfl
  | some x =>
    dsimp only
    rw [deletionAll_spec ns hn d x.children (good_findP t h.1 _ x hx).parts]
    by_cases hc : r = [] ∧ fold ns <+: w.point ∧ fold ns ≠ w.point
    · rw [if_pos hc, if_pos hc]
      obtain ⟨_, ⟨q, hq⟩, hne⟩ := hc
      have hl : (fold ns).length = ns.length := by simp [fold]
      have h1 := h.2.2 w.point
      rw [← count_info, ← h1, ← hq, findP_ats, hx, List.drop_left' hl]
      cases q with
      | nil => rw [List.append_nil] at hq; exact absurd hq hne
      | cons m q =>
        simp only [Option.map_some, Option.getD_some]
        rw [ats_cons]
    · rw [if_neg hc, if_neg hc]

theorem callback_split (t : Tree) (ns : List Seg) (hn : Names ns) (v : Option TempGen.Value) :
    genCallback t (Key.mk ns false) v =
      (Watch.check t (Key.mk ns false) ns.length ++ (walk (Key.mk ns false) t (segs ns false)).1) ++
      (if v = none then (match findP t (fold ns) with
        | none => []
        | some x => deletionAll (Key.mk ns false) x.children) else []) := by
  have hs : TempGen.segments (Key.mk ns false) = segs ns false := TempGen.segments_mk ns false hn
  have hl : (segs ns false).length = ns.length := by simp [segs, TempGen.ones]
  unfold genCallback
  rw [hs, hl]
  dsimp only
  rw [(walk_spec ns hn ns [] t rfl).2]
  cases findP t (fold ns) with
  | none => cases v <;> simp
  | some x => cases v <;> simp

/-- For a key given by its names. -/
theorem calls_names (t : Tree) (ws : List Spec.Watch.Watch) (h : Holds t ws) (ns : List Seg) (hn : Names ns) (v : Option TempGen.Value) :
    ∃ a b, genCallback t (Key.mk ns false) v = a ++ b ∧ a.map call = upper ws (fold ns) ∧
      (b.map call).Perm (if v = none then lower ws (fold ns) else []) := by
  refine ⟨_, _, callback_split t ns hn v, upper_eq t ws h ns hn, ?_⟩
  split
  · exact lower_perm t ws h ns hn false
  · exact .refl _

end Watching
open Watching

/-- When a change of a key is notified, what is called is exactly: first the watches at the key and above it that are for it, from the
    root down, at each place in the order in which they were added, each with the place of the watch and that of the key below it;
    then, if the key was removed, all watches below it, in some order, each as for the removal of its own place. This is so after
    any history of adding and removing watches. -/
theorem C53_calls_partial (l : List Step) (k : Text) (hk : Spec.Path.dir k = false) (v : Option Text) :
    ∃ first second, genCallback (after Watch.new l) (Key.parse k) v = first ++ second ∧
      first.map call = upper (watches l) (place k) ∧
      (second.map call).Perm (if v = none then lower (watches l) (place k) else []) := by
  rw [Key.parse_eq, hk, TempGen.place_eq]
  exact calls_names _ _ (holds l) _ (Key.names_ok k) v

/-- For each watch: how often it is called, and with what. -/
theorem C53_watch_partial (l : List Step) (k : Text) (hk : Spec.Path.dir k = false) (v : Option Text) (w : Spec.Watch.Watch) (r : Place) :
    ((genCallback (after Watch.new l) (Key.parse k) v).map call).count (w, r) =
      if Watches w (place k) ∧ w.point ++ r = place k ∨ v = none ∧ r = [] ∧ place k <+: w.point ∧ w.point ≠ place k
      then (watches l).count w else 0 := by
  obtain ⟨a, b, h1, h2, h3⟩ := C53_calls_partial l k hk v
  rw [h1, List.map_append, List.count_append, h2, h3.count_eq]
  generalize watches l = ws
  generalize place k = q
  -- those on the way
  have hu : (upper ws q).count (w, r) = if Watches w q ∧ w.point ++ r = q then ws.count w else 0 := by
    have hone : ∀ p : Place, ((ws.filter fun w => decide (w.point = p ∧ Watches w q)).map fun w => (w, q.drop p.length)).count (w, r) =
        if w.point = p ∧ Watches w q ∧ q.drop p.length = r then ws.count w else 0 := by
      intro p
      induction ws with
      | nil => simp
      | cons x ws ih =>
        by_cases hx : x.point = p ∧ Watches x q
        · rw [List.filter_cons_of_pos (by simpa using hx), List.map_cons, List.count_cons, ih]
          by_cases hw : x = w
          · subst hw
            by_cases hr : q.drop p.length = r
            · have hc : x.point = p ∧ Watches x q ∧ q.drop p.length = r := ⟨hx.1, hx.2, hr⟩
              rw [if_pos hc, if_pos hc, hr]; simp
            · have hc : ¬ (x.point = p ∧ Watches x q ∧ q.drop p.length = r) := fun h => hr h.2.2
              rw [if_neg hc, if_neg hc]; simp [hr]
          · rw [List.count_cons_of_ne hw]
            have : ¬ ((x, q.drop p.length) = (w, r)) := fun h => hw (Prod.mk.inj h).1
            simp [this]
        · rw [List.filter_cons_of_neg (by simpa using hx), ih]
          by_cases hw : x = w
          · subst hw
            have hc : ¬ (x.point = p ∧ Watches x q ∧ q.drop p.length = r) := fun h => hx ⟨h.1, h.2.1⟩
            rw [if_neg hc, if_neg hc]
          · rw [List.count_cons_of_ne hw]
    unfold upper
    rw [List.count_flatMap]
    have e : (List.count (w, r) ∘ fun p => (ws.filter fun w => decide (w.point = p ∧ Watches w q)).map fun w => (w, q.drop p.length)) =
        fun p => if w.point = p ∧ Watches w q ∧ q.drop p.length = r then ws.count w else 0 := funext hone
    rw [e]
    -- the places on the way are different
    have hnd : (above q).Nodup := by
      unfold above
      rw [List.nodup_iff_pairwise_ne, List.pairwise_map]
      refine (List.nodup_iff_pairwise_ne.mp List.nodup_range).imp_of_mem ?_
      intro i j hi hj hij he
      have := congrArg List.length he
      rw [List.mem_range] at hi hj
      simp at this; omega
    have hmem : ∀ p, p ∈ above q ↔ p <+: q := by
      intro p
      unfold above
      rw [List.mem_map]
      constructor
      · rintro ⟨i, _, rfl⟩; exact List.take_prefix _ _
      · intro h
        exact ⟨p.length, List.mem_range.mpr (by have := h.length_le; omega), (List.prefix_iff_eq_take.mp h).symm⟩
    have hsum : ∀ l : List Place, l.Nodup → (l.map fun p => if w.point = p ∧ Watches w q ∧ q.drop p.length = r then ws.count w else 0).sum =
        if w.point ∈ l ∧ Watches w q ∧ q.drop w.point.length = r then ws.count w else 0 := by
      intro l
      induction l with
      | nil => intro _; simp
      | cons p l ih =>
        intro hn
        rw [List.nodup_cons] at hn
        rw [List.map_cons, List.sum_cons, ih hn.2]
        by_cases hp : w.point = p
        · subst hp
          rw [if_neg (c := w.point ∈ l ∧ Watches w q ∧ q.drop w.point.length = r) (fun h => hn.1 h.1)]
          simp
        · rw [if_neg (fun h => hp h.1)]
          simp [hp]
    rw [hsum _ hnd]
    congr 1
    rw [eq_iff_iff, hmem]
    constructor
    · rintro ⟨⟨s, hs⟩, h2, h3⟩
      refine ⟨h2, ?_⟩
      rw [← hs, List.drop_left] at h3
      rw [← h3]; exact hs
    · rintro ⟨h2, h3⟩
      refine ⟨⟨r, h3⟩, h2, ?_⟩
      rw [← h3, List.drop_left]
  have hlo : (if v = none then lower ws q else []).count (w, r) =
      if v = none ∧ r = [] ∧ q <+: w.point ∧ w.point ≠ q then ws.count w else 0 := by
    cases v with
    | none =>
      simp only [if_true, true_and]
      rw [count_lower]
      congr 1
      rw [eq_iff_iff]
      exact ⟨fun h => ⟨h.1, h.2.1, fun h' => h.2.2 h'.symm⟩, fun h => ⟨h.1, h.2.1, fun h' => h.2.2 h'.symm⟩⟩
    | some v => simp
  rw [hu, hlo]
  by_cases h1 : Watches w q ∧ w.point ++ r = q
  · have h2 : ¬ (v = none ∧ r = [] ∧ q <+: w.point ∧ w.point ≠ q) := by
      rintro ⟨_, rfl, _, hne⟩
      exact hne (by simpa using h1.2)
    rw [if_pos h1, if_neg h2, if_pos (Or.inl h1), Nat.add_zero]
  · by_cases h2 : v = none ∧ r = [] ∧ q <+: w.point ∧ w.point ≠ q
    · rw [if_neg h1, if_pos h2, if_pos (Or.inr h2), Nat.zero_add]
    · rw [if_neg h1, if_neg h2, if_neg (fun h => h.elim h1 h2)]

/-! ### Through to the configuration -/

namespace Watching

/-- What exists has names for its parts. -/
theorem conf_names (l : List Temp.SetCall) (q : Place) (h : Temp.conf l q ≠ none) : ∀ n ∈ q, n ≠ [] ∧ Spec.Path.slash ∉ n := by
  have key : ∀ (ks : List (Text × Option Text)) (m : Spec.Conf.State), (∀ q, m q ≠ none → ∀ n ∈ q, n ≠ [] ∧ Spec.Path.slash ∉ n) →
      ∀ q, Spec.Conf.run m ks q ≠ none → ∀ n ∈ q, n ≠ [] ∧ Spec.Path.slash ∉ n := by
    intro ks
    induction ks with
    | nil => intro m hm q hq; exact hm q hq
    | cons k ks ih =>
      obtain ⟨k, v⟩ := k
      intro m hm
      refine ih _ ?_
      have hpl : ∀ n ∈ place k, n ≠ [] ∧ Spec.Path.slash ∉ n := by
        intro n hn
        rw [TempGen.place_eq] at hn
        obtain ⟨x, hx, rfl⟩ := List.mem_map.mp hn
        obtain ⟨h1, h2⟩ := Key.names_ok k x hx
        refine ⟨by simpa using h1, ?_⟩
        intro hs
        obtain ⟨c, hc, he⟩ := List.mem_map.mp hs
        have : c = Spec.Path.slash := by clear hc; revert he; revert c; apply forall_byte; decide +kernel
        exact h2 (this ▸ hc)
      intro q hq
      cases v with
      | none =>
        unfold Spec.Conf.set at hq
        dsimp only at hq
        split at hq
        · exact absurd rfl hq
        · exact hm q hq
      | some v =>
        unfold Spec.Conf.set at hq
        dsimp only at hq
        split at hq
        · exact hm q hq
        · dsimp only at hq
          split at hq
          · rename_i h1; rw [h1]; exact hpl
          · split at hq
            · rename_i h1; exact fun n hn => hpl n (h1.subset hn)
            · exact hm q hq
  exact key _ _ (fun q h => absurd rfl h) q h

/-- A key whose lower-case names are names has names. -/
theorem names_of_fold (k : Key) (h : ∀ n ∈ fold k, n ≠ [] ∧ Spec.Path.slash ∉ n) : Names k := by
  intro n hn
  obtain ⟨h1, h2⟩ := h (n.map tolower) (List.mem_map_of_mem hn)
  refine ⟨by simpa using h1, fun hs => h2 ?_⟩
  have := List.mem_map_of_mem (f := tolower) hs
  exact this

end Watching

/-- What is called when the generator mounted at the root notifies its changes. -/
def Watching.calls (t : Tree) (d : List TempGen.Delta) : List Watch.Call :=
  d.flatMap fun x => genCallback t (MountGen.callbackKey (Key.parse [ch '/']) x.1) x.2

/-- With an in-memory configuration mounted at the root, after any history of calls of `set` and any history of watches, a further
    call of `set` has these calls for a watch: for each place it is for whose value is not the same after as before, one with that
    place; and for each place above its own that is removed, one as for the removal of its own place. -/
theorem C53_set (w : List Step) (l : List Temp.SetCall) (c : Temp.SetCall) (x : Spec.Watch.Call) :
    x ∈ (calls (after Watch.new w) (Temp.call (Temp.after TempGen.new l) c).2).map call ↔
      x.1 ∈ watches w ∧ ∃ q, Temp.conf l q ≠ Temp.conf (l ++ [c]) q ∧
        (Watches x.1 q ∧ x.1.point ++ x.2 = q ∨
          Temp.conf (l ++ [c]) q = none ∧ x.2 = [] ∧ q <+: x.1.point ∧ x.1.point ≠ q) := by
  obtain ⟨w', r⟩ := x
  have hex := (C23_exact l c).2
  -- the keys notified
  have hkey : ∀ k v, (k, v) ∈ (Temp.call (Temp.after TempGen.new l) c).2 → Names k := by
    intro k v hm
    obtain ⟨h1, h2⟩ := (hex (fold k) v).mp ⟨k, hm, rfl⟩
    apply names_of_fold
    by_cases hv : v = none
    · exact conf_names l _ (by rw [hv] at h2; exact h2)
    · exact conf_names (l ++ [c]) _ (by rw [h1]; exact hv)
  have hcb : ∀ k : Key, Names k → MountGen.callbackKey (Key.parse [ch '/']) k = Key.mk k false := by
    intro k hk
    have h0 : Key.parse [ch '/'] = Key.mk [] false := by decide +kernel
    unfold MountGen.callbackKey
    have := Key.join_mk [] k false false (by intro n hn; cases hn) hk (by simp)
    have e : Key.mk k false = k := by simp [Key.mk]
    rw [e] at this ⊢
    rw [h0, this]
    cases k with
    | nil => rfl
    | cons a k => simp [Key.mk]
  have hcount : ∀ k v, Names k → ((genCallback (after Watch.new w) (Key.mk k false) v).map call).count (w', r) =
      if Watches w' (fold k) ∧ w'.point ++ r = fold k ∨ v = none ∧ r = [] ∧ fold k <+: w'.point ∧ w'.point ≠ fold k
      then (watches w).count w' else 0 := by
    intro k v hk
    have hd : Spec.Path.dir (Spec.Path.write k false) = false := Key.dir_write k false hk (by simp)
    have := C53_watch_partial w (Spec.Path.write k false) hd v w' r
    rw [Key.parse_write k false hk (by simp), TempGen.place_eq, Key.names_write k false hk] at this
    exact this
  have hmem : ∀ k v, Names k → ((w', r) ∈ (genCallback (after Watch.new w) (Key.mk k false) v).map call ↔
      w' ∈ watches w ∧ (Watches w' (fold k) ∧ w'.point ++ r = fold k ∨ v = none ∧ r = [] ∧ fold k <+: w'.point ∧ w'.point ≠ fold k)) := by
    intro k v hk
    rw [← List.count_pos_iff, hcount k v hk]
    split
    · rename_i hc
      rw [List.count_pos_iff]
      exact ⟨fun h => ⟨h, hc⟩, fun h => h.1⟩
    · rename_i hc
      exact ⟨fun h => absurd h (Nat.lt_irrefl 0), fun h => absurd h.2 hc⟩
  unfold Watching.calls
  rw [List.map_flatMap, List.mem_flatMap]
  constructor
  · rintro ⟨⟨k, v⟩, hm, hc⟩
    have hk := hkey k v hm
    obtain ⟨h1, h2⟩ := (hex (fold k) v).mp ⟨k, hm, rfl⟩
    rw [hcb k hk, hmem k v hk] at hc
    refine ⟨hc.1, fold k, by rw [h1]; exact h2, ?_⟩
    rw [h1]
    exact hc.2
  · rintro ⟨hw, q, hne, hc⟩
    obtain ⟨k, hm, rfl⟩ := (hex q (Temp.conf (l ++ [c]) q)).mpr ⟨rfl, hne⟩
    have hk := hkey k _ hm
    refine ⟨_, hm, ?_⟩
    dsimp only
    rw [hcb k hk, hmem k _ hk]
    exact ⟨hw, hc⟩

/-- Watches used below: a recursive one at "a", another at "A/b" and one at the root that are not, and one that is removed again. -/
def Watching.sampleWatches : List Step :=
  [⟨.add (str ['a']) true 1 1, id, fun _ => .refl _⟩, ⟨.add (str ['A', '/', 'b']) false 2 2, List.reverse, List.reverse_perm⟩,
   ⟨.add [] false 3 3, id, fun _ => .refl _⟩, ⟨.add (str ['c', '/']) true 4 4, List.reverse, List.reverse_perm⟩,
   ⟨.del (str ['C']) true 4, id, fun _ => .refl _⟩]

example : watches sampleWatches = [⟨[str ['a']], true, 1, 1⟩, ⟨[str ['a'], str ['b']], false, 2, 2⟩, ⟨[], false, 3, 3⟩] ∧
    (genCallback (after Watch.new sampleWatches) (Key.parse (str ['a', '/', 'B'])) (some [])).map call =
      [(⟨[str ['a']], true, 1, 1⟩, [str ['b']]), (⟨[str ['a'], str ['b']], false, 2, 2⟩, [])] ∧
    (genCallback (after Watch.new sampleWatches) (Key.parse (str ['a'])) none).map call =
      [(⟨[str ['a']], true, 1, 1⟩, []), (⟨[str ['a'], str ['b']], false, 2, 2⟩, [])] ∧
    (genCallback (after Watch.new sampleWatches) (Key.parse (str ['a'])) (some [])).map call = [(⟨[str ['a']], true, 1, 1⟩, [])] := by
  decide +kernel

/-! ### Ending -/

namespace Watching

mutual
theorem watchoutOne_iff : (t : Tree) → Good t → (watchoutOne t = true ↔ ∃ q, ats t q ≠ [])
  | .node k w c, h => by
    rw [watchoutOne, Bool.or_eq_true, watchout_iff c h.parts]
    constructor
    · rintro (⟨m, q, hq⟩ | hw)
      · exact ⟨m :: q, by rw [ats_cons]; exact hq⟩
      · exact ⟨[], by rw [ats_nil, watches_node]; intro h0; rw [h0] at hw; cases hw⟩
    · rintro ⟨q, hq⟩
      cases q with
      | nil =>
        right
        rw [ats_nil, watches_node] at hq
        cases w with
        | nil => exact absurd rfl hq
        | cons _ _ => rfl
      | cons m q => left; exact ⟨m, q, by rw [ats_cons] at hq; exact hq⟩
theorem watchout_iff : (c : List Tree) → Parts c → (watchout c = true ↔ ∃ m q, ((lk c m).map fun x => ats x q).getD [] ≠ [])
  | [], _ => by simp [watchout, lk]
  | t :: c, h => by
    obtain ⟨hk, hu, he, hg⟩ := h
    have hu' := List.nodup_cons.mp (show (low t :: c.map low).Nodup from hu)
    obtain ⟨n, hn1, _⟩ := hk t (by simp)
    have hlow : low t = [n.map tolower] := by unfold low; rw [hn1]; rfl
    have hlk : ∀ m, lk (t :: c) m = if m = n.map tolower then some t else lk c m := by
      intro m
      unfold lk
      rw [List.find?_cons, hlow]
      by_cases hm : m = n.map tolower
      · simp [hm]
      · have : ¬ (n.map tolower = m) := fun h => hm h.symm
        simp [hm, this]
    have hnone : lk c (n.map tolower) = none := by
      rw [lk_none]
      intro x hx hxl
      exact hu'.1 (List.mem_map.mpr ⟨x, hx, by rw [hxl, hlow]⟩)
    rw [watchout, Bool.or_eq_true, watchoutOne_iff t (hg t (by simp)),
      watchout_iff c ⟨fun x hx => hk x (by simp [hx]), hu'.2, fun x hx => he x (by simp [hx]), fun x hx => hg x (by simp [hx])⟩]
    constructor
    · rintro (⟨q, hq⟩ | ⟨m, q, hq⟩)
      · exact ⟨n.map tolower, q, by rw [hlk, if_pos rfl]; exact hq⟩
      · refine ⟨m, q, ?_⟩
        rw [hlk]
        split
        · rename_i h; rw [h, hnone] at hq; exact absurd rfl hq
        · exact hq
    · rintro ⟨m, q, hq⟩
      rw [hlk] at hq
      split at hq
      · exact Or.inl ⟨q, hq⟩
      · exact Or.inr ⟨m, q, hq⟩
end

mutual
theorem needed : (t : Tree) → Good t → isessential t = true → ∃ q, ats t q ≠ []
  | .node k w c, h, he => by
    cases w with
    | cons i w => exact ⟨[], by simp [ats_nil, watches_node]⟩
    | nil =>
      cases c with
      | nil => cases he
      | cons t c =>
        obtain ⟨m, q, hq⟩ := neededAll (t :: c) h.parts (by simp)
        exact ⟨m :: q, by rw [ats_cons]; exact hq⟩
theorem neededAll : (c : List Tree) → Parts c → c ≠ [] → ∃ m q, ((lk c m).map fun x => ats x q).getD [] ≠ []
  | [], _, h => absurd rfl h
  | t :: c, h, _ => by
    obtain ⟨hk, hu, he, hg⟩ := h
    obtain ⟨n, hn1, _⟩ := hk t (by simp)
    have hlow : low t = [n.map tolower] := by unfold low; rw [hn1]; rfl
    obtain ⟨q, hq⟩ := needed t (hg t (by simp)) (he t (by simp))
    refine ⟨n.map tolower, q, ?_⟩
    rw [(lk_some (t :: c) hu _ t).mpr ⟨by simp, hlow⟩]
    exact hq
end

theorem ats_iff (t : Tree) (ws : List Spec.Watch.Watch) (h : Holds t ws) (q : Place) : ats t q ≠ [] ↔ ∃ w ∈ ws, w.point = q := by
  rw [h.2.2]
  constructor
  · intro hne
    obtain ⟨i, hi⟩ := List.exists_mem_of_ne_nil _ hne
    obtain ⟨w, hw, _⟩ := List.mem_map.mp hi
    rw [List.mem_filter] at hw
    exact ⟨w, hw.1, by simpa using hw.2⟩
  · rintro ⟨w, hw, hp⟩ h0
    have : info w ∈ (ws.filter fun w => decide (w.point = q)).map info :=
      List.mem_map.mpr ⟨w, List.mem_filter.mpr ⟨hw, by simpa using hp⟩, rfl⟩
    rw [h0] at this; cases this

end Watching

/-- The destructor's assertion fails exactly if a watch is left somewhere else than at the root. (One left at the root is not noticed.) -/
theorem C53_destructor (l : List Step) :
    watchout (after Watch.new l).children = true ↔ ∃ w ∈ watches l, w.point ≠ [] := by
  have h := holds l
  rw [watchout_iff _ h.1.parts]
  constructor
  · rintro ⟨m, q, hq⟩
    rw [← ats_cons, ats_iff _ _ h] at hq
    obtain ⟨w, hw, hp⟩ := hq
    exact ⟨w, hw, by rw [hp]; simp⟩
  · rintro ⟨w, hw, hp⟩
    cases hq : w.point with
    | nil => exact absurd hq hp
    | cons m q => exact ⟨m, q, by rw [← ats_cons, ats_iff _ _ h]; exact ⟨w, hw, hq⟩⟩

/-- When all watches are removed, nothing is left of them. -/
theorem C53_forgotten (l : List Step) (h : watches l = []) : after Watch.new l = Watch.new := by
  have hh := holds l
  rw [h] at hh
  obtain ⟨h1, h2, h3⟩ := hh
  cases ht : after Watch.new l with
  | node k w c =>
    rw [ht] at h1 h2 h3
    have hk : k = [] := h2
    have hw : w = [] := h3 []
    have hc : c = [] := by
      refine Decidable.byContradiction fun hne => ?_
      have hne : c ≠ [] := fun h => by rw [h] at hne; exact hne rfl
      obtain ⟨m, q, hq⟩ := neededAll c h1.parts hne
      have := h3 (m :: q)
      rw [ats_cons, children_node] at this
      exact hq this
    rw [hk, hw, hc]; rfl

example : watches (sampleWatches ++ [⟨.del (str ['a']) true 1, id, fun _ => .refl _⟩, ⟨.del (str ['a', '/', 'b']) false 2, id, fun _ => .refl _⟩,
    ⟨.del [] false 3, id, fun _ => .refl _⟩]) = [] := by decide +kernel

/-! ### What does not hold -/

/-- A watch may be called twice for one notification: when the root of a generator that is mounted somewhere changes, this is
    notified with a slash after the mount point, and a recursive watch there is found as one above it and as one at it. -/
theorem C53_mounted_fails : ¬ ∀ (l : List Step) (m : Text) (v : Option Text) (w : Info),
    (watches l).length ≤ 1 → ((genCallback (after Watch.new l) (MountGen.callbackKey (Key.parse m) []) v).filter fun c => c.watch = w).length ≤ 1 := by
  intro h
  have := h [⟨.add (str ['m']) true 1 1, id, fun _ => .refl _⟩] (str ['m']) (some []) ⟨1, true, 1⟩ (by decide +kernel)
  revert this; decide +kernel

/-- A watch may be called although nothing changes where it is: when something above is removed. -/
theorem C53_changed_fails : ¬ ∀ (w : List Step) (l : List Temp.SetCall) (c : Temp.SetCall) (x : Spec.Watch.Call),
    x ∈ (calls (after Watch.new w) (Temp.call (Temp.after TempGen.new l) c).2).map call →
      Temp.conf l (x.1.point ++ x.2) ≠ Temp.conf (l ++ [c]) (x.1.point ++ x.2) := by
  intro h
  refine h [⟨.add (str ['a', '/', 'b']) false 1 1, id, fun _ => .refl _⟩] [⟨str ['a'], some [], id, fun _ => .refl _⟩]
    ⟨str ['a'], none, id, fun _ => .refl _⟩ (⟨[str ['a'], str ['b']], false, 1, 1⟩, []) (by decide +kernel) (by decide +kernel)

/-- When something is removed with what is below it, a watch on one place may be called several times. -/
theorem C53_once_fails : ¬ ∀ (w : List Step) (l : List Temp.SetCall) (c : Temp.SetCall) (x : Spec.Watch.Call),
    ((calls (after Watch.new w) (Temp.call (Temp.after TempGen.new l) c).2).map call).count x ≤ (watches w).count x.1 := by
  intro h
  have := h [⟨.add (str ['a', '/', 'b']) false 1 1, id, fun _ => .refl _⟩] [⟨str ['a', '/', 'b'], some [], id, fun _ => .refl _⟩]
    ⟨str ['a'], none, id, fun _ => .refl _⟩ (⟨[str ['a'], str ['b']], false, 1, 1⟩, [])
  revert this; decide +kernel

end Props
