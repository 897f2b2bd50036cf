import Verif.Model.Firewall
/-
C106: the firewall.
-/
namespace Props
open Wv Wv.Firewall Spec.Firewall
open Wv.Addr (Port)

namespace FwP

/-- What an object has in its lists. -/
def entries (f : Fw) : List Entry :=
  f.addrs.map .port ++ f.ffwds.map (fun x => .fwd x.1 x.2.1 x.2.2) ++ f.redirs.map (fun x => .redir x.1 x.2) ++ f.redirAlls.map .redirAll ++
  f.ranges.map (fun x => .range x.1 x.2.1 x.2.2) ++ f.protos.map .proto

/-- The rules of an object, and of all. -/
def rules (f : Fw) : List Line := (entries f).flatMap Entry.lines
def allRules (w : World) : List Line := w.fws.flatMap rules

theorem count_delete (r : Line) (l : List Line) : ∀ k : List Line, (delete k l).count r = k.count r - l.count r := by
  induction l with
  | nil => intro k; rfl
  | cons a l ih =>
    intro k
    show (delete (k.erase a) l).count r = _
    rw [ih, List.count_erase, List.count_cons]
    simp only [beq_iff_eq]
    split <;> omega

theorem del_count (e : Entry) (r : Line) (n : Nat) : ∀ w : World, w.enable = true →
    (delTimes w e n).kernel.count r = w.kernel.count r - n * e.lines.count r ∧ (delTimes w e n).enable = true ∧ (delTimes w e n).fws = w.fws := by
  induction n with
  | zero => intro w h; simp [delTimes, h]
  | succ n ih =>
    intro w h
    obtain ⟨h1, h2, h3⟩ := ih (sysDel w e.lines) (by simp [sysDel, h])
    refine ⟨?_, h2, ?_⟩
    · simp only [delTimes]
      rw [h1]
      simp only [sysDel, h, if_true]
      rw [count_delete, Nat.succ_mul]
      omega
    · simp only [delTimes]
      rw [h3]; simp [sysDel, h]

section
variable {α : Type} (entry : α → Entry) (put : Fw → List α → Fw)

/-- The count of a rule in what a list stands for. -/
def owed (l : List α) (r : Line) : Nat := (l.flatMap (fun x => (entry x).lines)).count r

theorem zap_loop (hput : ∀ f a b, put (put f a) b = put f b) (r : Line) (hf : ∀ f x m, 1 ≤ (put f (x :: m)).found (entry x)) (l : List α) : ∀ (w : World) (f : Fw),
    w.enable = true →
    let z := zapLoop entry put w f l
    z.2 = put f [] ∧ z.1.enable = true ∧ z.1.fws = w.fws ∧ z.1.kernel.count r ≤ w.kernel.count r - owed entry l r ∧
    ((∀ x m, x :: m <:+ l → (put f (x :: m)).found (entry x) = 1) → z.1.kernel.count r = w.kernel.count r - owed entry l r) := by
  induction l with
  | nil => intro w f h; simp [zapLoop, h, owed]
  | cons x l ih =>
    intro w f h
    simp only [zapLoop]
    obtain ⟨d1, d2, d3⟩ := del_count (entry x) r ((put f (x :: l)).found (entry x)) w h
    obtain ⟨i1, i2, i3, i4, i5⟩ := ih (del w (put f (x :: l)) (entry x)) (put f l) d2
    have ho : owed entry (x :: l) r = (entry x).lines.count r + owed entry l r := by simp [owed]
    have h1 := hf f x l
    refine ⟨i1.trans (hput _ _ _), i2, i3.trans d3, ?_, fun hs => ?_⟩
    · have : (entry x).lines.count r ≤ (put f (x :: l)).found (entry x) * (entry x).lines.count r := Nat.le_mul_of_pos_left _ h1
      unfold del at i4 ⊢
      rw [d1] at i4
      omega
    · have e1 := hs x l (List.suffix_refl _)
      have := i5 (fun y m hm => by rw [hput]; exact hs y m (hm.trans (List.suffix_cons _ _)))
      rw [this]
      unfold del
      rw [d1, e1, ho]
      omega
end

theorem rules_count (f : Fw) (r : Line) : (rules f).count r =
    owed .port f.addrs r + owed (fun x : Port × Port × Bool => .fwd x.1 x.2.1 x.2.2) f.ffwds r + owed (fun x : Port × Int => .redir x.1 x.2) f.redirs r +
    owed .redirAll f.redirAlls r + owed (fun x : Port × Port × Int => .range x.1 x.2.1 x.2.2) f.ranges r + owed .proto f.protos r := by
  simp only [rules, entries, owed, List.flatMap_append, List.count_append, List.flatMap_map]

theorem zap_spec (w : World) (f : Fw) (h : w.enable = true) (r : Line) :
    (zap w f).2 = Fw.new ∧ (zap w f).1.enable = true ∧ (zap w f).1.fws = w.fws ∧ (zap w f).1.kernel.count r ≤ w.kernel.count r - (rules f).count r ∧
    (f.ffwds.Nodup → (zap w f).1.kernel.count r = w.kernel.count r - (rules f).count r) := by
  obtain ⟨z1, hz1⟩ : ∃ z, z = zapLoop .port (fun f l => { f with addrs := l }) w f f.addrs := ⟨_, rfl⟩
  obtain ⟨z2, hz2⟩ : ∃ z, z = zapLoop (fun x : Port × Port × Bool => .fwd x.1 x.2.1 x.2.2) (fun f l => { f with ffwds := l }) z1.1 z1.2 f.ffwds := ⟨_, rfl⟩
  obtain ⟨z3, hz3⟩ : ∃ z, z = zapLoop (fun x : Port × Int => .redir x.1 x.2) (fun f l => { f with redirs := l }) z2.1 z2.2 f.redirs := ⟨_, rfl⟩
  obtain ⟨z4, hz4⟩ : ∃ z, z = zapLoop .redirAll (fun f l => { f with redirAlls := l }) z3.1 z3.2 f.redirAlls := ⟨_, rfl⟩
  obtain ⟨z5, hz5⟩ : ∃ z, z = zapLoop (fun x : Port × Port × Int => .range x.1 x.2.1 x.2.2) (fun f l => { f with ranges := l }) z4.1 z4.2 f.ranges := ⟨_, rfl⟩
  obtain ⟨z6, hz6⟩ : ∃ z, z = zapLoop .proto (fun f l => { f with protos := l }) z5.1 z5.2 f.protos := ⟨_, rfl⟩
  have hz : zap w f = z6 := by rw [hz6, hz5, hz4, hz3, hz2, hz1]; rfl
  rw [hz]
  obtain ⟨a1, a2, a3, a4, a5⟩ := zap_loop .port (fun f l => { f with addrs := l }) (by intros; rfl) r (by intros; simp [Fw.found]) f.addrs w f h
  rw [← hz1] at a1 a2 a3 a4 a5
  obtain ⟨b1, b2, b3, b4, b5⟩ := zap_loop (fun x : Port × Port × Bool => .fwd x.1 x.2.1 x.2.2) (fun f l => { f with ffwds := l }) (by intros; rfl) r
    (by intros; simp [Fw.found]) f.ffwds z1.1 z1.2 a2
  rw [← hz2] at b1 b2 b3 b4 b5
  obtain ⟨c1, c2, c3, c4, c5⟩ := zap_loop (fun x : Port × Int => .redir x.1 x.2) (fun f l => { f with redirs := l }) (by intros; rfl) r
    (by intros; simp [Fw.found]) f.redirs z2.1 z2.2 b2
  rw [← hz3] at c1 c2 c3 c4 c5
  obtain ⟨d1, d2, d3, d4, d5⟩ := zap_loop .redirAll (fun f l => { f with redirAlls := l }) (by intros; rfl) r
    (by intros; simp [Fw.found]) f.redirAlls z3.1 z3.2 c2
  rw [← hz4] at d1 d2 d3 d4 d5
  obtain ⟨e1, e2, e3, e4, e5⟩ := zap_loop (fun x : Port × Port × Int => .range x.1 x.2.1 x.2.2) (fun f l => { f with ranges := l }) (by intros; rfl) r
    (by intros; simp [Fw.found]) f.ranges z4.1 z4.2 d2
  rw [← hz5] at e1 e2 e3 e4 e5
  obtain ⟨f1, f2, f3, f4, f5⟩ := zap_loop .proto (fun f l => { f with protos := l }) (by intros; rfl) r
    (by intros; simp [Fw.found]) f.protos z5.1 z5.2 e2
  rw [← hz6] at f1 f2 f3 f4 f5
  have hc := rules_count f r
  refine ⟨?_, f2, by rw [f3, e3, d3, c3, b3, a3], by omega, fun hn => ?_⟩
  · rw [f1, e1, d1, c1, b1, a1]; rfl
  · have a6 := a5 (by intros; simp [Fw.found])
    have b6 := b5 (by
      intro x m hm
      have := List.nodup_cons.mp (hm.sublist.nodup hn)
      simp [Fw.found, List.count_eq_zero.mpr this.1])
    have c6 := c5 (by intros; simp [Fw.found])
    have d6 := d5 (by intros; simp [Fw.found])
    have e6 := e5 (by intros; simp [Fw.found])
    have f6 := f5 (by intros; simp [Fw.found])
    omega

theorem add_rules (f : Fw) (e : Entry) (r : Line) : (rules (f.add e)).count r = (rules f).count r + e.lines.count r := by
  cases e <;> simp only [rules_count, Fw.add] <;> simp only [owed, List.flatMap_append, List.count_append, List.flatMap_cons, List.flatMap_nil, List.append_nil] <;> omega

theorem set_rules (l : List Fw) (r : Line) : ∀ (i : Nat) (f g : Fw), l[i]? = some f → ((l.set i g).flatMap rules).count r + (rules f).count r = (l.flatMap rules).count r + (rules g).count r := by
  induction l with
  | nil => intro i f g h; simp at h
  | cons a l ih =>
    intro i f g h
    cases i with
    | zero =>
      simp only [List.getElem?_cons_zero, Option.some.injEq] at h
      subst h
      simp only [List.set_cons_zero, List.flatMap_cons, List.count_append]
      omega
    | succ i =>
      simp only [List.getElem?_cons_succ] at h
      have := ih i f g h
      simp only [List.set_cons_succ, List.flatMap_cons, List.count_append]
      omega

/-- Clearing each of them empties all lists. -/
theorem cleared (w : World) (h : w.enable = true) (r : Line) : (allRules (run w ((List.range w.fws.length).map .zap))).count r = 0 := by
  have key : ∀ n ≤ w.fws.length, let v := run w ((List.range n).map .zap)
      v.enable = true ∧ v.fws.length = w.fws.length ∧ ∀ i < n, v.fws[i]? = some Fw.new := by
    intro n
    induction n with
    | zero => intro _; exact ⟨h, rfl, fun i hi => absurd hi (Nat.not_lt_zero _)⟩
    | succ n ih =>
      intro hn
      obtain ⟨h1, h2, h3⟩ := ih (by omega)
      have e : run w ((List.range (n + 1)).map .zap) = step (run w ((List.range n).map .zap)) (.zap n) := by
        rw [List.range_succ, List.map_append, run, List.foldl_append]; rfl
      dsimp only
      rw [e]
      generalize run w ((List.range n).map .zap) = v at h1 h2 h3
      have hl : n < v.fws.length := by omega
      simp only [step, List.getElem?_eq_getElem hl]
      obtain ⟨z1, z2, z3, _⟩ := zap_spec v v.fws[n] h1 r
      refine ⟨z2, by simp [h2], fun i hi => ?_⟩
      by_cases e : i = n
      · subst e; rw [List.getElem?_set_self hl, z1]
      · rw [List.getElem?_set_ne (by omega)]; exact h3 i (by omega)
  obtain ⟨_, k2, k3⟩ := key _ (Nat.le_refl _)
  generalize run w ((List.range w.fws.length).map .zap) = v at k2 k3
  rw [List.count_eq_zero]
  unfold allRules
  intro hm
  obtain ⟨f, hf, hr⟩ := List.mem_flatMap.mp hm
  obtain ⟨i, hi, rfl⟩ := List.getElem_of_mem hf
  have := k3 i (by omega)
  rw [List.getElem?_eq_getElem hi] at this
  simp only [Option.some.injEq] at this
  rw [this] at hr
  simp [rules, entries, Fw.new] at hr

end FwP

open FwP

/-- C106: whatever is added and deleted, by however many objects: once they have all been cleared there are no more rules of any kind than before. -/
theorem C106_none_left (kernel : List Line) (ops : List Op) (hn : ∀ o ∈ ops, ∀ b, o ≠ .enable b) (r : Line) :
    let w := run ⟨true, kernel, []⟩ ops
    w.kernel.count r ≤ kernel.count r + (allRules w).count r ∧
    (run w ((List.range w.fws.length).map .zap)).kernel.count r ≤ kernel.count r := by
  have inv : ∀ (ops : List Op) (w : World), w.enable = true → (∀ o ∈ ops, ∀ b, o ≠ .enable b) → w.kernel.count r ≤ kernel.count r + (allRules w).count r →
      (run w ops).enable = true ∧ (run w ops).kernel.count r ≤ kernel.count r + (allRules (run w ops)).count r := by
    intro ops
    induction ops with
    | nil => intro w h _ h2; exact ⟨h, h2⟩
    | cons o ops ih =>
      intro w h hn h2
      have hs : (step w o).enable = true ∧ (step w o).kernel.count r ≤ kernel.count r + (allRules (step w o)).count r := by
        cases o with
        | make =>
          refine ⟨h, ?_⟩
          simp only [step, allRules, List.flatMap_append, List.count_append]
          exact Nat.le_trans h2 (by simp [allRules])
        | add i e =>
          simp only [step]
          split
          · exact ⟨h, h2⟩
          · rename_i f hf
            refine ⟨by simp [sysAdd, h], ?_⟩
            simp only [sysAdd, h, if_true, allRules, append, List.count_append]
            have h3 := set_rules w.fws r i f (f.add e) hf
            have h4 := add_rules f e r
            unfold allRules at h2
            omega
        | del i e =>
          simp only [step]
          split
          · exact ⟨h, h2⟩
          · rename_i f hf
            obtain ⟨d1, d2, d3⟩ := del_count e r (f.found e) w h
            refine ⟨d2, ?_⟩
            unfold del allRules
            rw [d1, d3]
            unfold allRules at h2
            omega
        | zap i =>
          simp only [step]
          split
          · exact ⟨h, h2⟩
          · rename_i f hf
            obtain ⟨z1, z2, z3, z4, _⟩ := zap_spec w f h r
            refine ⟨z2, ?_⟩
            have h3 := set_rules w.fws r i f (zap w f).2 hf
            have h5 : (rules (zap w f).2).count r = 0 := by rw [z1]; rfl
            unfold allRules at h2 ⊢
            dsimp only
            omega
        | enable b => exact absurd rfl (hn _ (by simp) b)
      exact ih _ hs.1 (fun o' q => hn o' (by simp [q])) hs.2
  have hw := inv ops ⟨true, kernel, []⟩ rfl hn (by simp [allRules])
  dsimp only
  refine ⟨hw.2, ?_⟩
  generalize run ⟨true, kernel, []⟩ ops = w at hw ⊢
  have hz := inv ((List.range w.fws.length).map .zap) w hw.1 (by
    intro o ho b e
    simp only [List.mem_map] at ho
    obtain ⟨_, _, q⟩ := ho
    rw [e] at q; simp at q) hw.2
  have he : (allRules (run w ((List.range w.fws.length).map .zap))).count r = 0 := cleared w hw.1 r
  omega

/-- C106, partial: of objects that only add and are cleared, and that have no forward twice, the rules are those from before and what is in the lists, each as often. Missing:
    deleting, and forwards that an object has twice, see below. -/
theorem C106_rules_partial (kernel : List Line) (ops : List Op) (hn : ∀ o ∈ ops, (∀ b, o ≠ .enable b) ∧ ∀ i e, o ≠ .del i e)
    (hd : ∀ pre, pre <+: ops → ∀ f ∈ (run ⟨true, kernel, []⟩ pre).fws, f.ffwds.Nodup) :
    let w := run ⟨true, kernel, []⟩ ops
    w.kernel.Perm (kernel ++ allRules w) := by
  have inv : ∀ (r : Line) (ops : List Op) (w : World), w.enable = true → (∀ o ∈ ops, (∀ b, o ≠ .enable b) ∧ ∀ i e, o ≠ .del i e) →
      (∀ pre, pre <+: ops → ∀ f ∈ (run w pre).fws, f.ffwds.Nodup) →
      w.kernel.count r = kernel.count r + (allRules w).count r →
      (run w ops).kernel.count r = kernel.count r + (allRules (run w ops)).count r := by
    intro r ops
    induction ops with
    | nil => intro w _ _ _ h; exact h
    | cons o ops ih =>
      intro w h hn hd h2
      have hs : (step w o).enable = true ∧ (step w o).kernel.count r = kernel.count r + (allRules (step w o)).count r := by
        cases o with
        | make =>
          refine ⟨h, ?_⟩
          simp only [step, allRules, List.flatMap_append, List.count_append]
          rw [h2]
          simp [allRules, rules, entries, Fw.new]
        | add i e =>
          simp only [step]
          split
          · exact ⟨h, h2⟩
          · rename_i f hf
            refine ⟨by simp [sysAdd, h], ?_⟩
            simp only [sysAdd, h, if_true, allRules, append, List.count_append]
            have h3 := set_rules w.fws r i f (f.add e) hf
            have h4 := add_rules f e r
            unfold allRules at h2
            omega
        | del i e => exact absurd rfl ((hn _ (by simp)).2 i e)
        | zap i =>
          simp only [step]
          split
          · exact ⟨h, h2⟩
          · rename_i f hf
            obtain ⟨z1, z2, z3, z4, z5⟩ := zap_spec w f h r
            have z6 := z5 (hd [] (List.nil_prefix) f (List.mem_of_getElem? hf))
            refine ⟨z2, ?_⟩
            have h3 := set_rules w.fws r i f (zap w f).2 hf
            have h5 : (rules (zap w f).2).count r = 0 := by rw [z1]; rfl
            unfold allRules at h2 ⊢
            dsimp only
            omega
        | enable b => exact absurd rfl ((hn _ (by simp)).1 b)
      refine ih _ hs.1 (fun o' q => hn o' (by simp [q])) (fun pre hp => ?_) hs.2
      exact hd (o :: pre) (List.cons_prefix_cons.mpr ⟨rfl, hp⟩)
  dsimp only
  rw [List.perm_iff_count]
  intro r
  rw [List.count_append]
  exact inv r ops _ rfl hn hd (by simp [allRules])

/-- C106: adding puts the lines of what is added at the end, and the object has it. -/
theorem C106_add (w : World) (i : Nat) (f : Fw) (e : Entry) (hf : w.fws[i]? = some f) (h : w.enable = true) :
    (step w (.add i e)).kernel = w.kernel ++ e.lines ∧ (step w (.add i e)).fws = w.fws.set i (f.add e) ∧ (entries (f.add e)).Perm (e :: entries f) := by
  simp only [step, hf, sysAdd, h, if_true, append]
  refine ⟨trivial, trivial, ?_⟩
  rw [List.perm_iff_count]
  intro x
  cases e <;> simp only [entries, Fw.add, List.map_append, List.map_cons, List.map_nil, List.count_append, List.count_cons, List.count_nil] <;> omega

/-- C106: deleting what the object has (a forward: what it has once) takes one of each of its lines from the kernel; deleting anything else does nothing; the lists stay. -/
theorem C106_del (w : World) (i : Nat) (f : Fw) (e : Entry) (hf : w.fws[i]? = some f) (h : w.enable = true) :
    (step w (.del i e)).fws = w.fws ∧
    (e ∉ entries f → (step w (.del i e)).kernel = w.kernel) ∧
    (e ∈ entries f → ((∀ s d n, e ≠ .fwd s d n) ∨ (entries f).count e = 1) → (step w (.del i e)).kernel = delete w.kernel e.lines) := by
  have hm : e ∈ entries f ↔ f.found e ≠ 0 := by
    cases e with
    | fwd s d n =>
      simp only [entries, Fw.found, ne_eq, List.count_eq_zero, Classical.not_not, List.mem_append, List.mem_map, reduceCtorEq, and_false, exists_false, false_or, or_false, Entry.fwd.injEq]
      exact ⟨fun ⟨x, hx, a, b, c⟩ => by obtain ⟨_, _, _⟩ := x; subst a b c; exact hx, fun q => ⟨_, q, rfl, rfl, rfl⟩⟩
    | range l u d =>
      simp only [entries, List.mem_append, List.mem_map, reduceCtorEq, and_false, exists_false, false_or, or_false, Entry.range.injEq]
      have : (l, u, d) ∈ f.ranges ↔ f.found (.range l u d) ≠ 0 := by simp [Fw.found]
      rw [← this]
      exact ⟨fun ⟨x, hx, a, b, c⟩ => by obtain ⟨_, _, _⟩ := x; subst a b c; exact hx, fun q => ⟨_, q, rfl, rfl, rfl⟩⟩
    | _ => simp [entries, Fw.found]
  have hc : ∀ s d n, e = .fwd s d n → (entries f).count e = f.found e := by
    intro s d n q
    subst q
    have hz : ∀ {α : Type} (g : α → Entry) (l : List α), (∀ x, g x ≠ .fwd s d n) → (l.map g).count (.fwd s d n) = 0 := by
      intro α g l hg
      rw [List.count_eq_zero]
      intro q
      obtain ⟨x, _, hx⟩ := List.mem_map.mp q
      exact hg x hx
    have hi : (f.ffwds.map (fun x => Entry.fwd x.1 x.2.1 x.2.2)).count (.fwd s d n) = f.ffwds.count (s, d, n) := by
      induction f.ffwds with
      | nil => rfl
      | cons a l ih =>
        obtain ⟨a, b, c⟩ := a
        simp only [List.map_cons, List.count_cons, ih, beq_iff_eq, Entry.fwd.injEq, Prod.mk.injEq]
    simp only [entries, List.count_append, hi, Fw.found]
    rw [hz, hz, hz, hz, hz] <;> first | omega | (intros; simp)
  simp only [step, hf]
  refine ⟨(del_count e ⟨[], []⟩ _ w h).2.2, fun hn => ?_, fun hy ho => ?_⟩
  · have : f.found e = 0 := Classical.byContradiction fun q => hn (hm.mpr q)
    simp [del, this, delTimes]
  · have h1 : f.found e = 1 := by
      have h0 := hm.mp hy
      rcases ho with ho | ho
      · cases e with
        | fwd s d n => exact absurd rfl (ho s d n)
        | _ => simp only [Fw.found] at h0 ⊢; split <;> simp_all
      · cases e with
        | fwd s d n => rw [← hc s d n rfl]; exact ho
        | _ => simp only [Fw.found] at h0 ⊢; split <;> simp_all
    simp [del, h1, delTimes, sysDel, h]

/-- C106: with `enable` off no rule is changed. -/
theorem C106_disabled (w : World) (ops : List Op) (h : w.enable = false) (hn : ∀ o ∈ ops, o ≠ .enable true) : (run w ops).kernel = w.kernel := by
  have hdt : ∀ (n : Nat) (w : World) (e : Entry), w.enable = false → delTimes w e n = w := by
    intro n
    induction n with
    | zero => intros; rfl
    | succ n ih =>
      intro w e h
      have : sysDel w e.lines = w := by simp [sysDel, h]
      simp only [delTimes, this]; exact ih w e h
  have hzl : ∀ {α : Type} (g : α → Entry) (put : Fw → List α → Fw) (l : List α) (w : World) (f : Fw), w.enable = false → (zapLoop g put w f l).1 = w := by
    intro α g put l
    induction l with
    | nil => intros; rfl
    | cons x l ih =>
      intro w f h
      simp only [zapLoop, del, hdt _ w _ h]
      exact ih w _ h
  have hz : ∀ (w : World) (f : Fw), w.enable = false → (zap w f).1 = w := by
    intro w f h
    simp only [zap]
    simp [hzl, h]
  induction ops generalizing w with
  | nil => rfl
  | cons o ops ih =>
    have hs : (step w o).enable = false ∧ (step w o).kernel = w.kernel := by
      cases o with
      | make => exact ⟨h, rfl⟩
      | add i e => simp only [step]; split <;> simp [sysAdd, h]
      | del i e => simp only [step]; split <;> simp [del, hdt _ _ _ h, h]
      | zap i => simp only [step]; split <;> simp [hz _ _ h, h]
      | enable b =>
        cases b with
        | false => exact ⟨rfl, rfl⟩
        | true => exact absurd rfl (hn _ (by simp))
    exact (ih _ hs.1 (fun o' q => hn o' (by simp [q]))).trans hs.2

/-- `10.0.0.1:80`, `10.0.0.2:80`. -/
def fwA : Port := ⟨⟨10, 0, 0, 1⟩, 80⟩
def fwB : Port := ⟨⟨10, 0, 0, 2⟩, 80⟩

/-- C106: deleting does not take it from the list, so that clearing the object deletes it again: the rule of another object is lost. -/
theorem C106_coop_fails :
    let w := run ⟨true, [], []⟩ [.make, .make, .add 0 (.port fwA), .add 1 (.port fwA), .del 0 (.port fwA), .zap 0]
    w.kernel = [] ∧ allRules w = (Entry.port fwA).lines := by
  refine ⟨?_, ?_⟩ <;> decide +kernel

/-- C106: a forward that an object has twice is deleted three times when it is cleared: another's is lost. -/
theorem C106_forward_fails :
    let w := run ⟨true, [], []⟩ [.make, .make, .add 0 (.fwd fwA fwB true), .add 0 (.fwd fwA fwB true), .add 1 (.fwd fwA fwB true), .zap 0]
    w.kernel = [] ∧ allRules w = (Entry.fwd fwA fwB true).lines ∧ (Entry.fwd fwA fwB true).lines.length = 6 := by
  refine ⟨?_, ?_, ?_⟩ <;> decide +kernel

/-- C106: what was added while `enable` was off is deleted when it is on. -/
theorem C106_enable_fails :
    let w := run ⟨false, (Entry.redirAll 8080).lines, []⟩ [.make, .add 0 (.redirAll 8080), .enable true, .zap 0]
    w.kernel = [] := by decide +kernel

namespace FwP

def tx (s : String) : Text := s.toList.map ch

/-- The lines of a command. -/
def cmds (word : Text) (l : List Line) : List Text := l.map fun x => x.pre ++ word ++ x.post

/-- The rule for a destination: 0.0.0.0 stands for any. -/
def only (a : Spec.Addr.Addr) : Text := if a = ⟨0, 0, 0, 0⟩ then [] else tx "-d " ++ Addr.printable a

/-- The end of a range: 0 stands for none. -/
def bound (n : Nat) : Text := if n = 0 then [] else num n

end FwP

open FwP (tx only bound) in
/-- C106: the text of the command for each kind of rule. -/
theorem C106_lines (word : Text) (a b : Port) (d : Int) (p : Text) :
    FwP.cmds word (Entry.port a).lines = [tx "tcp", tx "udp"].map (fun pr =>
      tx "iptables " ++ word ++ tx " Services -j ACCEPT -p " ++ pr ++ tx " " ++ only a.addr ++ tx " --dport " ++ num a.port) ∧
    FwP.cmds word (Entry.redir a d).lines =
      [tx "iptables -t nat " ++ word ++ tx " TProxy -p tcp " ++ only a.addr ++ tx " --dport " ++ num a.port ++ tx " -j REDIRECT --to-ports " ++ num d] ∧
    FwP.cmds word (Entry.redirAll d).lines = [tx "iptables -t nat " ++ word ++ tx " TProxy -p tcp  -j REDIRECT --to-ports " ++ num d] ∧
    FwP.cmds word (Entry.range a b d).lines = [tx "iptables -t nat " ++ word ++ tx " TProxy -p tcp " ++ only a.addr ++ tx " --dport " ++ bound a.port ++
      tx ":" ++ bound b.port ++ tx " -j REDIRECT --to-ports " ++ num d] ∧
    FwP.cmds word (Entry.proto p).lines = [tx "iptables " ++ word ++ tx " Services -p " ++ p ++ tx " -j ACCEPT "] := by
  have e1 : tx " Services -j ACCEPT -p " = services ++ accept ++ proto := by decide +kernel
  have e2 : tx " Services -p " = services ++ ch ' ' :: proto := by decide +kernel
  have e3 : tx " TProxy -p tcp  -j REDIRECT --to-ports " = tproxy ++ toPorts := by decide +kernel
  have e4 : tx "iptables " = iptables := by decide +kernel
  have e5 : tx "iptables -t nat " = nat := by decide +kernel
  have e6 : tx " --dport " = dport := by decide +kernel
  have e7 : tx " TProxy -p tcp " = tproxy := by decide +kernel
  have e8 : tx " -j REDIRECT --to-ports " = toPorts := by decide +kernel
  have e9 : tx " -j ACCEPT " = accept := by decide +kernel
  have e10 : tx " " = [ch ' '] ∧ tx ":" = [ch ':'] ∧ tx "tcp" = tcp ∧ tx "udp" = udp ∧ tx "-d " = text ['-', 'd', ' '] := by decide +kernel
  obtain ⟨f1, f2, f3, f4, f5⟩ := e10
  have e11 : ∀ x, only x = dest x := fun x => by unfold FwP.only dest; rw [f5]
  have e12 : ∀ n : Nat, bound n = if n = 0 then [] else num n := fun _ => rfl
  simp only [FwP.cmds, Entry.lines, portLine, redirLine, redirAllLine, rangeLine, protoLine, e1, e2, e3, e4, e5, e6, e7, e8, e9, f1, f2, f3, f4, e11, e12,
    List.map_cons, List.map_nil, List.append_assoc, List.cons_append, List.nil_append, and_self]

open FwP (tx only) in
/-- C106: a forward: for both protocols, the destination is changed (or redirected, for this host itself), the packets are marked, and marked packets are let through. -/
theorem C106_forward_lines (word : Text) (s d : Port) (snat : Bool) :
    let mk := if snat then tx "0xFA58" else tx "0xFA57"
    let own := d.addr = ⟨127, 0, 0, 1⟩ ∨ d.addr = ⟨0, 0, 0, 0⟩
    FwP.cmds word (Entry.fwd s d snat).lines = [tx "tcp", tx "udp"].flatMap (fun pr =>
      [tx "iptables -t nat " ++ word ++ tx " FASTFORWARD -p " ++ pr ++ tx " --dport " ++ num s.port ++ tx " " ++ only s.addr ++
        (if own then tx " -j REDIRECT --to-port " ++ num d.port else tx " -j DNAT --to-destination " ++ Addr.portPrintable d),
       tx "iptables -t mangle " ++ word ++ tx " FASTFORWARD -p " ++ pr ++ tx " --dport " ++ num s.port ++ tx " -j MARK --set-mark " ++ mk ++ tx " " ++ only s.addr,
       tx "iptables " ++ word ++ tx " FFASTFORWARD -j ACCEPT -p " ++ pr ++ tx " --dport " ++ num d.port ++ tx " -m mark --mark " ++ mk ++ tx " " ++
        (if own then [] else tx "-d " ++ Addr.printable d.addr)]) := by
  have e1 : tx " FFASTFORWARD -j ACCEPT -p " = text [' ', 'F', 'F', 'A', 'S', 'T', 'F', 'O', 'R', 'W', 'A', 'R', 'D'] ++ accept ++ proto := by decide +kernel
  have e4 : tx "iptables " = iptables := by decide +kernel
  have e5 : tx "iptables -t nat " = nat := by decide +kernel
  have e6 : tx " --dport " = dport := by decide +kernel
  have e7 : tx "iptables -t mangle " = mangle := by decide +kernel
  have e10 : tx " " = [ch ' '] ∧ tx "tcp" = tcp ∧ tx "udp" = udp ∧ tx "-d " = text ['-', 'd', ' '] := by decide +kernel
  obtain ⟨f1, f3, f4, f5⟩ := e10
  have e11 : ∀ x, only x = dest x := fun x => by unfold FwP.only dest; rw [f5]
  have e12 : mark snat = if snat then tx "0xFA58" else tx "0xFA57" := by cases snat <;> decide +kernel
  have e13 : tx " FASTFORWARD -p " = text [' ', 'F', 'A', 'S', 'T', 'F', 'O', 'R', 'W', 'A', 'R', 'D', ' ', '-', 'p', ' '] := by decide +kernel
  have e14 : tx " -j REDIRECT --to-port " = text [' ', '-', 'j', ' ', 'R', 'E', 'D', 'I', 'R', 'E', 'C', 'T', ' ', '-', '-', 't', 'o', '-', 'p', 'o', 'r', 't', ' '] := by decide +kernel
  have e15 : tx " -j DNAT --to-destination " = text [' ', '-', 'j', ' ', 'D', 'N', 'A', 'T', ' ', '-', '-', 't', 'o', '-', 'd', 'e', 's', 't', 'i', 'n', 'a', 't', 'i', 'o', 'n', ' '] := by decide +kernel
  have e16 : tx " -j MARK --set-mark " = text [' ', '-', 'j', ' ', 'M', 'A', 'R', 'K', ' ', '-', '-', 's', 'e', 't', '-', 'm', 'a', 'r', 'k', ' '] := by decide +kernel
  have e17 : tx " -m mark --mark " = text [' ', '-', 'm', ' ', 'm', 'a', 'r', 'k', ' ', '-', '-', 'm', 'a', 'r', 'k', ' '] := by decide +kernel
  dsimp only
  rw [← e12]
  simp only [FwP.cmds, Entry.lines, fwdLines, e1, e4, e5, e6, e7, e11, e13, e14, e15, e16, e17, f1, f3, f4, f5, List.flatMap_cons, List.flatMap_nil,
    List.map_append, List.map_cons, List.map_nil, List.append_assoc, List.cons_append, List.nil_append, List.append_nil]

/-- The lines, as they are run. -/
example : (Entry.port fwA).lines.map (fun l => l.pre ++ str ['-', 'A'] ++ l.post) =
    ["iptables -A Services -j ACCEPT -p tcp -d 10.0.0.1 --dport 80".toList.map ch, "iptables -A Services -j ACCEPT -p udp -d 10.0.0.1 --dport 80".toList.map ch] := by decide +kernel
/-- Two objects that add, one of them cleared: the other's rules stay. -/
example : (run ⟨true, [], []⟩ [.make, .make, .add 0 (.redir fwA 90), .add 1 (.proto (str ['g', 'r', 'e'])), .add 1 (.range fwA fwB 7), .zap 0]).kernel =
    (Entry.proto (str ['g', 'r', 'e'])).lines ++ (Entry.range fwA fwB 7).lines := by decide +kernel

end Props
