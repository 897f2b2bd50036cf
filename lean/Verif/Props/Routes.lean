import Verif.Model.Routes
import Verif.Props.Addr
import Verif.Props.Split
import Verif.Props.Uuid
/-
C107: routes.
-/
namespace Props
open Wv Wv.Routes Spec.Routes
open Spec.Addr (Addr Net On)

namespace RtP

/-- What tells routes of a list apart. -/
def key (r : Route) : Row := ⟨r.ifc, Addr.network r.ip, r.ip.mask, r.gw, r.metric, r.table⟩

/-- Where a route of a list is in the kernel. -/
def target (k : Row) : Row := { k with table := if k.mask.a ≠ 0 ∧ k.table = defaultTable then mainTable else k.table }

theorem eq_iff (r s : Route) : Routes.eq r s = true ↔ key r = key s := by
  simp only [Routes.eq, key, Bool.and_eq_true, beq_iff_eq, Row.mk.injEq]
  constructor
  · rintro ⟨⟨⟨⟨⟨a, b⟩, c⟩, d⟩, e⟩, f⟩; exact ⟨d, a, b, c, e, f⟩
  · rintro ⟨d, a, b, c, e, f⟩; exact ⟨⟨⟨⟨⟨a, b⟩, c⟩, d⟩, e⟩, f⟩

theorem main_ne : (mainTable : List Byte) ≠ defaultTable := by decide

theorem named_eq (r : Route) : named r = target (key r) := by
  simp only [named, target, key, realtable, Addr.isDefault]
  congr 1
  by_cases h1 : r.ip.mask.a = 0 <;> by_cases h2 : r.table = defaultTable <;> simp [h1, h2]

theorem direct (r : Route) : (Addr.isDefault r.ip || (named r).table != defaultTable) = true := by
  rw [named_eq]
  simp only [target, key, Addr.isDefault]
  by_cases h1 : r.ip.mask.a = 0 <;> by_cases h2 : r.table = defaultTable <;> simp [h1, h2, main_ne]

theorem seen_target (k : Row) (h : k.table ≠ mainTable) : seen (target k) = k := by
  obtain ⟨a, b, c, d, e, t⟩ := k
  simp only [seen, target] at h ⊢
  by_cases h1 : c.a ≠ 0 ∧ t = defaultTable
  · simp [h1]
  · simp [h1, h]

theorem seen_table (k : Row) : (seen k).table ≠ mainTable := by
  unfold seen
  split
  · exact fun q => main_ne q.symm
  · assumption

theorem seen_metric (k : Row) : (seen k).metric = k.metric := by unfold seen; split <;> rfl

theorem exec_del (cur : List Row) (r : Route) :
    exec cur (.del r) = if target (key r) ∈ cur then del cur (target (key r)) else del cur { target (key r) with table := mainTable } := by
  simp only [exec, delroute, direct, Bool.true_and, List.contains_iff_mem]
  rw [named_eq]

/-- A deletion. -/
theorem del_step (cur keep S : List Row) (r : Route) (hp : cur.Perm (keep ++ S)) (hn : cur.Nodup) (hv : key r ∈ S.map seen) (hk : ∀ k ∈ keep, seen k ≠ key r)
    (hd : ∀ k ∈ S, k.table = defaultTable → k.mask.a = 0) :
    ∃ t S', S.Perm (t :: S') ∧ seen t = key r ∧ (exec cur (.del r)).Perm (keep ++ S') ∧ (exec cur (.del r)).Nodup := by
  obtain ⟨s, hs, es⟩ := List.mem_map.mp hv
  have hvt : (key r).table ≠ mainTable := by rw [← es]; exact seen_table s
  have main : ∃ t ∈ S, seen t = key r ∧ exec cur (.del r) = del cur t := by
    rw [exec_del]
    split
    · rename_i ht
      refine ⟨_, ?_, seen_target _ hvt, rfl⟩
      rcases List.mem_append.mp (hp.mem_iff.mp ht) with q | q
      · exact absurd (seen_target _ hvt) (hk _ q)
      · exact q
    · rename_i ht
      refine ⟨s, hs, es, ?_⟩
      congr 1
      have hsc : s ∈ cur := hp.mem_iff.mpr (List.mem_append_right _ hs)
      unfold seen at es
      split at es
      · rename_i hm
        rw [← es]
        obtain ⟨a, b, c, d, e, t⟩ := s
        simp only at hm
        simp [target, hm]
      · rename_i hm
        exfalso
        apply ht
        rw [← es]
        have : target s = s := by
          unfold target
          rw [if_neg]
          intro q
          exact q.1 (hd s hs q.2)
        rw [this]; exact hsc
  obtain ⟨t, ht, et, ee⟩ := main
  have hps := List.perm_cons_erase ht
  refine ⟨t, S.erase t, hps, et, ?_, ?_⟩
  · rw [ee]
    have hq : cur.Perm (t :: (keep ++ S.erase t)) := hp.trans ((List.Perm.append_left keep hps).trans (List.perm_middle))
    have hn' := hq.nodup_iff.mp hn
    have hf := List.Perm.filter (· ≠ t) hq
    unfold del
    refine hf.trans ?_
    rw [List.filter_cons_of_neg (by simp), List.filter_eq_self.mpr]
    intro x hx
    have := (List.nodup_cons.mp hn').1
    simp only [decide_eq_true_eq]
    intro q; subst q; exact this hx
  · rw [ee]; exact hn.filter _

/-- The deletions, as far as they have come. -/
theorem del_phase (keep : List Row) (D2 D1 : List Route) : ∀ (cur S : List Row), cur.Perm (keep ++ S) → cur.Nodup → (S.map seen).Perm ((D1 ++ D2).map key) →
    (∀ k ∈ keep, seen k ∉ (D1 ++ D2).map key) → (∀ k ∈ S, k.table = defaultTable → k.mask.a = 0) →
    ∃ S', ((D1.map Cmd.del).foldl exec cur).Perm (keep ++ S') ∧ (S'.map seen).Perm (D2.map key) := by
  induction D1 with
  | nil => intro cur S hp hn hs hk hd; exact ⟨S, hp, hs⟩
  | cons r D1 ih =>
    intro cur S hp hn hs hk hd
    have hv : key r ∈ S.map seen := hs.mem_iff.mpr (by simp)
    obtain ⟨t, S', h1, h2, h3, h4⟩ := del_step cur keep S r hp hn hv (fun k hk' e => hk k hk' (by rw [e]; simp)) hd
    refine ih _ S' h3 h4 ?_ (fun k hk' q => hk k hk' (by simp only [List.cons_append, List.map_cons, List.mem_cons]; exact Or.inr q))
      (fun k hk' => hd k (h1.mem_iff.mpr (List.mem_cons_of_mem _ hk')))
    have := (h1.map seen).symm.trans hs
    simp only [List.map_cons, List.cons_append, h2] at this
    exact this.cons_inv

theorem mem_addk (l : List Row) (k x : Row) : x ∈ add l k ↔ x ∈ l ∨ x = k := by
  unfold add
  split
  · constructor
    · exact Or.inl
    · rintro (q | q)
      · exact q
      · rw [q]; assumption
  · simp

theorem mem_del (l : List Row) (k x : Row) : x ∈ del l k ↔ x ∈ l ∧ x ≠ k := by simp [del]

/-- An addition. -/
theorem add_mem (cur : List Row) (r : Route) (x : Row) :
    (x ∈ exec cur (.add r) → x ∈ cur ∨ x = target (key r)) ∧ (x.metric ≠ 255 → (x ∈ cur ∨ x = target (key r)) → x ∈ exec cur (.add r)) := by
  simp only [exec, addroute, direct, if_true]
  rw [named_eq]
  split
  · simp only [mem_addk]; exact ⟨id, fun _ q => q⟩
  · simp only [delroute, bne_self_eq_false, Bool.or_self, Bool.false_and, Bool.false_eq_true, if_false, mem_del, mem_addk]
    refine ⟨?_, fun hm q => ⟨?_, ?_⟩⟩
    · rintro ⟨(q | q) | q, ne⟩
      · exact Or.inl q
      · exact absurd q ne
      · exact Or.inr q
    · rcases q with q | q
      · exact Or.inl (Or.inl q)
      · exact Or.inr q
    · intro q; apply hm; rw [q]

theorem add_phase (A : List Route) : ∀ (cur : List Row) (x : Row),
    (x ∈ (A.map Cmd.add).foldl exec cur → x ∈ cur ∨ ∃ r ∈ A, x = target (key r)) ∧
    (x.metric ≠ 255 → (x ∈ cur ∨ ∃ r ∈ A, x = target (key r)) → x ∈ (A.map Cmd.add).foldl exec cur) := by
  induction A with
  | nil => intro cur x; simp
  | cons r A ih =>
    intro cur x
    obtain ⟨h1, h2⟩ := ih (exec cur (.add r)) x
    obtain ⟨a1, a2⟩ := add_mem cur r x
    simp only [List.map_cons, List.foldl_cons]
    refine ⟨fun q => ?_, fun hm q => h2 hm ?_⟩
    · rcases h1 q with q | ⟨r', hr, q⟩
      · rcases a1 q with q | q
        · exact Or.inl q
        · exact Or.inr ⟨r, by simp, q⟩
      · exact Or.inr ⟨r', by simp [hr], q⟩
    · rcases q with q | ⟨r', hr, q⟩
      · exact Or.inl (a2 hm (Or.inl q))
      · rcases List.mem_cons.mp hr with e | e
        · subst e; exact Or.inl (a2 hm (Or.inr q))
        · exact Or.inr ⟨r', e, q⟩

/-- The routes to be kept, and not. -/
def wanted (new : List Route) (k : Row) : Bool := k.metric = 99 ∨ k ∈ new.map key

def dels (old new : List Route) : List Route := old.filter fun o => o.metric ≠ 99 ∧ ¬ new.any fun n => Routes.eq n o
def adds (old new : List Route) : List Route := new.filter fun n => ¬ old.any fun o => Routes.eq o n

theorem any_iff (l : List Route) (o : Route) : (l.any fun n => Routes.eq n o) = true ↔ key o ∈ l.map key := by
  simp only [List.any_eq_true, eq_iff, List.mem_map]

theorem any_iff' (l : List Route) (o : Route) : (l.any fun n => Routes.eq o n) = true ↔ key o ∈ l.map key := by
  simp only [List.any_eq_true, eq_iff, List.mem_map]
  exact ⟨fun ⟨x, h, e⟩ => ⟨x, h, e.symm⟩, fun ⟨x, h, e⟩ => ⟨x, h, e.symm⟩⟩

theorem dels_key (old new : List Route) : (dels old new).map key = (old.map key).filter fun k => ! wanted new k := by
  rw [List.filter_map]
  unfold dels
  congr 1
  apply List.filter_congr
  intro o _
  have hm : (key o).metric = o.metric := rfl
  simp only [Function.comp, wanted, any_iff, hm]
  by_cases h1 : o.metric = 99 <;> by_cases h2 : key o ∈ new.map key <;> simp [h1, h2]

theorem phases (kernel : List Row) (old new : List Route) (hk : kernel.Nodup) (ho : (old.map key).Perm (kernel.map seen))
    (hd : ∀ k ∈ kernel, k.table = defaultTable → k.mask.a = 0) (D1 D2 : List Route) (e : dels old new = D1 ++ D2) :
    ∃ S, ((D1.map Cmd.del).foldl exec kernel).Perm (kernel.filter (fun x => wanted new (seen x)) ++ S) ∧ (S.map seen).Perm (D2.map key) := by
  refine del_phase (kernel.filter fun x => wanted new (seen x)) D2 D1 kernel (kernel.filter fun x => ! wanted new (seen x)) ?_ hk ?_ ?_ ?_
  · exact (List.filter_append_perm _ _).symm
  · rw [← e, dels_key]
    have := ho.filter (fun k => ! wanted new k)
    refine List.Perm.trans ?_ this.symm
    rw [List.filter_map]; exact List.Perm.refl _
  · intro k hk' q
    rw [← e, dels_key] at q
    have := (List.mem_filter.mp q).2
    have := (List.mem_filter.mp hk').2
    simp_all
  · intro k hk'
    exact hd k (List.mem_filter.mp hk').1

theorem split_words (s : List Byte) (h : s.head?.all blanks.contains = false) (w : List (List Byte)) (hw : Spec.Split.words blanks.contains s = w) :
    ∃ t, Split.split blanks 0 s = w ++ t ∧ (t = [] ∨ t = [[]]) := by
  rw [C35_split_words, h, hw]
  simp only [Bool.false_eq_true, if_false, List.nil_append]
  split
  · exact ⟨_, rfl, Or.inr rfl⟩
  · exact ⟨_, rfl, Or.inl rfl⟩

theorem hex_digits (t : List Byte) (n : Nat) (h : Spec.IntText.Digits 16 t n) (hne : t ≠ []) (hl : t.length ≤ 8) (hn : n < 2 ^ 32) : hex t = n := by
  have := Uid.strtoul_digits t [] n h hne hl (by intro c r e; cases e)
  rw [List.append_nil] at this
  unfold hex
  rw [this]
  exact Nat.mod_eq_of_lt hn

theorem ofMem_memory (x : Addr) : Addr.ofMem (memory x) = x ∧ memory x < 2 ^ 32 := by
  obtain ⟨a, b, c, d⟩ := x
  have ha := a.toBitVec.isLt
  have hb := b.toBitVec.isLt
  have hc := c.toBitVec.isLt
  have hd := d.toBitVec.isLt
  have e : ∀ (y : Byte) (n : Nat), n % 256 = y.toNat → UInt8.ofNat n = y := by
    intro y n h
    apply UInt8.toNat_inj.mp
    rw [UInt8.toNat_ofNat']
    exact h
  refine ⟨?_, ?_⟩
  · simp only [Addr.ofMem, memory, Serialize.mem, List.getD_cons_zero, List.getD_cons_succ]
    congr 1 <;> apply e <;> simp only [UInt8.toNat] <;> omega
  · simp only [memory, UInt8.toNat]; omega

/-- A variable after the loop over the pairs. -/
theorem pairs_spec (ps : List (List Byte × List Byte)) (hl : ∀ p ∈ ps, p ≠ (str ['t', 'a', 'b', 'l', 'e'], str ['l', 'o', 'c', 'a', 'l']))
    (tail : List (List Byte)) (ht : tail.length < 2) : ∀ (v : Vars) (m : List Byte → Int), (∀ p ∈ ps, p.1 = str ['m', 'e', 't', 'r', 'i', 'c'] → Num.num p.2 = some (m p.2)) →
    pairs v (ps.flatMap (fun p => [p.1, p.2]) ++ tail) = some ⟨(last (str ['d', 'e', 'v']) ps).getD v.ifc, (last (str ['v', 'i', 'a']) ps).getD v.gate,
      (last (str ['t', 'a', 'b', 'l', 'e']) ps).getD v.table, ((last (str ['m', 'e', 't', 'r', 'i', 'c']) ps).map m).getD v.metric, (last (str ['s', 'r', 'c']) ps).getD v.src⟩ := by
  induction ps with
  | nil =>
    intro v m _
    match tail, ht with
    | [], _ => rfl
    | [a], _ => rfl
  | cons p ps ih =>
    intro v m hm
    obtain ⟨w1, w2⟩ := p
    have ih' := ih (fun p hp => hl p (by simp [hp]))
    have hlast : ∀ k, last k ((w1, w2) :: ps) = (last k ps).or (if w1 = k then some w2 else none) := by
      intro k
      simp only [last, List.reverse_cons, List.find?_append]
      cases hf : ps.reverse.find? (fun x => decide (x.1 = k)) with
      | some x => simp
      | none => by_cases h : w1 = k <;> simp [h]
    simp only [List.flatMap_cons, List.cons_append, List.nil_append, pairs, hlast]
    have hmm : ∀ p ∈ ps, p.1 = str ['m', 'e', 't', 'r', 'i', 'c'] → Num.num p.2 = some (m p.2) := fun p hp => hm p (by simp [hp])
    split
    · rename_i h1
      subst h1
      rw [if_neg (by intro q; exact hl (str ['t', 'a', 'b', 'l', 'e'], w2) (by simp) (by rw [q])), ih' _ m hmm]
      simp only [show str ['t', 'a', 'b', 'l', 'e'] ≠ str ['d', 'e', 'v'] by decide, show str ['t', 'a', 'b', 'l', 'e'] ≠ str ['v', 'i', 'a'] by decide,
        show str ['t', 'a', 'b', 'l', 'e'] ≠ str ['m', 'e', 't', 'r', 'i', 'c'] by decide, show str ['t', 'a', 'b', 'l', 'e'] ≠ str ['s', 'r', 'c'] by decide, if_true, if_false, Option.or_none]
      congr 2
      cases last (str ['t', 'a', 'b', 'l', 'e']) ps <;> rfl
    · rename_i n1
      split
      · rename_i h1
        subst h1
        rw [ih' _ m hmm]
        simp only [show str ['d', 'e', 'v'] ≠ str ['t', 'a', 'b', 'l', 'e'] by decide, show str ['d', 'e', 'v'] ≠ str ['v', 'i', 'a'] by decide,
          show str ['d', 'e', 'v'] ≠ str ['m', 'e', 't', 'r', 'i', 'c'] by decide, show str ['d', 'e', 'v'] ≠ str ['s', 'r', 'c'] by decide, if_true, if_false, Option.or_none]
        congr 2
        cases last (str ['d', 'e', 'v']) ps <;> rfl
      · rename_i n2
        split
        · rename_i h1
          subst h1
          rw [ih' _ m hmm]
          simp only [n1, n2, show str ['v', 'i', 'a'] ≠ str ['m', 'e', 't', 'r', 'i', 'c'] by decide, show str ['v', 'i', 'a'] ≠ str ['s', 'r', 'c'] by decide, if_true, if_false, Option.or_none]
          congr 2
          cases last (str ['v', 'i', 'a']) ps <;> rfl
        · rename_i n3
          split
          · rename_i h1
            rw [show Num.num w2 = some (m w2) from hm (w1, w2) (by simp) h1]
            simp only [Option.bind_some]
            rw [ih' _ m hmm]
            subst h1
            simp only [n1, n2, n3, show str ['m', 'e', 't', 'r', 'i', 'c'] ≠ str ['s', 'r', 'c'] by decide, if_true, if_false, Option.or_none]
            congr 2
            cases last (str ['m', 'e', 't', 'r', 'i', 'c']) ps <;> rfl
          · rename_i n4
            split
            · rename_i h1
              subst h1
              rw [ih' _ m hmm]
              simp only [n1, n2, n3, n4, if_true, if_false, Option.or_none]
              congr 2
              cases last (str ['s', 'r', 'c']) ps <;> rfl
            · rename_i n5
              rw [ih' _ m hmm]
              simp only [n1, n2, n3, n4, n5, if_false, Option.or_none]

end RtP
open RtP

/-- C107, partial: setting the kernel's routes makes them those of the list; manual ones, with metric 99, stay. `old` is what was read from the kernel. Missing: see below. -/
theorem C107_set_partial (kernel : List Row) (old new : List Route) (hk : kernel.Nodup) (ho : (old.map key).Perm (kernel.map seen))
    (hd : ∀ k ∈ kernel, k.table = defaultTable → k.mask.a = 0) (h255 : ∀ k ∈ kernel, k.metric ≠ 255)
    (hn : ∀ r ∈ new, r.table ≠ mainTable ∧ r.metric ≠ 255) (k : Row) :
    k ∈ ((setKernel old new).foldl exec kernel).map seen ↔ k ∈ new.map key ∨ (k ∈ kernel.map seen ∧ k.metric = 99) := by
  have e : setKernel old new = (dels old new).map .del ++ (adds old new).map .add := rfl
  rw [e, List.foldl_append]
  obtain ⟨S, h1, h2⟩ := phases kernel old new hk ho hd (dels old new) [] (by simp)
  have hS : S = [] := by
    have := h2.length_eq
    simp at this
    exact this
  subst hS
  simp only [List.append_nil] at h1
  generalize ((dels old new).map Cmd.del).foldl exec kernel = mid at h1
  have hmid : ∀ x, x ∈ mid ↔ x ∈ kernel ∧ (x.metric = 99 ∨ seen x ∈ new.map key) := by
    intro x
    rw [h1.mem_iff, List.mem_filter]
    simp only [wanted, seen_metric, decide_eq_true_eq]
  constructor
  · intro q
    obtain ⟨x, hx, rfl⟩ := List.mem_map.mp q
    rcases (add_phase _ mid x).1 hx with hx | ⟨r, hr, hx⟩
    · obtain ⟨a, b⟩ := (hmid x).mp hx
      rcases b with b | b
      · exact Or.inr ⟨List.mem_map_of_mem a, by rw [seen_metric]; exact b⟩
      · exact Or.inl b
    · have hr' := (List.mem_filter.mp hr).1
      rw [hx, seen_target _ (hn r hr').1]
      exact Or.inl (List.mem_map_of_mem hr')
  · rintro (q | ⟨q, hm⟩)
    · obtain ⟨r, hr, rfl⟩ := List.mem_map.mp q
      by_cases ha : key r ∈ old.map key
      · obtain ⟨x, hx, ex⟩ := List.mem_map.mp (ho.mem_iff.mp ha)
        rw [← ex]
        exact List.mem_map_of_mem ((add_phase _ mid x).2 (h255 x hx) (Or.inl ((hmid x).mpr ⟨hx, Or.inr (by rw [ex]; exact q)⟩)))
      · have hr2 : r ∈ adds old new := by
          refine List.mem_filter.mpr ⟨hr, ?_⟩
          simp only [any_iff, ha, not_false_eq_true, decide_true]
        have := (add_phase (adds old new) mid (target (key r))).2 (hn r hr).2 (Or.inr ⟨r, hr2, rfl⟩)
        exact List.mem_map.mpr ⟨_, this, seen_target _ (hn r hr).1⟩
    · obtain ⟨x, hx, rfl⟩ := List.mem_map.mp q
      rw [seen_metric] at hm
      exact List.mem_map_of_mem ((add_phase _ mid x).2 (h255 x hx) (Or.inl ((hmid x).mpr ⟨hx, Or.inl hm⟩)))

/-- C107, partial: at no time while this is done is a route gone that was there and is wanted. -/
theorem C107_untouched_partial (kernel : List Row) (old new : List Route) (hk : kernel.Nodup) (ho : (old.map key).Perm (kernel.map seen))
    (hd : ∀ k ∈ kernel, k.table = defaultTable → k.mask.a = 0) (k : Row) (hm : k ∈ kernel) (h255 : k.metric ≠ 255)
    (hw : seen k ∈ new.map key ∨ k.metric = 99) (pre : List Cmd) (hp : pre <+: setKernel old new) : k ∈ pre.foldl exec kernel := by
  have e : setKernel old new = (dels old new).map .del ++ (adds old new).map .add := rfl
  have hkeep : k ∈ kernel.filter (fun x => wanted new (seen x)) := by
    refine List.mem_filter.mpr ⟨hm, ?_⟩
    simp only [wanted, seen_metric, decide_eq_true_eq]
    exact hw.symm
  obtain ⟨post, hp⟩ := hp
  rw [e] at hp
  rcases List.append_eq_append_iff.mp hp with ⟨a', h1, h2⟩ | ⟨c', h1, h2⟩
  · obtain ⟨D1, D2, e1, e2, e3⟩ := List.map_eq_append_iff.mp h1
    obtain ⟨S, q1, _⟩ := phases kernel old new hk ho hd D1 D2 e1
    rw [← e2]
    exact q1.mem_iff.mpr (List.mem_append_left _ hkeep)
  · obtain ⟨A1, A2, e1, e2, e3⟩ := List.map_eq_append_iff.mp h2
    rw [h1, List.foldl_append, ← e2]
    obtain ⟨S, q1, _⟩ := phases kernel old new hk ho hd (dels old new) [] (by simp)
    exact (add_phase A1 _ k).2 h255 (Or.inl (q1.mem_iff.mpr (List.mem_append_left _ hkeep)))

/-- C107: if the routes are as wanted, manual ones aside, nothing is done. -/
theorem C107_nothing (old new : List Route) (h : ∀ k, k ∈ old.map key ↔ k ∈ new.map key ∨ (k ∈ old.map key ∧ k.metric = 99)) : setKernel old new = [] := by
  have e : setKernel old new = (dels old new).map .del ++ (adds old new).map .add := rfl
  rw [e]
  have h1 : dels old new = [] := by
    unfold dels
    rw [List.filter_eq_nil_iff]
    intro o ho
    simp only [any_iff, decide_eq_true_eq]
    intro ⟨a, b⟩
    rcases (h (key o)).mp (List.mem_map_of_mem ho) with q | q
    · exact b q
    · exact a q.2
  have h2 : adds old new = [] := by
    unfold adds
    rw [List.filter_eq_nil_iff]
    intro n hn
    simp only [any_iff, decide_eq_true_eq, Classical.not_not]
    exact (h (key n)).mpr (Or.inl (List.mem_map_of_mem hn))
  rw [h1, h2]; rfl

/-- C107, partial: so a second time nothing is done. -/
theorem C107_again_partial (kernel : List Row) (old old' new : List Route) (hk : kernel.Nodup) (ho : (old.map key).Perm (kernel.map seen))
    (hd : ∀ k ∈ kernel, k.table = defaultTable → k.mask.a = 0) (h255 : ∀ k ∈ kernel, k.metric ≠ 255)
    (hn : ∀ r ∈ new, r.table ≠ mainTable ∧ r.metric ≠ 255) (ho' : (old'.map key).Perm (((setKernel old new).foldl exec kernel).map seen)) :
    setKernel old' new = [] := by
  apply C107_nothing
  intro k
  rw [ho'.mem_iff, C107_set_partial kernel old new hk ho hd h255 hn]
  constructor
  · rintro (q | q)
    · exact Or.inl q
    · exact Or.inr ⟨Or.inr q, q.2⟩
  · rintro (q | q)
    · exact Or.inl q
    · exact q.1

/-- C107: finding gives the first route whose network has the address; none if none has it. -/
theorem C107_find (l : List Route) (a : Addr) :
    (∀ r, find l a = some r → On a r.ip ∧ ∃ pre post, l = pre ++ r :: post ∧ ∀ s ∈ pre, ¬ On a s.ip) ∧ (find l a = none → ∀ s ∈ l, ¬ On a s.ip) := by
  have hi : ∀ s : Route, Addr.includes s.ip ⟨a, ⟨255, 255, 255, 255⟩⟩ = true ↔ On a s.ip := by
    intro s
    rw [C39_includes]
    constructor
    · intro h; exact h a (fun i _ => rfl)
    · intro h b hb
      have : Spec.Addr.bits b = Spec.Addr.bits a := by
        apply BitVec.eq_of_getMsbD_eq
        intro i hi
        have hone : ∀ i : Fin 32, (Spec.Addr.bits ⟨255, 255, 255, 255⟩).getMsbD i.val = true := by decide +kernel
        exact hb i (hone ⟨i, hi⟩)
      intro i hm
      rw [this]; exact h i hm
  refine ⟨fun r h => ?_, fun h s hs q => ?_⟩
  · obtain ⟨h1, pre, post, h2, h3⟩ := List.find?_eq_some_iff_append.mp h
    refine ⟨(hi r).mp h1, pre, post, h2, fun s hs q => ?_⟩
    have := h3 s hs
    rw [(hi s).mpr q] at this
    simp at this
  · have := List.find?_eq_none.mp h s hs
    exact this ((hi s).mpr q)

/-- C107: a line of /proc/net/route, with addresses in hexadecimal as they are in memory, is read as the route it stands for; a route that is not up (flag 1) is left out. -/
theorem C107_proc (s ifc a g fl x y mk : List Byte) (rest : List (List Byte)) (net mask gw : Addr) (flags : Nat) (metric : Int)
    (hs : s.head?.all [32, 9, 13, 10].contains = false)
    (hw : Spec.Split.words [32, 9, 13, 10].contains s = [ifc, a, g, fl, x, y, Spec.Num.decimal metric, mk] ++ rest) (hr : 2 ≤ rest.length)
    (ha : Spec.IntText.Digits 16 a (memory net) ∧ a.length = 8) (hg : Spec.IntText.Digits 16 g (memory gw) ∧ g.length = 8)
    (hmk : Spec.IntText.Digits 16 mk (memory mask) ∧ mk.length = 8) (hf : Spec.IntText.Digits 16 fl flags ∧ fl.length = 4 ∧ flags < 65536) (hm : Num.inRange 32 metric) :
    procRoute s = some (if flags % 2 = 1 then some ⟨ifc, ⟨net, mask⟩, gw, metric, defaultTable, ⟨0, 0, 0, 0⟩⟩ else none) := by
  obtain ⟨t, h1, _⟩ := split_words s hs _ hw
  have hne : ∀ (l : List Byte) (n : Nat), l.length = n + 1 → l ≠ [] := by intro l n h q; subst q; simp at h
  unfold procRoute
  rw [h1]
  match rest, hr with
  | u :: v :: rest, _ =>
    simp only [List.cons_append, List.nil_append]
    rw [C32_num metric hm, hex_digits a _ ha.1 (hne _ _ ha.2) (by omega) (ofMem_memory net).2, hex_digits g _ hg.1 (hne _ _ hg.2) (by omega) (ofMem_memory gw).2,
      hex_digits mk _ hmk.1 (hne _ _ hmk.2) (by omega) (ofMem_memory mask).2, hex_digits fl _ hf.1 (hne _ _ hf.2.1) (by omega) (by omega)]
    simp only [Option.map_some, (ofMem_memory _).1]
    by_cases h : flags % 2 = 1
    · rw [if_neg (by omega), if_pos h]; rfl
    · rw [if_pos (by omega), if_neg h]

/-- C107, partial: a line of `ip route list table all`, a destination and key words with their values, is read as the route it stands for, if no line before had a source. Lines
    without a table (those of the main table) are left out. -/
theorem C107_ip_partial (s w : List Byte) (ps : List (List Byte × List Byte)) (tail : List (List Byte)) (n : Net) (m : List Byte → Int)
    (hs : s.head?.all [32, 9, 13, 10].contains = false) (he : s.getLast?.any [32, 9, 13, 10].contains = false)
    (hw : Spec.Split.words [32, 9, 13, 10].contains s = w :: ps.flatMap (fun p => [p.1, p.2]) ++ tail) (hp : ps ≠ []) (ht : tail.length < 2)
    (hwb : w ≠ str ['b', 'r', 'o', 'a', 'd', 'c', 'a', 's', 't'] ∧ w ≠ str ['l', 'o', 'c', 'a', 'l'])
    (hnet : (w = str ['d', 'e', 'f', 'a', 'u', 'l', 't'] ∧ n = ⟨⟨0, 0, 0, 0⟩, ⟨0, 0, 0, 0⟩⟩) ∨ (w ≠ str ['d', 'e', 'f', 'a', 'u', 'l', 't'] ∧ Addr.netParse w = some n))
    (hl : ∀ p ∈ ps, p ≠ (str ['t', 'a', 'b', 'l', 'e'], str ['l', 'o', 'c', 'a', 'l']))
    (hm : ∀ p ∈ ps, p.1 = str ['m', 'e', 't', 'r', 'i', 'c'] → Num.num p.2 = some (m p.2)) :
    (ipRoute [] s).map (·.2) = some (
      match last (str ['t', 'a', 'b', 'l', 'e']) ps, last (str ['d', 'e', 'v']) ps with
      | some table, some dev => some ⟨dev, n, ((last (str ['v', 'i', 'a']) ps).map Addr.parse).getD ⟨0, 0, 0, 0⟩, ((last (str ['m', 'e', 't', 'r', 'i', 'c']) ps).map m).getD 0, table,
          ((last (str ['s', 'r', 'c']) ps).map Addr.parse).getD ⟨0, 0, 0, 0⟩⟩
      | _, _ => none) := by
  have h1 : Split.split blanks 0 s = w :: ps.flatMap (fun p => [p.1, p.2]) ++ tail := by
    rw [C35_split_words]
    have e1 : s.head?.all blanks.contains = false := hs
    have e2 : s.getLast?.any blanks.contains = false := he
    have e3 : Spec.Split.words blanks.contains s = _ := hw
    rw [e1, e2, e3]; simp
  have hne : ∀ k v, last k ps = some v → v ≠ [] := by
    intro k v h
    simp only [last, Option.map_eq_some_iff] at h
    obtain ⟨p, h2, rfl⟩ := h
    have hp' := List.mem_reverse.mp (List.mem_of_find?_eq_some h2)
    have : p.2 ∈ Spec.Split.words [32, 9, 13, 10].contains s := by
      rw [hw]
      exact List.mem_append_left _ (List.mem_cons_of_mem _ (List.mem_flatMap.mpr ⟨p, hp', by simp⟩))
    have := (List.mem_filter.mp this).2
    simpa using this
  unfold ipRoute
  rw [h1]
  simp only [List.cons_append]
  have hlen : ¬ (ps.flatMap (fun p => [p.1, p.2]) ++ tail).length < 2 := by
    cases ps with
    | nil => exact absurd rfl hp
    | cons p ps => simp only [List.flatMap_cons, List.length_append, List.length_cons, List.length_nil]; omega
  have hz : Addr.netParse (str ['0', '/', '0']) = some ⟨⟨0, 0, 0, 0⟩, ⟨0, 0, 0, 0⟩⟩ := by decide +kernel
  have hpn : Addr.netParse (if w = defaultTable then str ['0', '/', '0'] else w) = some n := by
    rcases hnet with ⟨q1, q2⟩ | ⟨q1, q2⟩
    · rw [if_pos (show w = defaultTable from q1), q2]; exact hz
    · rw [if_neg (show ¬ w = defaultTable from q1)]; exact q2
  rw [if_neg hlen, if_neg (by exact fun q => q.elim hwb.1 hwb.2), hpn]
  simp only [Option.bind_some]
  rw [pairs_spec ps hl tail ht _ m hm]
  simp only [Option.map_some, Option.map_map]
  cases ht' : last (str ['t', 'a', 'b', 'l', 'e']) ps with
  | none => simp
  | some table =>
    cases hd' : last (str ['d', 'e', 'v']) ps with
    | none => simp [hne _ _ ht']
    | some dev =>
      simp only [Option.getD_some, hne _ _ ht', hne _ _ hd', if_false]
      cases hv' : last (str ['v', 'i', 'a']) ps with
      | none =>
        cases hs' : last (str ['s', 'r', 'c']) ps with
        | none => rfl
        | some v => simp [hne _ _ hs', zero]
      | some g =>
        cases hs' : last (str ['s', 'r', 'c']) ps with
        | none => simp [hne _ _ hv', zero]
        | some v => simp [hne _ _ hs', hne _ _ hv']

/-- `10.0.0.0/8 dev a table 5 src 1.2.3.4`, `11.0.0.0/8 dev b table 5`. -/
def rtLine1 : List Byte := str ['1', '0', '.', '0', '.', '0', '.', '0', '/', '8', ' ', 'd', 'e', 'v', ' ', 'a', ' ', 't', 'a', 'b', 'l', 'e', ' ', '5', ' ', 's', 'r', 'c', ' ', '1', '.', '2', '.', '3', '.', '4']
def rtLine2 : List Byte := str ['1', '1', '.', '0', '.', '0', '.', '0', '/', '8', ' ', 'd', 'e', 'v', ' ', 'b', ' ', 't', 'a', 'b', 'l', 'e', ' ', '5']

/-- C107: a route without a source gets that of a line before. -/
theorem C107_src_fails :
    (getKernel [] [rtLine1, rtLine2]).map (·.map fun r => (r.ifc, r.src)) = some [(str ['a'], ⟨1, 2, 3, 4⟩), (str ['b'], ⟨1, 2, 3, 4⟩)] ∧
    (getKernel [] [rtLine2]).map (·.map fun r => (r.ifc, r.src)) = some [(str ['b'], ⟨0, 0, 0, 0⟩)] := by
  refine ⟨?_, ?_⟩ <;> decide +kernel

def rtNet8 : Net := ⟨⟨10, 0, 0, 0⟩, ⟨255, 0, 0, 0⟩⟩
def rtNet16 : Net := ⟨⟨10, 1, 0, 0⟩, ⟨255, 255, 0, 0⟩⟩

/-- C107: the route that is found need not be the most specific one, which the kernel takes. -/
theorem C107_find_fails :
    let l : List Route := [⟨str ['a'], rtNet8, ⟨0, 0, 0, 0⟩, 0, defaultTable, ⟨0, 0, 0, 0⟩⟩, ⟨str ['b'], rtNet16, ⟨0, 0, 0, 0⟩, 0, defaultTable, ⟨0, 0, 0, 0⟩⟩]
    (find l ⟨10, 1, 2, 3⟩).map (·.ifc) = some (str ['a']) ∧ Addr.includes rtNet8 rtNet16 = true ∧ Addr.includes rtNet16 ⟨⟨10, 1, 2, 3⟩, ⟨255, 255, 255, 255⟩⟩ = true := by
  refine ⟨?_, ?_, ?_⟩ <;> decide +kernel

/-- C107: a route that differs only in its source is left as it is. -/
theorem C107_newsrc_fails :
    setKernel [⟨str ['a'], rtNet8, ⟨0, 0, 0, 0⟩, 0, defaultTable, ⟨1, 1, 1, 1⟩⟩] [⟨str ['a'], rtNet8, ⟨0, 0, 0, 0⟩, 0, defaultTable, ⟨2, 2, 2, 2⟩⟩] = [] := by decide +kernel

/-- C107: a route of the kernel's table "default" that is not a default route is not deleted. -/
theorem C107_table_fails :
    let kernel : List Row := [⟨str ['a'], ⟨10, 0, 0, 0⟩, ⟨255, 0, 0, 0⟩, ⟨0, 0, 0, 0⟩, 0, defaultTable⟩]
    let old : List Route := [⟨str ['a'], rtNet8, ⟨0, 0, 0, 0⟩, 0, defaultTable, ⟨0, 0, 0, 0⟩⟩]
    old.map key = kernel.map seen ∧ (setKernel old []).foldl exec kernel = kernel := by
  refine ⟨?_, ?_⟩ <;> decide +kernel

/-- C107: a route of the list with table "main" is deleted and added each time. -/
theorem C107_main_fails :
    let kernel : List Row := [⟨str ['a'], ⟨10, 0, 0, 0⟩, ⟨255, 0, 0, 0⟩, ⟨0, 0, 0, 0⟩, 0, mainTable⟩]
    let old : List Route := [⟨str ['a'], rtNet8, ⟨0, 0, 0, 0⟩, 0, defaultTable, ⟨0, 0, 0, 0⟩⟩]
    let new : List Route := [⟨str ['a'], rtNet8, ⟨0, 0, 0, 0⟩, 0, mainTable, ⟨0, 0, 0, 0⟩⟩]
    old.map key = kernel.map seen ∧ (setKernel old new).length = 2 ∧ (setKernel old new).foldl exec kernel = kernel ∧ (setKernel old new).take 1 = old.map .del := by
  refine ⟨?_, ?_, ?_, ?_⟩ <;> decide +kernel

/-- C107: a wanted route with metric 255 to a gateway is lost when a route with that gateway is added. -/
theorem C107_metric_fails :
    let host : Route := ⟨str ['a'], ⟨⟨9, 9, 9, 9⟩, ⟨255, 255, 255, 255⟩⟩, ⟨0, 0, 0, 0⟩, 255, defaultTable, ⟨0, 0, 0, 0⟩⟩
    let new : List Route := [host, ⟨str ['a'], rtNet8, ⟨9, 9, 9, 9⟩, 0, defaultTable, ⟨0, 0, 0, 0⟩⟩]
    (setKernel [] new).foldl exec [] = [⟨str ['a'], ⟨10, 0, 0, 0⟩, ⟨255, 0, 0, 0⟩, ⟨9, 9, 9, 9⟩, 0, mainTable⟩] := by decide +kernel

/-- Three routes, one of them manual, and what they become. -/
example :
    let kernel : List Row := [⟨str ['a'], ⟨0, 0, 0, 0⟩, ⟨0, 0, 0, 0⟩, ⟨9, 9, 9, 9⟩, 0, mainTable⟩, ⟨str ['a'], ⟨10, 0, 0, 0⟩, ⟨255, 0, 0, 0⟩, ⟨0, 0, 0, 0⟩, 99, mainTable⟩,
      ⟨str ['b'], ⟨10, 1, 0, 0⟩, ⟨255, 255, 0, 0⟩, ⟨0, 0, 0, 0⟩, 1, str ['5']⟩]
    let old : List Route := [⟨str ['a'], ⟨⟨0, 0, 0, 0⟩, ⟨0, 0, 0, 0⟩⟩, ⟨9, 9, 9, 9⟩, 0, defaultTable, ⟨0, 0, 0, 0⟩⟩, ⟨str ['a'], rtNet8, ⟨0, 0, 0, 0⟩, 99, defaultTable, ⟨0, 0, 0, 0⟩⟩,
      ⟨str ['b'], rtNet16, ⟨0, 0, 0, 0⟩, 1, str ['5'], ⟨0, 0, 0, 0⟩⟩]
    let new : List Route := [⟨str ['a'], ⟨⟨0, 0, 0, 0⟩, ⟨0, 0, 0, 0⟩⟩, ⟨8, 8, 8, 8⟩, 0, defaultTable, ⟨0, 0, 0, 0⟩⟩, ⟨str ['b'], rtNet16, ⟨0, 0, 0, 0⟩, 1, str ['5'], ⟨0, 0, 0, 0⟩⟩]
    old.map key = kernel.map seen ∧ kernel.Nodup ∧ (setKernel old new).foldl exec kernel = [⟨str ['a'], ⟨10, 0, 0, 0⟩, ⟨255, 0, 0, 0⟩, ⟨0, 0, 0, 0⟩, 99, mainTable⟩,
      ⟨str ['b'], ⟨10, 1, 0, 0⟩, ⟨255, 255, 0, 0⟩, ⟨0, 0, 0, 0⟩, 1, str ['5']⟩, ⟨str ['a'], ⟨0, 0, 0, 0⟩, ⟨0, 0, 0, 0⟩, ⟨8, 8, 8, 8⟩, 0, defaultTable⟩] := by
  refine ⟨?_, ?_, ?_⟩ <;> decide +kernel

/-- A line of /proc/net/route. -/
example : procRoute (str ['e', 't', 'h', '0', '\t', '0', '0', '0', '0', '0', '0', '0', 'A', '\t', '0', '1', '0', '2', '0', '3', '0', '4', '\t', '0', '0', '0', '3', '\t', '0', '\t', '0', '\t', '7', '\t',
      '0', '0', '0', '0', '0', '0', 'F', 'F', '\t', '0', '\t', '0', '\t', '0', ' ', ' ']) =
    some (some ⟨str ['e', 't', 'h', '0'], rtNet8, ⟨4, 3, 2, 1⟩, 7, defaultTable, ⟨0, 0, 0, 0⟩⟩) := by decide +kernel

end Props
