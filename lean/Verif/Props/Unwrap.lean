import Verif.Model.Unwrap
import Verif.Lemmas.Notify
import Verif.Props.FilterGen
/- C110: a handle of a configuration as a generator, and the configuration of an application. -/
namespace Props
open Wv Wv.Unwrap Spec.Conf Gens
open Wv.Key (fold Names)
open Wv.TempGen (place_eq)

namespace UwP

theorem sub_key (base k : Text) : sub (Key.parse base) (Key.parse k) = Key.parse (if Spec.Path.names k = [] then base else base ++ Spec.Path.slash :: k) := by
  have := subtree_key base k
  unfold IGen.subtreeKeymap at this
  unfold sub
  split at this <;> simp_all

theorem sub_place (base k : Text) : place (if Spec.Path.names k = [] then base else base ++ Spec.Path.slash :: k) = place base ++ place k := by
  by_cases hk : Spec.Path.names k = []
  · simp [hk, place]
  · rw [if_neg hk, place_append]

theorem sub_dir (base k : Text) (hd : Spec.Path.dir base = false) :
    Spec.Path.dir (if Spec.Path.names k = [] then base else base ++ Spec.Path.slash :: k) = Spec.Path.dir k := by
  by_cases hk : Spec.Path.names k = []
  · rw [if_pos hk, hd]; simp [Spec.Path.dir, hk]
  · rw [if_neg hk, dir_append _ _ hk]

theorem name_ok (n : Seg) (h : n ≠ [] ∧ Spec.Path.slash ∉ n) : Key.parse n = [n] ∧ Spec.Path.dir n = false ∧ place n = fold [n] := by
  have h1 := Key.names_one n h
  have h2 : Spec.Path.dir n = false := by
    simp only [Spec.Path.dir, h1]
    rcases hl : n.getLast? with _ | c
    · simp
    · have := List.mem_of_getLast? hl
      have : c ≠ Spec.Path.slash := by rintro rfl; exact h.2 this
      simp [this]
  refine ⟨by rw [Key.parse_eq, h1, h2]; rfl, h2, ?_⟩
  rw [place_eq, h1]

/-- What an iterator over a handle is at. -/
theorem visit_eq {σ : Type} (I : IGen σ) (s : σ) (m : Spec.Conf.State) (h : Reads I s m) (t : Text) (n : Seg) (hn : n ≠ [] ∧ Spec.Path.slash ∉ n) (v : Option TempGen.Value) :
    visit I s (Key.parse t) ([n], v) = ([n], m (place t ++ fold [n])) := by
  obtain ⟨h1, h2, h3⟩ := name_ok n hn
  unfold visit
  have hk : Key.join (Key.parse t) [n] = Key.parse (t ++ Spec.Path.slash :: n) := by rw [← h1, C19_join_text]
  dsimp only
  rw [hk, h.get]
  have hnn : Spec.Path.names n ≠ [] := by rw [Key.names_one n hn]; simp
  have hd : Spec.Path.dir (t ++ Spec.Path.slash :: n) = false := by rw [dir_append _ _ hnn, h2]
  congr 1
  · unfold Key.last
    rw [Key.parse_eq, hd, Key.names_append, Key.names_one n hn]
    rw [Key.range_mk _ _ ((Key.names_ok t).append (by intro x hx; rw [List.mem_singleton.1 hx]; exact hn)) (by simp)]
    simp [Key.mk, Key.numsegments, List.take_of_length_le]
  · rw [Spec.Conf.get, hd, if_neg (by simp), place_append, h3]

end UwP

/-- C110: the generator made of a handle behaves as a configuration: the part that is below the handle. Nothing else is changed, whatever is
    called except `setv`. The key of the handle has no slash at its end. -/
theorem C110_view_partial {σ : Type} (I : IGen σ) (Rep : σ → Spec.Conf.State → Prop) (hI : Behaves I Rep) (base : Text)
    (hd : Spec.Path.dir base = false) (m0 : Spec.Conf.State) :
    Behaves (gen I (Key.parse base)) fun s m => ∃ M, Rep s M ∧ m = under (place base) M ∧ Outside (place base) m0 M := by
  have hget : ∀ M k, Spec.Conf.get M (if Spec.Path.names k = [] then base else base ++ Spec.Path.slash :: k) = Spec.Conf.get (under (place base) M) k := by
    intro M k; simp only [Spec.Conf.get, UwP.sub_dir base k hd, UwP.sub_place, under]
  constructor
  · rintro s m ⟨M, hM, rfl, _⟩
    have h := hI.reads s M hM
    constructor
    · intro k
      show I.get s (sub _ _) = _
      rw [UwP.sub_key]
      exact (h.get _).trans (hget M k)
    · intro k
      show I.exists s (sub _ _) = _ ↔ _
      rw [UwP.sub_key, ← hget]
      exact h.exists_ _
    · intro k
      show I.haschildren s (sub _ _) = _ ↔ _
      rw [UwP.sub_key]
      have := h.haschildren (if Spec.Path.names k = [] then base else base ++ Spec.Path.slash :: k)
      simp only [UwP.sub_place, List.append_assoc] at this
      exact this
    · intro k
      have e : (gen I (Key.parse base)).iterator s (Key.parse k) =
        some (((I.iterator s (sub (Key.parse base) (Key.parse k))).getD []).map (visit I s (sub (Key.parse base) (Key.parse k)))) := rfl
      rw [e, UwP.sub_key]
      have hit := h.iterator (if Spec.Path.names k = [] then base else base ++ Spec.Path.slash :: k)
      have hpl := UwP.sub_place base k
      obtain ⟨t, ht⟩ : ∃ t, t = (if Spec.Path.names k = [] then base else base ++ Spec.Path.slash :: k) := ⟨_, rfl⟩
      rw [← ht] at hit hpl ⊢
      cases hi : I.iterator s (Key.parse t) with
      | none =>
        rw [hi] at hit
        dsimp only at hit ⊢
        refine ⟨List.nodup_nil, by simp, fun n v => ?_⟩
        have := hit [n]
        rw [hpl] at this
        simp only [under, ← List.append_assoc, this]
        simp
      | some r =>
        rw [hi] at hit
        dsimp only [Option.getD] at hit ⊢
        obtain ⟨i1, i2, i3⟩ := hit
        have hv : ∀ x ∈ r, visit I s (Key.parse t) x = x := by
          intro x hx
          obtain ⟨⟨n, e1, e2⟩, e3⟩ := i2 x hx
          obtain ⟨k', v⟩ := x
          dsimp only at e1
          subst e1
          rw [UwP.visit_eq I s M h t n e2]
          cases v with
          | none => exact absurd rfl e3
          | some v =>
            congr 1
            have := (i3 (n.map tolower) v).2 ⟨_, hx, rfl, rfl⟩
            exact this
        have hr : r.map (visit I s (Key.parse t)) = r := by
          conv => rhs; rw [← List.map_id r]
          exact List.map_congr_left hv
        rw [hr]
        refine ⟨i1, i2, fun n v => ?_⟩
        have := i3 n v
        rw [hpl, List.append_assoc] at this
        exact this
  · rintro s m ⟨M, hM, rfl, ho⟩ k v
    refine ⟨Spec.Conf.set M (if Spec.Path.names k = [] then base else base ++ Spec.Path.slash :: k) v, ?_, ?_, ?_⟩
    · show Rep (I.set s (sub _ _) v) _
      rw [UwP.sub_key]
      exact hI.set s M hM _ v
    · by_cases hk : Spec.Path.names k = []
      · rw [if_pos hk, under_set_nil base hd k hk]
      · rw [if_neg hk, under_set base k hk]
    · exact outside_set _ _ _ _ (by rw [UwP.sub_place]; exact List.prefix_append _ _) v ho
  · rintro s m ⟨M, hM, h⟩; exact ⟨M, hI.commit s M hM, h⟩
  · rintro s m ⟨M, hM, h⟩; exact ⟨M, hI.refresh s M hM, h⟩
  · rintro s m ⟨M, hM, h⟩ k r
    exact ⟨M, hI.prefetch s M hM _ _, h⟩
  · rintro s m ⟨M, hM, h⟩; exact ⟨M, hM, h⟩

/-- The view of "A" in the sample: "x/y" is set, and all is read as it should be. -/
example : Reads (gen (IGen.temp List.reverse) (Key.parse (str ['A'])))
    ((gen (IGen.temp List.reverse) (Key.parse (str ['A']))).set sampleGen (Key.parse (str ['x', '/', 'y'])) (some (str ['7'])))
    (Spec.Conf.set (under (place (str ['A'])) (Temp.conf sampleCalls)) (str ['x', '/', 'y']) (some (str ['7']))) :=
  let B := C110_view_partial (IGen.temp List.reverse) Temp.Holds (temp_behaves _ List.reverse_perm) (str ['A']) (by decide +kernel)
    (Temp.conf sampleCalls)
  B.reads _ _ (B.set _ _ ⟨_, sampleGen_holds, rfl, fun _ _ => Or.inl rfl⟩ _ _)

example : (gen (IGen.temp id) [str ['a']]).get sampleGen (Key.parse (str ['c', '/', 'd'])) = some (str ['2']) ∧
    (gen (IGen.temp id) [str ['a']]).iterator sampleGen [] = some [([str ['C']], some [])] := by decide +kernel

/-- C110: when notifications tell of a change of the whole configuration, those that are passed on tell of the change of the part below the
    handle, and only that. -/
theorem C110_told (base : Text) (m m' : Spec.Conf.State) (d : List TempGen.Delta) (h : Props.Notify.Tells m m' d) :
    Props.Notify.Tells (under (place base) m) (under (place base) m') (d.filterMap (told (Key.parse base))) ∧
    ∀ x ∈ d, (told (Key.parse base) x).isSome = true ↔ place base <+: fold x.1 := by
  have hfb : fold (Spec.Path.names base) = place base := by rw [place_eq]
  have hk : ∀ x ∈ d, ∀ y, told (Key.parse base) x = some y ↔ place base <+: fold x.1 ∧ y = (x.1.drop (Spec.Path.names base).length, x.2) := by
    intro x hx y
    unfold told
    have hn := h.key x hx
    have hm : x.1 = Key.mk x.1 false := by simp [Key.mk]
    rw [Option.map_eq_some_iff, Key.parse_eq]
    constructor
    · rintro ⟨r, h1, rfl⟩
      rw [hm] at h1
      obtain ⟨a, b⟩ := (Key.suborsameKey_mk _ _ _ _ (Key.names_ok base) hn (Key.dir_names base) (by simp) r).1 h1
      rw [hfb] at a
      exact ⟨a, by rw [b]; simp [Key.mk]⟩
    · rintro ⟨a, rfl⟩
      refine ⟨x.1.drop (Spec.Path.names base).length, ?_, rfl⟩
      have := (Key.suborsameKey_mk (Spec.Path.names base) x.1 (Spec.Path.dir base) false (Key.names_ok base) hn (Key.dir_names base) (by simp)
        (x.1.drop (Spec.Path.names base).length)).2 ⟨by rw [hfb]; exact a, by simp [Key.mk]⟩
      simpa [Key.mk] using this
  have hpre : ∀ x : TempGen.Delta, place base <+: fold x.1 → place base ++ fold (x.1.drop (Spec.Path.names base).length) = fold x.1 := by
    intro x hp
    have : fold (x.1.drop (Spec.Path.names base).length) = (fold x.1).drop (place base).length := by
      rw [← hfb]; simp [fold, List.map_drop]
    rw [this]
    obtain ⟨t, ht⟩ := hp
    rw [← ht]; simp
  refine ⟨⟨?_, ?_, ?_⟩, ?_⟩
  · intro y hy
    obtain ⟨x, hx, e⟩ := List.mem_filterMap.1 hy
    obtain ⟨_, rfl⟩ := (hk x hx y).1 e
    exact (h.key x hx).drop _
  · intro y hy
    obtain ⟨x, hx, e⟩ := List.mem_filterMap.1 hy
    obtain ⟨hp, rfl⟩ := (hk x hx y).1 e
    show m' (place base ++ _) = _
    rw [hpre x hp]
    exact h.says x hx
  · intro q hq
    obtain ⟨x, hx, e⟩ := h.all (place base ++ q) hq
    have hp : place base <+: fold x.1 := by rw [e]; exact List.prefix_append _ _
    refine ⟨_, List.mem_filterMap.2 ⟨x, hx, (hk x hx _).2 ⟨hp, rfl⟩⟩, ?_⟩
    have := hpre x hp
    rw [e] at this
    exact List.append_cancel_left this
  · intro x hx
    constructor
    · intro e
      obtain ⟨y, hy⟩ := Option.isSome_iff_exists.1 e
      exact ((hk x hx y).1 hy).1
    · intro hp
      rw [(hk x hx _).2 ⟨hp, rfl⟩]; rfl

example : [([str ['A'], str ['x']], some (str ['1'])), ([str ['b']], none), ([str ['a']], some [])].filterMap (told (Key.parse (str ['a']))) =
    [([str ['x']], some (str ['1'])), ([], some [])] := by decide +kernel

/-- C110: `setv` is passed on with keys that are relative to the handle as if they were relative to the root: what was set is not there, and
    something outside of the handle is changed. -/
theorem C110_setv_fails :
    let g := (gen (IGen.temp id) [str ['a']]).setv sampleGen [([str ['x']], some (str ['1']))]
    (gen (IGen.temp id) [str ['a']]).get g [str ['x']] = none ∧ TempGen.get g [str ['x']] = some (str ['1']) ∧ TempGen.get sampleGen [str ['x']] = none := by decide +kernel

/-- C110: a recursive iterator shows keys without the names above: "c/d" below "a" is shown as "d", which is not there. -/
theorem C110_recursive_fails : recursive (IGen.temp id) [str ['a']] sampleGen 5 [] = [([str ['C']], some []), ([str ['d']], some (str ['2']))] ∧
    (gen (IGen.temp id) [str ['a']]).get sampleGen [str ['d']] = none := by decide +kernel

namespace UwP

theorem try_eq {σ : Type} (I : IGen σ) (s : σ) (m : Spec.Conf.State) (h : Reads I s m) (app : Text) (i : Nat) :
    (i ≤ (place app).length → (autoTry (I.get s) (Key.parse app) i = none ∧ (m ((place app).take i)).getD [] = []) ∨
      ∃ v rest, autoTry (I.get s) (Key.parse app) i = some (v, rest) ∧ v ≠ [] ∧ m ((place app).take i) = some v ∧ rest.filter (· ≠ []) = (Spec.Path.names app).drop i) ∧
    ((place app).length < i → Spec.Path.dir app = true → autoTry (I.get s) (Key.parse app) i = none) := by
  have hl : (place app).length = (Spec.Path.names app).length := by simp [place]
  have hb : Key.join [] (Key.first (Key.parse app) i) = Key.parse (Spec.Path.write (Spec.Path.slice app 0 i).1 (Spec.Path.slice app 0 i).2) := by
    unfold Key.first
    rw [(C19_join_empty _ ((Built.parse app).range 0 i)).1]
    exact C19_range app 0 i
  have hn : Names (Spec.Path.slice app 0 i).1 := ((Key.names_ok app).take _).drop _
  have hs2 : (Spec.Path.slice app 0 i).2 = true → (Spec.Path.slice app 0 i).1 ≠ [] := by
    intro h2
    simp only [Spec.Path.slice, decide_eq_true_eq] at h2
    simp only [Spec.Path.slice, Int.toNat_natCast, Int.toNat_zero, List.drop_zero]
    rw [List.take_of_length_le (by omega)]
    intro e
    rw [e] at h2
    simp at h2
  have hg : I.get s (Key.join [] (Key.first (Key.parse app) i)) = if (Spec.Path.slice app 0 i).2 then none else m ((place app).take i) := by
    rw [hb, h.get, Spec.Conf.get, Key.dir_write _ _ hn hs2, place_eq, Key.names_write _ _ hn]
    congr 2
    simp [Spec.Path.slice, place_eq, fold, List.map_take]
  have hr : (Key.removefirst (Key.parse app) i).filter (· ≠ []) = (Spec.Path.names app).drop i := by
    rw [Key.parse_eq, Key.removefirst_mk _ _ (Key.names_ok app) (Key.dir_names app), Key.filter_mk _ _ ((Key.names_ok app).drop _)]
  constructor
  · intro hi
    have hd : (Spec.Path.slice app 0 i).2 = false := by
      simp only [Spec.Path.slice, decide_eq_false_iff_not]
      rintro ⟨_, _, h3⟩
      omega
    rw [hd, if_neg (by simp)] at hg
    unfold autoTry
    rw [hg]
    dsimp only
    cases hm : m ((place app).take i) with
    | none => exact Or.inl ⟨by simp, rfl⟩
    | some v =>
      by_cases hv : v = []
      · subst hv; exact Or.inl ⟨by simp, rfl⟩
      · exact Or.inr ⟨v, _, by simp [hv], hv, rfl, hr⟩
  · intro hi hd
    have h2 : (Spec.Path.slice app 0 i).2 = true := by
      simp only [Spec.Path.slice, decide_eq_true_eq]
      have := List.length_pos_iff.2 (Key.dir_names app hd)
      exact ⟨hd, by omega, by omega⟩
    rw [h2, if_pos rfl] at hg
    unfold autoTry
    rw [hg]
    simp

theorem loop_eq {σ : Type} (I : IGen σ) (s : σ) (m : Spec.Conf.State) (h : Reads I s m) (app : Text) : ∀ i ≤ (place app).length,
    match autoLoop (I.get s) (Key.parse app) i with
    | none => ∀ n ≤ i, (m ((place app).take n)).getD [] = []
    | some (v, rest) => v ≠ [] ∧ ∃ n ≤ i, m ((place app).take n) = some v ∧ rest.filter (· ≠ []) = (Spec.Path.names app).drop n ∧
        ∀ j, n < j → j ≤ i → (m ((place app).take j)).getD [] = []
  | 0, hi => by
    rw [autoLoop]
    rcases (try_eq I s m h app 0).1 hi with ⟨a, b⟩ | ⟨v, rest, a, b, c, d⟩
    · rw [a]
      intro n hn
      rw [Nat.le_zero.1 hn]; exact b
    · rw [a]
      exact ⟨b, 0, Nat.le_refl _, c, d, fun j h1 h2 => by omega⟩
  | i + 1, hi => by
    rw [autoLoop]
    rcases (try_eq I s m h app (i + 1)).1 hi with ⟨a, b⟩ | ⟨v, rest, a, b, c, d⟩
    · rw [a]
      dsimp only
      have := loop_eq I s m h app i (by omega)
      cases hl : autoLoop (I.get s) (Key.parse app) i with
      | none =>
        rw [hl] at this
        intro n hn
        rcases Nat.lt_or_ge n (i + 1) with y | y
        · exact this n (by omega)
        · rw [show n = i + 1 by omega]; exact b
      | some x =>
        obtain ⟨v, rest⟩ := x
        rw [hl] at this
        obtain ⟨h1, n, h2, h3, h4, h5⟩ := this
        refine ⟨h1, n, by omega, h3, h4, fun j j1 j2 => ?_⟩
        rcases Nat.lt_or_ge j (i + 1) with y | y
        · exact h5 j j1 (by omega)
        · rw [show j = i + 1 by omega]; exact b
    · rw [a]
      exact ⟨b, i + 1, Nat.le_refl _, c, d, fun j h1 h2 => by omega⟩

end UwP

/-- C110: what "auto:" takes for an application: the moniker at its name or the nearest above that has one that is not empty, and below it the rest
    of its name; nothing if there is none. -/
theorem C110_auto {σ : Type} (I : IGen σ) (s : σ) (m : Spec.Conf.State) (h : Reads I s m) (app : Text) :
    match auto (I.get s) (Key.parse app) with
    | none => ∀ n, (m ((place app).take n)).getD [] = []
    | some (v, rest) => v ≠ [] ∧ ∃ n ≤ (place app).length, m ((place app).take n) = some v ∧ rest.filter (· ≠ []) = (Spec.Path.names app).drop n ∧
        ∀ j, n < j → j ≤ (place app).length → (m ((place app).take j)).getD [] = [] := by
  have hl : (place app).length = (Spec.Path.names app).length := by simp [place]
  have hk : auto (I.get s) (Key.parse app) = autoLoop (I.get s) (Key.parse app) (place app).length := by
    unfold auto
    rw [hl]
    cases hd : Spec.Path.dir app with
    | false =>
      congr 1
      rw [Key.parse_eq, hd, Key.mk_length]; simp
    | true =>
      have : (Key.parse app).length = (Spec.Path.names app).length + 1 := by rw [Key.parse_eq, hd, Key.mk_length]; simp
      rw [this, autoLoop, (UwP.try_eq I s m h app _).2 (by omega) hd]
  rw [hk]
  have := UwP.loop_eq I s m h app _ (Nat.le_refl _)
  cases hx : autoLoop (I.get s) (Key.parse app) (place app).length with
  | none =>
    rw [hx] at this
    intro n
    rcases Nat.lt_or_ge n (place app).length with y | y
    · exact this n (by omega)
    · rw [List.take_of_length_le y]
      have := this _ (Nat.le_refl _)
      rwa [List.take_of_length_le (Nat.le_refl _)] at this
  | some x =>
    rw [hx] at this
    exact this

/-- "a" has the moniker "3": for "a/c/x/" it is taken, with "c/x" below it, as "a/c" has an empty value. -/
example : auto (TempGen.get sampleGen) (Key.parse (str ['a', '/', 'c', '/', 'x', '/'])) = some (str ['3'], [str ['c'], str ['x'], []]) ∧
    auto (TempGen.get sampleGen) (Key.parse (str ['a', '/', 'c', '/', 'd'])) = some (str ['2'], []) ∧
    auto (TempGen.get sampleGen) (Key.parse (str ['b'])) = none := by decide +kernel

end Props
