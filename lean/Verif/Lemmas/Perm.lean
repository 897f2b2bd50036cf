import Verif.Lemmas.Gen
import Verif.Spec.Perm
/- Permissions in terms of places. -/
set_option linter.unusedSimpArgs false
namespace Props.Gens
open Wv Spec.Conf
open Wv.Key (fold Names mk)

def level : Perm.Level → Spec.Perm.Level
  | .user => .user
  | .group => .group
  | .world => .world

def kind : Perm.Kind → Spec.Perm.Kind
  | .read => .read
  | .write => .write
  | .exec => .exec

theorem removelast_true (ns : List Seg) (h : Names ns) (hne : ns ≠ []) : Key.removelast (mk ns true) 1 = mk ns false := by
  unfold Key.removelast Key.numsegments
  rw [Key.range_mk ns true h (fun _ => hne), Key.mk_length]
  have : ((ns.length + 1 : Nat) : Int) - 1 = ns.length := by omega
  simp only [if_true, this]
  simp

theorem removelast_false (ns : List Seg) (h : Names ns) : Key.removelast (mk ns false) 1 = mk ns.dropLast false := by
  unfold Key.removelast Key.numsegments
  rw [Key.range_mk ns false h (by simp), Key.mk_length]
  simp only [Bool.false_eq_true, if_false, Nat.add_zero, Bool.false_and]
  congr 1
  rw [List.dropLast_eq_take]
  have : ((ns.length : Int) - 1).toNat = ns.length - 1 := by omega
  rw [this]; simp

theorem fold_eq (ns : List Seg) : fold ns = ns.map (List.map Spec.Path.lower) := by rw [fold, Key.lower_eq]

theorem attr_place (ns : List Seg) (d : Bool) (h : Names ns) (hd : d = true → ns ≠ []) (name : Text)
    (hn : name ≠ [] ∧ Spec.Path.slash ∉ name) (hl : name.map Spec.Path.lower = name) :
    ∃ k : Text, Perm.attr (mk ns d) name = Key.parse k ∧ place k = fold ns ++ [name] ∧ Spec.Path.dir k = false := by
  refine ⟨Key.printable (mk ns d) ++ Spec.Path.slash :: name, rfl, ?_, ?_⟩
  · rw [Key.printable_mk ns d hd, place_append]
    have e1 : place (Spec.Path.write ns d) = fold ns := by rw [place, Key.names_write ns d h, fold_eq]
    have e2 : place name = [name] := by rw [place, Key.names_one name hn]; simp [hl]
    rw [e1, e2]
  · rw [dir_append _ _ (by rw [Key.names_one name hn]; simp)]
    have : Spec.Path.write [name] false = name := by simp [Spec.Path.write, Spec.Split.join]
    have h2 := Key.dir_write [name] false (by intro n hn'; simp at hn'; rw [hn']; exact hn) (by simp)
    rw [this] at h2; exact h2

theorem inherited_take {α : Type} (f : Place → Option α) (p : Place) (j : Nat) : ∀ n, n ≤ j →
    Spec.Perm.inherited f (p.take j) n = Spec.Perm.inherited f p n := by
  intro n
  induction n with
  | zero => intro _; rfl
  | succ n ih =>
    intro h
    unfold Spec.Perm.inherited
    rw [List.take_take, ih (by omega), Nat.min_eq_left h]

theorem inherited_step {α : Type} (f : Place → Option α) (p : Place) (hp : p ≠ []) :
    Spec.Perm.inherited f p p.length = match f p with
      | some a => some a
      | none => Spec.Perm.inherited f p.dropLast p.dropLast.length := by
  obtain ⟨n, hn⟩ : ∃ n, p.length = n + 1 := ⟨p.length - 1, by have := List.length_pos_iff.mpr hp; omega⟩
  rw [hn, Spec.Perm.inherited]
  rw [List.take_of_length_le (by omega)]
  cases f p with
  | some a => rfl
  | none =>
    simp only []
    rw [List.dropLast_eq_take, hn, Nat.add_sub_cancel, inherited_take _ _ _ _ (by rw [List.length_take]; omega)]
    congr 1
    rw [List.length_take]; omega

section
variable {τ : Type} (J : IGen τ) (p : τ) (P : Spec.Conf.State) (hJ : Reads J p P)
include hJ

theorem attr_get (ns : List Seg) (d : Bool) (h : Names ns) (hd : d = true → ns ≠ []) (name : Text)
    (hn : name ≠ [] ∧ Spec.Path.slash ∉ name) (hl : name.map Spec.Path.lower = name) :
    J.get p (Perm.attr (mk ns d) name) = P (fold ns ++ [name]) := by
  obtain ⟨k, hk, h1, h2⟩ := attr_place ns d h hd name hn hl
  rw [hk, hJ.get, Spec.Conf.get, h2, h1]; rfl

theorem getname_false (name : Text) (hn : name ≠ [] ∧ Spec.Path.slash ∉ name) (hl : name.map Spec.Path.lower = name) :
    ∀ (n : Nat) (ns : List Seg), ns.length = n → Names ns → (Perm.getname (J.get p) name (mk ns false)).getD [] =
      (Spec.Perm.inherited (Spec.Perm.named P name) (fold ns) (fold ns).length).getD [] := by
  intro n
  induction n with
  | zero =>
    intro ns hlen h
    obtain rfl : ns = [] := List.length_eq_zero_iff.mp hlen
    unfold Perm.getname
    rw [attr_get J p P hJ [] false h (by simp) name hn hl]
    have : Key.isempty (mk [] false) = true := rfl
    simp only [this, Bool.true_eq_false, and_false, dite_false]
    show _ = (Spec.Perm.named P name []).getD []
    unfold Spec.Perm.named
    have e : fold [] ++ [name] = ([] ++ [name] : Place) := rfl
    rw [e]
    cases P ([] ++ [name]) with
    | none => rfl
    | some v =>
      simp only [Option.getD_some]
      split <;> simp_all
  | succ n ih =>
    intro ns hlen h
    have hne : ns ≠ [] := by rintro rfl; simp at hlen
    unfold Perm.getname
    rw [attr_get J p P hJ ns false h (by simp) name hn hl, inherited_step _ _ (by simpa [fold_eq] using hne)]
    have : Key.isempty (mk ns false) = false := by rw [Key.isempty_mk ns false (by simp)]; simp [hne]
    simp only [this, and_true, removelast_false ns h]
    unfold Spec.Perm.named
    have hdl : fold ns.dropLast = (fold ns).dropLast := by simp [fold_eq, List.map_dropLast]
    have hi := ih ns.dropLast (by simp [hlen]) (fun x hx => h x (List.dropLast_subset _ hx))
    rw [hdl] at hi
    cases hv : P (fold ns ++ [name]) with
    | none => simp only [Option.getD_none, dite_true]; exact hi
    | some v =>
      simp only [Option.getD_some]
      by_cases hv0 : v = []
      · simp only [hv0, dite_true, if_true]; exact hi
      · simp only [hv0, dite_false, if_false, Option.getD_some]

theorem getname_spec (name : Text) (hn : name ≠ [] ∧ Spec.Path.slash ∉ name) (hl : name.map Spec.Path.lower = name)
    (ns : List Seg) (d : Bool) (h : Names ns) (hd : d = true → ns ≠ []) :
    (Perm.getname (J.get p) name (mk ns d)).getD [] =
      (Spec.Perm.inherited (Spec.Perm.named P name) (fold ns) (fold ns).length).getD [] := by
  have hF := getname_false J p P hJ name hn hl _ ns rfl h
  cases d with
  | false => exact hF
  | true =>
    rw [← hF]
    rw [Perm.getname, attr_get J p P hJ ns true h hd name hn hl]
    have : Key.isempty (mk ns true) = false := by rw [Key.isempty_mk ns true hd]; simp [hd rfl]
    simp only [this, and_true, removelast_true ns h (hd rfl)]
    by_cases hv0 : (P (fold ns ++ [name])).getD [] = []
    · simp only [hv0, dite_true]
    · simp only [hv0, dite_false]
      rw [Perm.getname, attr_get J p P hJ ns false h (by simp) name hn hl]
      simp only [hv0, false_and, dite_false]

/-- How `str2int` with the default -1 makes a flag. -/
def flagOf (num : TempGen.Value → Int) (v : Text) : Option Bool := if num v = -1 then none else some (decide (num v ≠ 0))

omit hJ in
theorem flag_name (l : Perm.Level) (k : Perm.Kind) :
    (Perm.level2str l ++ ch '-' :: Perm.type2str k) = Spec.Perm.levelName (level l) ++ Spec.Perm.text ['-'] ++ Spec.Perm.kindName (kind k) ∧
    (Perm.level2str l ++ ch '-' :: Perm.type2str k ≠ [] ∧ Spec.Path.slash ∉ Perm.level2str l ++ ch '-' :: Perm.type2str k) ∧
    (Perm.level2str l ++ ch '-' :: Perm.type2str k).map Spec.Path.lower = Perm.level2str l ++ ch '-' :: Perm.type2str k := by
  cases l <;> cases k <;> decide +kernel

theorem getoneperm_false (num : TempGen.Value → Int) (l : Perm.Level) (k : Perm.Kind) :
    ∀ (n : Nat) (ns : List Seg), ns.length = n → Names ns → Perm.getoneperm num (J.get p) l k (mk ns false) =
      (Spec.Perm.inherited (Spec.Perm.flagged (flagOf num) P (level l) (kind k)) (fold ns) (fold ns).length).getD false := by
  obtain ⟨e, hn, hl⟩ := flag_name l k
  have key : ∀ ns : List Seg, Spec.Perm.flagged (flagOf num) P (level l) (kind k) (fold ns) =
      (P (fold ns ++ [Perm.level2str l ++ ch '-' :: Perm.type2str k])).bind (flagOf num) := by
    intro ns; rw [Spec.Perm.flagged, e]
  intro n
  induction n with
  | zero =>
    intro ns hlen h
    obtain rfl : ns = [] := List.length_eq_zero_iff.mp hlen
    unfold Perm.getoneperm
    rw [attr_get J p P hJ [] false h (by simp) _ hn hl]
    have : Key.isempty (mk [] false) = true := rfl
    simp only [this, dite_true]
    show _ = (Spec.Perm.flagged (flagOf num) P (level l) (kind k) (fold [])).getD false
    rw [key]
    cases P (fold [] ++ [Perm.level2str l ++ ch '-' :: Perm.type2str k]) with
    | none => rfl
    | some v =>
      simp only [Option.bind_some, flagOf]
      by_cases h1 : num v = -1 <;> simp [h1]
  | succ n ih =>
    intro ns hlen h
    have hne : ns ≠ [] := by rintro rfl; simp at hlen
    unfold Perm.getoneperm
    rw [attr_get J p P hJ ns false h (by simp) _ hn hl, inherited_step _ _ (by simpa [fold_eq] using hne), key]
    have : Key.isempty (mk ns false) = false := by rw [Key.isempty_mk ns false (by simp)]; simp [hne]
    simp only [this, Bool.false_eq_true, dite_false, removelast_false ns h]
    have hdl : fold ns.dropLast = (fold ns).dropLast := by simp [fold_eq, List.map_dropLast]
    have hi := ih ns.dropLast (by simp [hlen]) (fun x hx => h x (List.dropLast_subset _ hx))
    rw [hdl] at hi
    cases P (fold ns ++ [Perm.level2str l ++ ch '-' :: Perm.type2str k]) with
    | none => simp only [if_true, Option.bind_none]; exact hi
    | some v =>
      simp only [Option.bind_some, flagOf]
      by_cases h1 : num v = -1
      · simp only [h1, if_true]; exact hi
      · simp only [h1, if_false, Option.getD_some]

theorem getoneperm_spec (num : TempGen.Value → Int) (l : Perm.Level) (k : Perm.Kind)
    (ns : List Seg) (d : Bool) (h : Names ns) (hd : d = true → ns ≠ []) :
    Perm.getoneperm num (J.get p) l k (mk ns d) =
      (Spec.Perm.inherited (Spec.Perm.flagged (flagOf num) P (level l) (kind k)) (fold ns) (fold ns).length).getD false := by
  obtain ⟨e, hn, hl⟩ := flag_name l k
  have hF := getoneperm_false J p P hJ num l k _ ns rfl h
  cases d with
  | false => exact hF
  | true =>
    rw [← hF]
    rw [Perm.getoneperm, attr_get J p P hJ ns true h hd _ hn hl]
    have : Key.isempty (mk ns true) = false := by rw [Key.isempty_mk ns true hd]; simp [hd rfl]
    simp only [this, Bool.false_eq_true, dite_false, removelast_true ns h (hd rfl)]
    cases hv : P (fold ns ++ [Perm.level2str l ++ ch '-' :: Perm.type2str k]) with
    | none => simp only [if_true]
    | some v =>
      simp only []
      by_cases hnv : num v = -1
      · simp only [hnv, if_true]
      · conv_rhs => rw [Perm.getoneperm, attr_get J p P hJ ns false h (by simp) _ hn hl, hv]
        simp only [hnv, if_false]

theorem inherited_some (name : Text) (q : Place) : ∀ n, ∀ v, Spec.Perm.inherited (Spec.Perm.named P name) q n = some v → v ≠ [] := by
  have key : ∀ q v, Spec.Perm.named P name q = some v → v ≠ [] := by
    intro q v h
    unfold Spec.Perm.named at h
    cases hP : P (q ++ [name]) with
    | none => rw [hP] at h; cases h
    | some w =>
      rw [hP] at h
      simp only [] at h
      split at h
      · cases h
      · cases h; assumption
  intro n
  induction n with
  | zero => intro v h; exact key _ _ h
  | succ n ih =>
    intro v h
    rw [Spec.Perm.inherited] at h
    cases hf : Spec.Perm.named P name (q.take (n + 1)) with
    | some a => rw [hf] at h; cases h; exact key _ _ hf
    | none => rw [hf] at h; exact ih v h

theorem getperm_spec (num : TempGen.Value → Int) (cred : Perm.Cred) (k : Perm.Kind)
    (ns : List Seg) (d : Bool) (h : Names ns) (hd : d = true → ns ≠ []) :
    Perm.getperm num (J.get p) (mk ns d) cred k =
      Spec.Perm.has (flagOf num) P cred.user cred.groups (fold ns) (kind k) := by
  have ho := getname_spec J p P hJ (str ['o', 'w', 'n', 'e', 'r']) (by decide +kernel) (by decide +kernel) ns d h hd
  have hg := getname_spec J p P hJ (str ['g', 'r', 'o', 'u', 'p']) (by decide +kernel) (by decide +kernel) ns d h hd
  have eo : str ['o', 'w', 'n', 'e', 'r'] = Spec.Perm.text ['o', 'w', 'n', 'e', 'r'] := by decide +kernel
  have eg : str ['g', 'r', 'o', 'u', 'p'] = Spec.Perm.text ['g', 'r', 'o', 'u', 'p'] := by decide +kernel
  have hos := inherited_some J p P hJ (str ['o', 'w', 'n', 'e', 'r']) (fold ns) (fold ns).length
  have hgs := inherited_some J p P hJ (str ['g', 'r', 'o', 'u', 'p']) (fold ns) (fold ns).length
  unfold Perm.getperm Spec.Perm.has
  dsimp only
  rw [getoneperm_spec J p P hJ num _ k ns d h hd]
  congr 3
  unfold Spec.Perm.levelOf Spec.Perm.owner Spec.Perm.group
  rw [← eo, ← eg]
  generalize Perm.getname (J.get p) (str ['o', 'w', 'n', 'e', 'r']) (mk ns d) = o at *
  generalize Perm.getname (J.get p) (str ['g', 'r', 'o', 'u', 'p']) (mk ns d) = g at *
  generalize Spec.Perm.inherited (Spec.Perm.named P (str ['o', 'w', 'n', 'e', 'r'])) (fold ns) (fold ns).length = o' at *
  generalize Spec.Perm.inherited (Spec.Perm.named P (str ['g', 'r', 'o', 'u', 'p'])) (fold ns) (fold ns).length = g' at *
  have e1 : (o.getD [] ≠ [] ∧ cred.user = o) ↔ (o'.isSome = true ∧ cred.user = o') := by
    rcases o with _ | o <;> rcases o' with _ | o' <;> simp_all
  by_cases hu : o.getD [] ≠ [] ∧ cred.user = o
  · rw [if_pos hu, if_pos (e1.mp hu)]; rfl
  · rw [if_neg hu, if_neg (fun h' => hu (e1.mpr h')), hg]
    rcases g' with _ | g'
    · simp [level]
    · have := hgs g' rfl
      simp only [Option.getD_some, ne_eq, this, not_false_eq_true, true_and]
      split <;> rfl

end

theorem drillLoop_spec (exec : Key → Bool) : ∀ (b a : List Seg) (d : Bool) (n : Nat), Names a → Names b →
    b.length ≤ n → (d = true → b ≠ []) →
    (Perm.drillLoop exec n (mk a false) (mk b d) = true ↔ ∀ i, i < b.length → exec (mk (a ++ b.take i) false) = true) := by
  intro b
  induction b with
  | nil =>
    intro a d n _ _ _ hd
    have : d = false := by cases d <;> simp_all
    subst this
    cases n <;> simp [Perm.drillLoop, Key.isempty, mk]
  | cons x b ih =>
    intro a d n ha hb hn hd
    obtain ⟨n, rfl⟩ : ∃ m, n = m + 1 := ⟨n - 1, by simp at hn; omega⟩
    have hx : Names [x] := fun y hy => hb y (by simp at hy; simp [hy])
    have hb' : Names b := fun y hy => hb y (by simp [hy])
    have e0 : Key.isempty (mk (x :: b) d) = false := by rw [Key.isempty_mk _ _ hd]; rfl
    have e1 : Key.first (mk (x :: b) d) 1 = mk [x] false := by
      unfold Key.first
      rw [Key.range_mk _ d hb hd]
      have : ¬ ((b.length : Int) + 1 < 1) := by omega
      simp [this]
    have e2 : Key.removefirst (mk (x :: b) d) 1 = mk b (d && !b.isEmpty) := by
      unfold Key.removefirst Key.numsegments
      rw [Key.range_mk _ d hb hd, Key.mk_length]
      have : ((((x :: b).length + if d = true then 1 else 0 : Nat)) : Int).toNat = (x :: b).length + if d = true then 1 else 0 := by omega
      rw [this, List.take_of_length_le (by omega)]
      congr 1
      cases d
      · rfl
      · cases b with
        | nil => simp
        | cons y b => simp; omega
    have e3 : Key.append (mk a false) (mk [x] false) = mk (a ++ [x]) false := by
      unfold Key.append
      rw [Key.filter_mk [x] false hx, Key.isempty_mk [x] false (by simp), Key.trailing_mk [x] false hx]
      have := Key.collapse_mk (a ++ [x]) false (ha.append hx)
      simpa [mk] using this
    rw [Perm.drillLoop, e0, e1, e2, e3]
    simp only [Bool.false_eq_true, if_false]
    have hi := ih (a ++ [x]) (d && !b.isEmpty) n (ha.append hx) hb' (by simpa using hn) (by cases d <;> cases b <;> simp)
    by_cases hex : exec (mk a false) = true
    · rw [if_pos hex, hi]
      constructor
      · intro h i hi'
        cases i with
        | zero => simpa using hex
        | succ i => have := h i (by simpa using hi'); simpa using this
      · intro h i hi'
        have := h (i + 1) (by simpa using hi'); simpa using this
    · rw [if_neg hex]
      constructor
      · intro h; simp at h
      · intro h; exact absurd (by simpa using h 0 (by simp)) hex

/-- `findperm`, for any key. -/
theorem findperm_spec {τ : Type} (J : IGen τ) (p : τ) (P : Spec.Conf.State) (hJ : Reads J p P)
    (num : TempGen.Value → Int) (cred : Perm.Cred) (k : Perm.Kind) (ns : List Seg) (d : Bool) (h : Names ns) (hd : d = true → ns ≠ []) :
    Perm.findperm (fun q k => Perm.getperm num (J.get p) q cred k) (mk ns d) k = true ↔
      Spec.Perm.May (flagOf num) P cred.user cred.groups (fold ns) (kind k) := by
  unfold Perm.findperm Perm.drilldown Spec.Perm.May
  have := drillLoop_spec (fun k => Perm.getperm num (J.get p) k cred .exec) ns [] d (mk ns d).length (by simp [Names]) h
    (by rw [Key.mk_length]; omega) hd
  have e : (mk [] false) = [] := rfl
  rw [e] at this
  rw [Bool.and_eq_true, this]
  dsimp only
  rw [getperm_spec J p P hJ num cred k ns d h hd, and_comm]
  refine and_congr_right fun _ => ?_
  have e2 : ∀ i, Perm.getperm num (J.get p) (mk ([] ++ ns.take i) false) cred .exec =
      Spec.Perm.has (flagOf num) P cred.user cred.groups ((fold ns).take i) .exec := by
    intro i
    simp only [List.nil_append]
    rw [getperm_spec J p P hJ num cred .exec (ns.take i) false (h.take i) (by simp)]
    simp [fold_eq, List.map_take, kind]
  constructor
  · intro hh q hq hne
    rw [List.prefix_iff_eq_take] at hq
    have hlt : q.length < ns.length := by
      refine Decidable.byContradiction fun hc => hne ?_
      rw [hq, List.take_of_length_le (by simp [fold_eq]; omega)]
    have := hh _ hlt
    rw [e2] at this
    rw [hq]; exact this
  · intro hh i hi
    rw [e2]
    refine hh _ (List.take_prefix _ _) ?_
    intro hc
    have := congrArg List.length hc
    simp [fold_eq] at this
    omega

end Props.Gens
