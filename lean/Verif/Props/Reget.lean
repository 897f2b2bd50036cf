import Verif.Lemmas.Reget
import Verif.Spec.Cache
/- C58: a generator that remembers what it was asked gives what the inner one holds, and asks it once. -/
namespace Props
open Wv Wv.Reget Spec.Conf Spec.Walk
open Wv.Key (fold Names mk)
open Wv.TempGen (Value Delta)
open Props.Gens Props.Notify
namespace Rgt
open Spec.Cache (Use used)

/-- A use of the generator. -/
def use {σ : Type} (I : NGen σ) (s : Reget.State σ) : Use → Reget.State σ
  | .get k => (Reget.getKey I s (Key.parse k)).2
  | .exists k => (Reget.exists I s (Key.parse k)).2
  | .set k v => Reget.set I s (Key.parse k) v
  | .direct k v => Reget.set I s (Key.parse k) v

/-- Some. -/
def uses {σ : Type} (I : NGen σ) (s : Reget.State σ) : List Use → Reget.State σ
  | [] => s
  | a :: r => uses I (use I s a) r

theorem uses_append {σ : Type} (I : NGen σ) (a b : List Use) : ∀ s, uses I s (a ++ b) = uses I (uses I s a) b := by
  induction a with
  | nil => intro c; rfl
  | cons x a ih => intro c; exact ih _

/-- What is remembered is so. -/
def Sound (t : Tree) (m : Spec.Conf.State) : Prop := (look t []).isSome ∧ ∀ q v, look t q = some v → m q = v

/-- More is remembered. -/
def More (t t' : Tree) : Prop := ∀ q, (look t q).isSome → (look t' q).isSome

theorem More.trans {a b c : Tree} (h : More a b) (h' : More b c) : More a c := fun q hq => h' q (h q hq)

theorem hear_look (m' : Spec.Conf.State) (d : List Delta) : (∀ x ∈ d, Names x.1) → (∀ x ∈ d, m' (fold x.1) = x.2) → ∀ (t : Tree) (q : Place),
    (look (d.foldl hear t) q).isSome = (look t q).isSome ∧
    (((∃ x ∈ d, fold x.1 = q) ∨ ∀ v, look t q = some v → m' q = v) → ∀ v, look (d.foldl hear t) q = some v → m' q = v) := by
  induction d with
  | nil =>
    intro _ _ t q
    refine ⟨rfl, ?_⟩
    rintro (⟨x, hx, -⟩ | h)
    · simp at hx
    · exact h
  | cons x d ih =>
    intro hk hs t q
    obtain ⟨k, w⟩ := x
    have hl := setvalue_look k (hk (k, w) (by simp)) w t q
    obtain ⟨i1, i2⟩ := ih (fun y hy => hk y (by simp [hy])) (fun y hy => hs y (by simp [hy])) (hear t (k, w)) q
    have hl' : look (hear t (k, w)) q = if q = fold k ∧ (look t q).isSome then some w else look t q := hl
    refine ⟨?_, ?_⟩
    · show (look (d.foldl hear (hear t (k, w))) q).isSome = _
      rw [i1, hl']
      split
      · rename_i h; simp [h.2]
      · rfl
    · intro h
      refine i2 ?_
      by_cases hd : ∃ y ∈ d, fold y.1 = q
      · exact Or.inl hd
      · right
        intro v hv
        rw [hl'] at hv
        split at hv
        · rename_i hq
          cases hv
          rw [hq.1]; exact hs (k, w) (by simp)
        · rename_i hq
          rcases h with ⟨y, hy, he⟩ | h
          · rcases List.mem_cons.mp hy with rfl | hy
            · exact absurd ⟨he.symm, by rw [hv]; rfl⟩ hq
            · exact absurd ⟨y, hy, he⟩ hd
          · exact h v hv

section
variable {σ : Type} (I : NGen σ) (Rep : σ → Spec.Conf.State → Prop) (hI : Speaks I Rep)
include hI

theorem set_spec (s : Reget.State σ) (m : Spec.Conf.State) (h : Rep s.inner m) (hs : Sound s.tree m) (k : Text) (v : Option Text) :
    Rep (Reget.set I s (Key.parse k) v).inner (Spec.Conf.set m k v) ∧ Sound (Reget.set I s (Key.parse k) v).tree (Spec.Conf.set m k v) ∧
    More s.tree (Reget.set I s (Key.parse k) v).tree := by
  have h1 := hI.behaves.set _ _ h k v
  have h2 := hI.tells _ _ h k v
  have h3 := hear_look (Spec.Conf.set m k v) _ h2.key h2.says s.tree
  refine ⟨h1, ⟨by show (look (List.foldl hear s.tree _) []).isSome; rw [(h3 []).1]; exact hs.1, ?_⟩, ?_⟩
  · intro q w hw
    refine (h3 q).2 ?_ w hw
    by_cases hq : m q = Spec.Conf.set m k v q
    · right; rw [← hq]; exact hs.2 q
    · exact Or.inl (h2.all q hq)
  · intro q hq
    show (look (List.foldl hear s.tree _) q).isSome
    rw [(h3 q).1]; exact hq

omit hI in
theorem names_trailing (ns : List Seg) (h : Names ns) : Key.hastrailingslash ns = false := by
  have := Key.trailing_mk ns false h
  simpa [mk] using this

omit hI in
theorem last_one (ps : List Seg) (n : Seg) (h : Names (ps ++ [n])) : Key.last (ps ++ [n]) 1 = [n] := by
  have := Key.range_mk (ps ++ [n]) false h (by simp) ((ps ++ [n]).length - 1) (ps ++ [n]).length
  have e : mk (ps ++ [n]) false = ps ++ [n] := by simp [mk]
  rw [e] at this
  unfold Key.last Key.numsegments
  rw [this]
  have e1 : ((ps ++ [n]).length : Int).toNat = (ps ++ [n]).length := by omega
  have e2 : (((ps ++ [n]).length : Int) - 1).toNat = ps.length := by simp
  rw [e1, e2, List.take_length, List.drop_left' rfl]
  simp [mk]

/-- Getting a value. -/
theorem get_spec (f : Nat) : ∀ (ns : List Seg), Names ns → ns.length < f → ∀ (s : Reget.State σ) (m : Spec.Conf.State), Rep s.inner m → Sound s.tree m →
    (Reget.get I f s ns).1 = m (fold ns) ∧ (Reget.get I f s ns).2.inner = s.inner ∧ Sound (Reget.get I f s ns).2.tree m ∧
    More s.tree (Reget.get I f s ns).2.tree ∧ (look (Reget.get I f s ns).2.tree (fold ns)).isSome ∧
    ((look s.tree (fold ns)).isSome → (Reget.get I f s ns).2 = s) ∧
    ∀ q, (look (Reget.get I f s ns).2.tree q).isSome → (look s.tree q).isSome ∨ q <+: fold ns := by
  induction f with
  | zero => intro ns _ hf; omega
  | succ f ih =>
    intro ns hn hf s m h hs
    have ht := names_trailing ns hn
    have hfl := find_look ns hn s.tree
    cases hfd : find s.tree ns with
    | some t =>
      rw [hfd] at hfl
      have e : Reget.get I (f + 1) s ns = (t.value, s) := by simp [Reget.get, ht, hfd]
      rw [e]
      have hl : look s.tree (fold ns) = some t.value := hfl.symm
      exact ⟨(hs.2 _ _ hl).symm, rfl, hs, fun _ h => h, by rw [hl]; rfl, fun _ => rfl, fun _ h => Or.inl h⟩
    | none =>
      rw [hfd] at hfl
      have hl : look s.tree (fold ns) = none := hfl.symm
      rcases List.eq_nil_or_concat ns with rfl | ⟨ps, n, rfl⟩
      · rw [show fold [] = [] from rfl, look_nil] at hl; cases hl
      rw [List.concat_eq_append] at *
      have hps : Names ps := fun x hx => hn x (by simp [hx])
      have hn1 := hn n (by simp)
      have hrl : Key.removelast (ps ++ [n]) 1 = ps := Rec.removelast_one hps ⟨n, rfl, hn1.1, hn1.2⟩
      have hla := last_one ps n hn
      obtain ⟨i1, i2, i3, i4, i5, i6, i7⟩ := ih ps hps (by simp at hf; omega) s m h hs
      have h' : Rep (Reget.get I f s ps).2.inner m := by rw [i2]; exact h
      -- the parent is remembered now
      have hfp := find_look ps hps (Reget.get I f s ps).2.tree
      obtain ⟨t, htp⟩ : ∃ t, find (Reget.get I f s ps).2.tree ps = some t := by
        cases hx : find (Reget.get I f s ps).2.tree ps with
        | none => rw [hx] at hfp; rw [← hfp] at i5; simp at i5
        | some t => exact ⟨t, rfl⟩
      rw [htp] at hfp
      have hpv : m (fold ps) = t.value := i3.2 _ _ hfp.symm
      -- the key is not remembered yet
      have hnl : look (Reget.get I f s ps).2.tree (fold (ps ++ [n])) = none := by
        cases hx : look (Reget.get I f s ps).2.tree (fold (ps ++ [n])) with
        | none => rfl
        | some v =>
          rcases i7 _ (by rw [hx]; rfl) with h1 | h1
          · rw [hl] at h1; cases h1
          · have := h1.length_le; simp [fold] at this; omega
      have hadd := fun v => addchild_look ps n hps hn1 v (Reget.get I f s ps).2.tree i5 hnl
      -- the new state, for a value that is so
      have fin : ∀ (a : List Key) (v : Option Value), m (fold (ps ++ [n])) = v →
          ∀ s' : Reget.State σ, s'.inner = s.inner → s'.tree = change (addchild [n] v) (Reget.get I f s ps).2.tree ps → 
          v = m (fold (ps ++ [n])) ∧ s'.inner = s.inner ∧ Sound s'.tree m ∧ More s.tree s'.tree ∧ (look s'.tree (fold (ps ++ [n]))).isSome ∧
          ((look s.tree (fold (ps ++ [n]))).isSome → s' = s) ∧
          ∀ q, (look s'.tree q).isSome → (look s.tree q).isSome ∨ q <+: fold (ps ++ [n]) := by
        intro a v hv s' e1 e2
        rw [e2]
        refine ⟨hv.symm, e1, ⟨?_, ?_⟩, ?_, ?_, ?_, ?_⟩
        · rw [hadd]; split
          · rfl
          · exact i3.1
        · intro q w hw
          rw [hadd] at hw
          split at hw
          · rename_i hq; cases hw; rw [hq]; exact hv
          · exact i3.2 q w hw
        · intro q hq
          rw [hadd]; split
          · rfl
          · exact i4 q hq
        · rw [hadd, if_pos rfl]; rfl
        · intro hx; rw [hl] at hx; cases hx
        · intro q hq
          rw [hadd] at hq
          split at hq
          · rename_i he; right; rw [he]; exact List.prefix_refl _
          · rcases i7 q hq with h1 | h1
            · exact Or.inl h1
            · right
              refine h1.trans ?_
              simp [fold]
      cases hv : t.value with
      | none =>
        have e : Reget.get I (f + 1) s (ps ++ [n]) =
            (none, { (Reget.get I f s ps).2 with tree := change (addchild [n] none) (Reget.get I f s ps).2.tree ps }) := by
          simp [Reget.get, ht, hfd, hrl, htp, hla, hv]
        rw [e]
        refine fin [] none ?_ _ i2 rfl
        apply Decidable.byContradiction
        intro hne
        refine hI.closed _ _ h (fold ps) [n.map tolower] ?_ (hpv.trans hv)
        simpa [fold] using hne
      | some w =>
        have hg : I.get (Reget.get I f s ps).2.inner (ps ++ [n]) = m (fold (ps ++ [n])) := by
          have := (hI.behaves.reads _ _ h').get (Spec.Path.write (ps ++ [n]) false)
          rw [parse_write _ hn] at this
          rw [this, Spec.Conf.get, Notify.dir_write _ hn, place_write _ hn]; simp
        have e : Reget.get I (f + 1) s (ps ++ [n]) =
            (m (fold (ps ++ [n])), { (Reget.get I f s ps).2 with
              tree := change (addchild [n] (m (fold (ps ++ [n])))) (Reget.get I f s ps).2.tree ps
              asked := (Reget.get I f s ps).2.asked ++ [ps ++ [n]] }) := by
          simp [Reget.get, ht, hfd, hrl, htp, hla, hv, hg]
        rw [e]
        exact fin [] _ rfl _ i2 rfl

/-- Getting a value for a key given as text. -/
theorem getKey_spec (k : Text) (s : Reget.State σ) (m : Spec.Conf.State) (h : Rep s.inner m) (hs : Sound s.tree m) :
    (Reget.getKey I s (Key.parse k)).1 = Spec.Conf.get m k ∧ (Reget.getKey I s (Key.parse k)).2.inner = s.inner ∧
    Sound (Reget.getKey I s (Key.parse k)).2.tree m ∧ More s.tree (Reget.getKey I s (Key.parse k)).2.tree ∧
    (Spec.Path.dir k = false → (look (Reget.getKey I s (Key.parse k)).2.tree (place k)).isSome) ∧
    (Spec.Path.dir k = true ∨ (look s.tree (place k)).isSome → (Reget.getKey I s (Key.parse k)).2 = s) := by
  unfold Reget.getKey
  rw [Key.parse_eq]
  have hn := Key.names_ok k
  cases hd : Spec.Path.dir k with
  | true =>
    have e : ∀ f, Reget.get I (f + 1) s (mk (Spec.Path.names k) true) = (none, s) := by
      intro f
      simp [Reget.get, Key.trailing_mk _ _ hn]
    rw [e]
    simp only [Spec.Conf.get, hd, if_true]
    exact ⟨trivial, trivial, hs, fun _ h => h, by simp, fun _ => trivial⟩
  | false =>
    have em : mk (Spec.Path.names k) false = Spec.Path.names k := by simp [mk]
    rw [em]
    obtain ⟨h1, h2, h3, h4, h5, h6, -⟩ := get_spec I Rep hI _ _ hn (Nat.lt_succ_self _) s m h hs
    have hp : place k = fold (Spec.Path.names k) := TempGen.place_eq k
    rw [hp]
    refine ⟨by rw [h1, Spec.Conf.get, hd, hp]; simp, h2, h3, h4, fun _ => h5, ?_⟩
    rintro (hx | hx)
    · cases hx
    · exact h6 hx

theorem use_spec (s : Reget.State σ) (m : Spec.Conf.State) (h : Rep s.inner m) (hs : Sound s.tree m) (a : Use) :
    Rep (use I s a).inner (used m [a]) ∧ Sound (use I s a).tree (used m [a]) ∧ More s.tree (use I s a).tree := by
  cases a with
  | get k =>
    obtain ⟨-, h2, h3, h4, -⟩ := getKey_spec I Rep hI k s m h hs
    exact ⟨by show Rep (Reget.getKey I s (Key.parse k)).2.inner m; rw [h2]; exact h, h3, h4⟩
  | «exists» k =>
    obtain ⟨-, h2, h3, h4, -⟩ := getKey_spec I Rep hI k s m h hs
    exact ⟨by show Rep (Reget.getKey I s (Key.parse k)).2.inner m; rw [h2]; exact h, h3, h4⟩
  | set k v => exact set_spec I Rep hI s m h hs k v
  | direct k v => exact set_spec I Rep hI s m h hs k v

theorem uses_spec (l : List Use) : ∀ (s : Reget.State σ) (m : Spec.Conf.State), Rep s.inner m → Sound s.tree m →
    Rep (uses I s l).inner (used m l) ∧ Sound (uses I s l).tree (used m l) ∧ More s.tree (uses I s l).tree := by
  induction l with
  | nil => intro s m h hs; exact ⟨h, hs, fun _ h => h⟩
  | cons a l ih =>
    intro s m h hs
    obtain ⟨h1, h2, h3⟩ := use_spec I Rep hI s m h hs a
    obtain ⟨i1, i2, i3⟩ := ih _ _ h1 h2
    have e : used m (a :: l) = used (used m [a]) l := by cases a <;> rfl
    rw [e]
    exact ⟨i1, i2, h3.trans i3⟩

theorem new_sound (s : σ) (m : Spec.Conf.State) (h : Rep s m) : Sound (Reget.new I s).tree m := by
  have hg := (hI.behaves.reads _ _ h).get [47]
  have hm : Spec.Conf.get m [47] = m [] := by
    have h1 : Spec.Path.dir [47] = false := by decide
    have h2 : place [47] = [] := by decide
    simp [Spec.Conf.get, h1, h2]
  refine ⟨rfl, ?_⟩
  intro q v hq
  cases q with
  | nil =>
    rw [look_nil] at hq
    have : (Reget.new I s).tree.value = I.get s (Key.parse [47]) := rfl
    rw [this, hg, hm] at hq
    exact Option.some.inj hq
  | cons n q =>
    have : look (Reget.new I s).tree (n :: q) = none := by rw [look_cons]; rfl
    rw [this] at hq; cases hq

end
end Rgt
open Rgt
open Spec.Cache (Use used)

/-- C58: after any history of calls through the generator and around it, `get` returns what the inner generator holds. -/
theorem C58_get {σ : Type} (I : NGen σ) (Rep : σ → Spec.Conf.State → Prop) (hI : Speaks I Rep) (s : σ) (m : Spec.Conf.State) (h : Rep s m)
    (l : List Use) (k : Text) :
    (Reget.getKey I (uses I (Reget.new I s) l) (Key.parse k)).1 = I.get (uses I (Reget.new I s) l).inner (Key.parse k) ∧
    (Reget.getKey I (uses I (Reget.new I s) l) (Key.parse k)).1 = Spec.Conf.get (used m l) k := by
  obtain ⟨h1, h2, -⟩ := uses_spec I Rep hI l (Reget.new I s) m h (new_sound I Rep hI s m h)
  have := (getKey_spec I Rep hI k _ _ h1 h2).1
  exact ⟨this.trans ((hI.behaves.reads _ _ h1).get k).symm, this⟩

/-- C58: `exists` says whether the inner generator has the key. -/
theorem C58_exists {σ : Type} (I : NGen σ) (Rep : σ → Spec.Conf.State → Prop) (hI : Speaks I Rep) (s : σ) (m : Spec.Conf.State) (h : Rep s m)
    (l : List Use) (k : Text) :
    (Reget.exists I (uses I (Reget.new I s) l) (Key.parse k)).1 = true ↔ Spec.Conf.get (used m l) k ≠ none := by
  have := (C58_get I Rep hI s m h l k).2
  simp only [Reget.exists, this]
  cases Spec.Conf.get (used m l) k <;> simp

/-- C58: `haschildren` is that of the inner generator, also where it does not ask it. -/
theorem C58_haschildren {σ : Type} (I : NGen σ) (Rep : σ → Spec.Conf.State → Prop) (hI : Speaks I Rep) (s : σ) (m : Spec.Conf.State) (h : Rep s m)
    (l : List Use) (k : Text) :
    Reget.haschildren I (uses I (Reget.new I s) l) (Key.parse k) = true ↔ ∃ n, used m l (place k ++ [n]) ≠ none := by
  obtain ⟨h1, h2, -⟩ := uses_spec I Rep hI l (Reget.new I s) m h (new_sound I Rep hI s m h)
  have hr := (hI.behaves.reads _ _ h1).haschildren k
  unfold Reget.haschildren
  cases hf : find (uses I (Reget.new I s) l).tree (Key.parse k) with
  | none => exact hr
  | some t =>
    simp only
    split
    · rename_i hv
      -- a key that does not exist has nothing below it
      have hl : look (uses I (Reget.new I s) l).tree (place k) = some t.value := by
        have hn := Key.names_ok k
        rw [TempGen.place_eq, ← find_look _ hn]
        have e : find (uses I (Reget.new I s) l).tree (Key.parse k) = find (uses I (Reget.new I s) l).tree (Spec.Path.names k) := by
          unfold find
          rw [Key.parse_eq, TempGen.segments_mk _ _ hn, segments_names _ hn]
          generalize (uses I (Reget.new I s) l).tree = t
          generalize TempGen.ones (Spec.Path.names k) = ks
          cases Spec.Path.dir k with
          | false => simp
          | true =>
            simp only [if_true]
            induction ks generalizing t with
            | nil => simp [findLoop, findchild, Key.isempty]
            | cons a ks ih =>
              simp only [List.cons_append, findLoop]
              cases findchild t a with
              | none => rfl
              | some c => exact ih c
        rw [← e, hf]; rfl
      have hm := h2.2 _ _ hl
      have hnone : used m l (place k) = none := by rw [hm]; simpa using hv
      constructor
      · intro h; cases h
      · rintro ⟨n, hx⟩
        exact absurd hnone (hI.closed _ _ h1 _ _ hx)
    · exact hr

/-- C58: once a key has been asked for, asking for it again, after whatever else, does not ask the inner generator. -/
theorem C58_once {σ : Type} (I : NGen σ) (Rep : σ → Spec.Conf.State → Prop) (hI : Speaks I Rep) (s : σ) (m : Spec.Conf.State) (h : Rep s m)
    (l : List Use) (k k' : Text) (hl : .get k ∈ l ∨ .exists k ∈ l) (hk : place k = place k') (hd : Spec.Path.dir k = false) :
    (Reget.getKey I (uses I (Reget.new I s) l) (Key.parse k')).2.asked = (uses I (Reget.new I s) l).asked := by
  -- asking remembers
  have key : ∀ a : Use, (a = .get k ∨ a = .exists k) → a ∈ l → (look (uses I (Reget.new I s) l).tree (place k)).isSome := by
    intro a ha hm
    obtain ⟨b, c, rfl⟩ := List.append_of_mem hm
    rw [uses_append]
    obtain ⟨h1, h2, -⟩ := uses_spec I Rep hI b (Reget.new I s) m h (new_sound I Rep hI s m h)
    obtain ⟨h3, h4, -⟩ := use_spec I Rep hI _ _ h1 h2 a
    have h5 := (uses_spec I Rep hI c _ _ h3 h4).2.2
    have h6 := (getKey_spec I Rep hI k _ _ h1 h2).2.2.2.2.1 hd
    rcases ha with rfl | rfl
    · exact h5 _ h6
    · exact h5 _ h6
  have hlook : (look (uses I (Reget.new I s) l).tree (place k)).isSome := by
    rcases hl with hl | hl
    · exact key _ (Or.inl rfl) hl
    · exact key _ (Or.inr rfl) hl
  obtain ⟨h1, h2, -⟩ := uses_spec I Rep hI l (Reget.new I s) m h (new_sound I Rep hI s m h)
  rw [(getKey_spec I Rep hI k' _ _ h1 h2).2.2.2.2.2 (Or.inr (hk ▸ hlook))]

/-- In-memory generators are such generators. -/
example : ∃ Rep, Speaks (NGen.temp id) Rep ∧ ∀ l : List Temp.SetCall, Rep (Temp.after TempGen.new l) (Temp.conf l) :=
  ⟨_, temp_speaks id (fun _ => List.Perm.refl _), fun l => ⟨Temp.conf_holds l,
    Rec.run_shape (Temp.calls l) Spec.Conf.empty Rec.empty_shape.1 Rec.empty_shape.2⟩⟩

/-- Asking for a key that is not there and then made; then its parent is removed. The inner generator is asked for the root and "a", and for
    nothing else. -/
example : ∃ l : List Use, ∃ s, s = uses (NGen.temp id) (Reget.new (NGen.temp id) (TempGen.set id TempGen.new (Key.parse (str ['x'])) (some [])).1) l ∧
    .get (str ['a', '/', 'b']) ∈ l ∧
    (Reget.getKey (NGen.temp id) s (Key.parse (str ['A', '/', 'B']))).1 = some (str ['1']) ∧
    (Reget.getKey (NGen.temp id) s (Key.parse (str ['A', '/', 'B']))).2.asked.length = 2 ∧
    (Reget.getKey (NGen.temp id) (Reget.set (NGen.temp id) s (Key.parse (str ['a'])) none) (Key.parse (str ['a', '/', 'b']))).1 = none ∧
    (Reget.getKey (NGen.temp id) (Reget.set (NGen.temp id) s (Key.parse (str ['a'])) none) (Key.parse (str ['a', '/', 'c']))).2.asked.length = 2 :=
  ⟨[.get (str ['a', '/', 'b']), .direct (str ['a', '/', 'b']) (some (str ['1']))], _, rfl, by decide +kernel⟩

end Props
