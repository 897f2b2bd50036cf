import Verif.Model.DirWalk
import Verif.Lemmas.TextUtil
/- Lemmas for C78. -/
namespace Wv.DirWalk
open Spec.DirWalk Wv.TextUtil

theorem lastSlash_of (p q : List Byte) (hq : ch '/' ∉ q) : lastSlash (p ++ [ch '/'] ++ q) = some (p, q) := by
  cases h : lastSlash (p ++ [ch '/'] ++ q) with
  | none => exact absurd (by simp) (lastSlash_none _ h)
  | some x =>
    obtain ⟨p', q'⟩ := x
    obtain ⟨e, hq'⟩ := lastSlash_some _ _ _ h
    have : q' = q ∧ p' = p := by
      rw [List.append_assoc, List.append_assoc] at e
      rcases List.append_eq_append_iff.1 e with ⟨a, e1, e2⟩ | ⟨a, e1, e2⟩
      · cases a with
        | nil => simp at e1 e2; exact ⟨e2.symm, e1⟩
        | cons c a =>
          simp at e2
          exact absurd (by rw [e2.2]; simp) hq
      · cases a with
        | nil => simp at e1 e2; exact ⟨e2, e1.symm⟩
        | cons c a =>
          simp at e2
          exact absurd (by rw [e2.2]; simp) hq'
    rw [this.1, this.2]

/-- Going up from "x/n/" leads to "x/". -/
theorem getdirname_up (x n : List Byte) (hx : x ≠ []) (hn : n ≠ [] ∧ ch '/' ∉ n) :
    getdirname (x ++ [ch '/'] ++ n ++ [ch '/']) = x := by
  unfold getdirname
  rw [getdirnameLoop]
  rw [if_neg (by simp)]
  have h1 := lastSlash_of (x ++ [ch '/'] ++ n) [] (by simp)
  rw [List.append_nil] at h1
  rw [h1]
  simp only
  have hl : (x ++ [ch '/'] ++ n ++ [ch '/']).length = (x.length + n.length + 1) + 1 := by
    simp only [List.length_append, List.length_singleton]; omega
  rw [hl, getdirnameLoop, if_neg (by simp), lastSlash_of x n hn.2]
  obtain ⟨c, r, e⟩ := List.exists_cons_of_ne_nil hn.1
  rw [e]
  simp only
  rw [if_neg (by simp [hx])]

/-- What is still to be shown. -/
def pend (ent : Nat → Bool) (frs : List (Frame × List Byte)) : List Ent :=
  frs.flatMap fun p => visitAll ent p.1.name p.2 p.1.rest

/-- The open directories are one in the other, and the names go with them. -/
inductive Chain (base : List Byte) : List (Frame × List Byte) → Prop
  | top (es : Dir) : es.Good → Chain base [(⟨base, es⟩, [])]
  | sub (f : Frame) (rel n : List Byte) (fs : List (Frame × List Byte)) (es : Dir) : Chain base ((f, rel) :: fs) →
      (n ≠ [] ∧ ch '/' ∉ n) → n ∉ f.rest.names → es.Good →
      Chain base ((⟨f.name ++ [ch '/'] ++ n, es⟩, rel ++ n ++ [ch '/']) :: (f, rel) :: fs)

theorem chain_good {base : List Byte} {f : Frame} {rel : List Byte} {fs : List (Frame × List Byte)}
    (h : Chain base ((f, rel) :: fs)) : f.rest.Good := by
  cases h with
  | top es h => exact h
  | sub _ _ _ _ _ _ _ _ h => exact h

/-- Reading on in the innermost directory. -/
theorem chain_read {base : List Byte} {f : Frame} {rel : List Byte} {fs : List (Frame × List Byte)}
    (h : Chain base ((f, rel) :: fs)) (rest : Dir) (hg : rest.Good) : Chain base (({ f with rest := rest }, rel) :: fs) := by
  cases h with
  | top es h => exact .top rest hg
  | sub f' rel' n fs' es h1 h2 h3 h4 => exact .sub f' rel' n fs' rest h1 h2 h3 hg

/-- The path of the innermost directory. -/
theorem chain_rel {base : List Byte} {f : Frame} {rel : List Byte} {fs : List (Frame × List Byte)}
    (h : Chain base ((f, rel) :: fs)) : (fs = [] ∧ rel = []) ∨ (fs ≠ [] ∧ ∃ x, x ≠ [] ∧ rel = x ++ [ch '/']) := by
  cases h with
  | top es h => exact Or.inl ⟨rfl, rfl⟩
  | sub f' rel' n fs' es h1 h2 h3 h4 =>
    refine Or.inr ⟨by simp, rel' ++ n, by simp [h2.1], rfl⟩

/-- The path that `step` has after a directory is at its end. -/
theorem chain_pop {base : List Byte} {p q : Frame × List Byte} {fs : List (Frame × List Byte)}
    (h : Chain base (p :: q :: fs)) :
    Chain base (q :: fs) ∧ (if fs.length = 0 then [] else getdirname p.2 ++ [ch '/']) = q.2 := by
  cases h with
  | sub f' rel' n fs' es h1 h2 h3 h4 =>
    refine ⟨h1, ?_⟩
    rcases chain_rel h1 with ⟨e1, e2⟩ | ⟨e1, x, hx, e2⟩
    · rw [if_pos (by simp [e1]), e2]
    · rw [if_neg (by simp [e1]), e2]
      show getdirname (x ++ [ch '/'] ++ n ++ [ch '/']) ++ [ch '/'] = x ++ [ch '/']
      rw [getdirname_up x n hx h2]

theorem readOk_dots (n : List Byte) (nd : Node) (rest : Dir) (h : dots n = true) :
    readOk (.cons n nd rest) = readOk rest := by
  cases nd <;> simp [readOk, h]

theorem readOk_gone (n : List Byte) (rest : Dir) : readOk (.cons n .gone rest) = readOk rest := by
  simp [readOk]

theorem readOk_some (n : List Byte) (nd : Node) (rest : Dir) (h : dots n = false) (hn : nd ≠ .gone) :
    readOk (.cons n nd rest) = some (n, nd, rest) := by
  cases nd with
  | gone => exact absurd rfl hn
  | file d => simp [readOk, h]
  | dir d r es => simp [readOk, h]

/-- What `readOk` finds is the first file to show. -/
def Found (ent : Nat → Bool) (full rel : List Byte) (es : Dir) (n : List Byte) (nd : Node) (rest : Dir) : Prop :=
  visitAll ent full rel es = visit ent full rel n nd ++ visitAll ent full rel rest ∧
    nd ≠ .gone ∧ (n ≠ [] ∧ ch '/' ∉ n) ∧ n ∉ rest.names ∧ nd.Good ∧ rest.Good ∧
    ∀ m, m ∈ rest.names → m ∈ es.names

theorem readOk_spec (ent : Nat → Bool) (full rel : List Byte) (es : Dir) (hg : es.Good) :
    (readOk es = none → visitAll ent full rel es = []) ∧
    (∀ n nd rest, readOk es = some (n, nd, rest) → Found ent full rel es n nd rest) := by
  match es, hg with
  | .nil, _ => exact ⟨fun _ => by simp [visitAll], fun n nd rest h => by simp [readOk] at h⟩
  | .cons n nd rest, hg =>
    have hg : (n ≠ [] ∧ ch '/' ∉ n) ∧ n ∉ rest.names ∧ nd.Good ∧ rest.Good := by simpa only [Dir.Good] using hg
    obtain ⟨g1, g2, g3, g4⟩ := hg
    obtain ⟨ih1, ih2⟩ := readOk_spec ent full rel rest g4
    have skip : visitAll ent full rel (.cons n nd rest) = visitAll ent full rel rest →
        readOk (.cons n nd rest) = readOk rest →
        (readOk (.cons n nd rest) = none → visitAll ent full rel (.cons n nd rest) = []) ∧
        (∀ n' nd' rest', readOk (.cons n nd rest) = some (n', nd', rest') →
          Found ent full rel (.cons n nd rest) n' nd' rest') := by
      intro e1 e2
      rw [e2, e1]
      refine ⟨ih1, fun n' nd' rest' h => ?_⟩
      obtain ⟨i1, i2, i3, i4, i5, i6, i7⟩ := ih2 n' nd' rest' h
      exact ⟨by rw [e1]; exact i1, i2, i3, i4, i5, i6,
        fun m hm => by simp only [Dir.names]; exact List.mem_cons_of_mem _ (i7 m hm)⟩
    rcases (Bool.eq_false_or_eq_true (dots n)).symm with hd | hd
    · by_cases hgone : nd = .gone
      · subst hgone
        exact skip (by simp [visitAll, visit]) (readOk_gone n rest)
      · rw [readOk_some n nd rest hd hgone]
        refine ⟨fun h => by (cases h), fun n' nd' rest' h => ?_⟩
        cases h
        exact ⟨by simp [visitAll, hd], hgone, g1, g2, g3, g4,
          fun m hm => by simp only [Dir.names]; exact List.mem_cons_of_mem _ hm⟩
    · exact skip (by simp [visitAll, hd]) (readOk_dots n nd rest hd)

/-- The directories to go into. -/
def ents (recurse skip : Bool) (d0 : Nat) : Nat → Bool := fun d => recurse && (!skip || d == d0)

/-- The directories that are gone into are those of `ents recurse skip d0`. -/
def Enters (it : Iter) (recurse skip : Bool) (d0 : Nat) (frames : List Frame) : Prop :=
  it.recurse = recurse ∧ it.skip = skip ∧ (skip = true → it.top = some d0 ∨ (it.top = none ∧
    ∃ f, frames = [f] ∧ ∀ n nd rest, readOk f.rest = some (n, nd, rest) → dev nd = d0))

/-- After one call of `next`, where `l` was still to be shown. -/
def After (base : List Byte) (rc sk : Bool) (d0 : Nat) (it : Iter) (l : List Ent) (r : Bool × Iter) : Prop :=
  (l = [] → r.1 = false ∧ r.2.rel = [] ∧ r.2.frames = [⟨base, .nil⟩] ∧ Enters r.2 rc sk d0 r.2.frames) ∧
  (∀ e l', l = e :: l' → r.1 = true ∧ r.2.info = e ∧
    ∃ p' frs', r.2.frames = (p' :: frs').map (·.1) ∧ r.2.rel = p'.2 ∧ Chain base (p' :: frs') ∧
      pend (ents rc sk d0) (p' :: frs') = l' ∧ Enters r.2 rc sk d0 r.2.frames) ∧
  r.2.goUp = it.goUp ∧ r.2.all = it.all

theorem chain_base {base : List Byte} {f : Frame} {rel : List Byte} (h : Chain base [(f, rel)]) :
    f.name = base ∧ rel = [] := by
  cases h with
  | top es h => exact ⟨rfl, rfl⟩

theorem step_found (base : List Byte) (rc sk : Bool) (d0 : Nat) (it : Iter) (frs : List (Frame × List Byte)) (f : Frame)
    (rel : List Byte) (hc : Chain base ((f, rel) :: frs)) (he : Enters it rc sk d0 (f :: frs.map (·.1)))
    (n : List Byte) (nd : Node) (rest : Dir) (hr : readOk f.rest = some (n, nd, rest)) :
    After base rc sk d0 it (pend (ents rc sk d0) ((f, rel) :: frs)) (step it (f :: frs.map (·.1)) rel) := by
  obtain ⟨f1, f2, f3, f4, f5, f6, f7⟩ := (readOk_spec (ents rc sk d0) f.name rel f.rest (chain_good hc)).2 n nd rest hr
  have hc' := chain_read hc rest f6
  have hpend : pend (ents rc sk d0) ((f, rel) :: frs)
      = visit (ents rc sk d0) f.name rel n nd ++ pend (ents rc sk d0) (({ f with rest := rest }, rel) :: frs) := by
    unfold pend
    rw [List.flatMap_cons, List.flatMap_cons, f1, List.append_assoc]
  have hrel : (if rel = [] then n else rel ++ n) = rel ++ n := by
    split
    · rename_i h; rw [h]; rfl
    · rfl
  -- what is gone into
  have hin : ∀ d, (it.recurse && (!it.skip || d == it.top.getD (dev nd))) = ents rc sk d0 d := by
    intro d
    obtain ⟨h1, h2, h3⟩ := he
    unfold ents
    rw [h1, h2]
    cases sk with
    | false => simp
    | true =>
      have : it.top.getD (dev nd) = d0 := by
        rcases h3 rfl with h3 | ⟨h3, f', h4, h5⟩
        · rw [h3]; rfl
        · have hf : f = f' := (List.cons.inj h4).1
          subst hf
          rw [h3]; exact h5 n nd rest hr
      rw [this]
  have hent : ∀ (it' : Iter) fr, it'.recurse = it.recurse → it'.skip = it.skip → it'.top = some (it.top.getD (dev nd)) →
      Enters it' rc sk d0 fr := by
    intro it' fr e1 e2 e3
    obtain ⟨h1, h2, h3⟩ := he
    refine ⟨e1.trans h1, e2.trans h2, fun hs => Or.inl ?_⟩
    rw [e3]
    rcases h3 hs with h3 | ⟨h3, f', h4, h5⟩
    · rw [h3]; rfl
    · have hf : f = f' := (List.cons.inj h4).1
      subst hf
      rw [h3]; exact congrArg some (h5 n nd rest hr)
  unfold step
  rw [hr]
  simp only
  rw [hrel]
  match nd, f2, f5, hr, hin, hent, hpend with
  | .gone, f2, _, _, _, _, _ => exact absurd rfl f2
  | .file d, _, _, hr, hin, hent, hpend =>
    rw [hpend]
    simp only [visit, List.singleton_append, enter]
    refine ⟨fun h => by (cases h), fun e l' h => ?_, rfl, rfl⟩
    cases h
    exact ⟨rfl, rfl, _, _, rfl, rfl, hc', rfl, hent _ _ rfl rfl rfl⟩
  | .dir d r es, _, f5, hr, hin, hent, hpend =>
    rw [hpend]
    simp only [visit, List.cons_append, enter]
    have hin' := hin d
    rw [hin']
    refine ⟨fun h => by (cases h), fun e l' h => ?_, ?_, ?_⟩
    · cases h
      by_cases hb : (ents rc sk d0 d && r) = true
      · rw [if_pos hb, if_pos (by rw [Bool.and_comm]; exact hb)]
        refine ⟨rfl, rfl, (⟨f.name ++ [ch '/'] ++ n, es⟩, rel ++ n ++ [ch '/']), ({ f with rest := rest }, rel) :: frs, rfl, rfl,
          .sub _ _ _ _ _ hc' f3 f4 (by simpa only [Node.Good] using f5), ?_, hent _ _ rfl rfl rfl⟩
        unfold pend
        rw [List.flatMap_cons, List.flatMap_cons]
      · rw [if_neg hb, if_neg (by rw [Bool.and_comm]; exact hb)]
        exact ⟨rfl, rfl, _, _, rfl, rfl, hc', rfl, hent _ _ rfl rfl rfl⟩
    · split <;> rfl
    · split <;> rfl

/-- One call of `next`, in a directory that is not left with `up`. -/
theorem step_spec (base : List Byte) (rc sk : Bool) (d0 : Nat) (it : Iter) (frs : List (Frame × List Byte)) :
    ∀ (f : Frame) (rel : List Byte), Chain base ((f, rel) :: frs) → Enters it rc sk d0 (f :: frs.map (·.1)) →
    After base rc sk d0 it (pend (ents rc sk d0) ((f, rel) :: frs)) (step it (f :: frs.map (·.1)) rel) := by
  induction frs with
  | nil =>
    intro f rel hc he
    cases hr : readOk f.rest with
    | some x => obtain ⟨n, nd, rest⟩ := x; exact step_found base rc sk d0 it [] f rel hc he n nd rest hr
    | none =>
      have hp : pend (ents rc sk d0) [(f, rel)] = [] := by
        unfold pend
        simp only [List.flatMap_cons, List.flatMap_nil, List.append_nil]
        exact (readOk_spec (ents rc sk d0) f.name rel f.rest (chain_good hc)).1 hr
      rw [hp]
      unfold step
      simp only [List.map_nil]
      rw [hr]
      simp only
      obtain ⟨e1, e2⟩ := chain_base hc
      have hE : Enters { it with frames := [{ f with rest := .nil }], rel := rel } rc sk d0 [{ f with rest := .nil }] := by
        refine ⟨he.1, he.2.1, fun hs => ?_⟩
        rcases he.2.2 hs with h3 | ⟨h3, _⟩
        · exact Or.inl h3
        · exact Or.inr ⟨h3, _, rfl, fun n nd rest h => by simp [readOk] at h⟩
      exact ⟨fun _ => ⟨rfl, e2, by rw [e1], hE⟩, fun e l' h => by (cases h), rfl, rfl⟩
  | cons q frs ih =>
    intro f rel hc he
    cases hr : readOk f.rest with
    | some x => obtain ⟨n, nd, rest⟩ := x; exact step_found base rc sk d0 it (q :: frs) f rel hc he n nd rest hr
    | none =>
      obtain ⟨hc', hrel⟩ := chain_pop hc
      have hp : pend (ents rc sk d0) ((f, rel) :: q :: frs) = pend (ents rc sk d0) (q :: frs) := by
        have := (readOk_spec (ents rc sk d0) f.name rel f.rest (chain_good hc)).1 hr
        unfold pend
        rw [List.flatMap_cons]
        show visitAll (ents rc sk d0) f.name rel f.rest ++ _ = _
        rw [this]; rfl
      have he' : Enters it rc sk d0 (q.1 :: frs.map (·.1)) := by
        refine ⟨he.1, he.2.1, fun hs => Or.inl ?_⟩
        rcases he.2.2 hs with h3 | ⟨_, f', h4, _⟩
        · exact h3
        · cases h4
      have := ih q.1 q.2 hc' he'
      rw [hp]
      have hs : step it (f :: (q :: frs).map (·.1)) rel = step it (q.1 :: frs.map (·.1)) q.2 := by
        have hrel' : (if (frs.map (·.1)).length = 0 then [] else getdirname rel ++ [ch '/']) = q.2 := by
          rw [List.length_map]; exact hrel
        rw [List.map_cons, step, hr]
        simp only
        rw [hrel']
      rw [hs]
      exact this

/-- A run. -/
theorem run_spec (base : List Byte) (rc sk : Bool) (d0 : Nat) (n : Nat) :
    ∀ (it : Iter) (p : Frame × List Byte) (frs : List (Frame × List Byte)), Chain base (p :: frs) →
    it.frames = (p :: frs).map (·.1) → it.rel = p.2 → it.goUp = false → Enters it rc sk d0 it.frames →
    (run n it).1 = (pend (ents rc sk d0) (p :: frs)).take n ∧
    (∃ p' frs', Chain base (p' :: frs') ∧ (run n it).2.frames = (p' :: frs').map (·.1) ∧ (run n it).2.rel = p'.2 ∧
      pend (ents rc sk d0) (p' :: frs') = (pend (ents rc sk d0) (p :: frs)).drop n) ∧
    (run n it).2.goUp = false ∧ (run n it).2.all = it.all ∧ Enters (run n it).2 rc sk d0 (run n it).2.frames := by
  induction n with
  | zero =>
    intro it p frs hc hf hr hu he
    exact ⟨by simp [run], ⟨p, frs, hc, hf, hr, by simp⟩, hu, rfl, he⟩
  | succ n ih =>
    intro it p frs hc hf hr hu he
    have hn : next it = step it (p.1 :: frs.map (·.1)) p.2 := by
      unfold next
      rw [hf]
      simp only [List.map_cons]
      rw [hu, if_neg (by simp), hr]
    have hA := step_spec base rc sk d0 it frs p.1 p.2 hc (by rw [hf] at he; exact he)
    rw [← hn] at hA
    obtain ⟨a1, a2, a3, a4⟩ := hA
    have hp : pend (ents rc sk d0) ((p.1, p.2) :: frs) = pend (ents rc sk d0) (p :: frs) := rfl
    rw [hp] at a1 a2
    unfold run
    cases hl : pend (ents rc sk d0) (p :: frs) with
    | nil =>
      obtain ⟨b1, b2, b3, b4⟩ := a1 hl
      cases hx : next it with
      | mk x y =>
        rw [hx] at b1 b2 b3 b4 a3 a4
        have hb : x = false := b1
        subst hb
        refine ⟨rfl, ⟨(⟨base, .nil⟩, []), [], .top _ (by simp [Dir.Good]), b3, b2, ?_⟩, a3.trans hu, a4, b4⟩
        simp [pend, visitAll]
    | cons e l =>
      obtain ⟨b1, b2, p', frs', b3, b4, b5, b6, b7⟩ := a2 e l hl
      cases hx : next it with
      | mk x y =>
        rw [hx] at b1 b2 b3 b4 b7 a3 a4
        have hb : x = true := b1
        subst hb
        obtain ⟨c1, c2, c3, c4, c5⟩ := ih y p' frs' b5 b3 b4 (a3.trans hu) b7
        simp only
        have e2 : y.info = e := b2
        refine ⟨by rw [c1, b6, e2]; rfl, ?_, c3, c4.trans a4, c5⟩
        rw [b6] at c2
        exact c2

theorem readOk_firstDev (es : Dir) (n : List Byte) (nd : Node) (rest : Dir) (h : readOk es = some (n, nd, rest)) :
    es.firstDev = some (dev nd) := by
  match es with
  | .nil => simp [readOk] at h
  | .cons m x r =>
    rcases (Bool.eq_false_or_eq_true (dots m)).symm with hd | hd
    · cases x with
      | gone =>
        rw [readOk_gone] at h
        have := readOk_firstDev r n nd rest h
        simp [Dir.firstDev, Node.dev, this]
      | file d =>
        rw [readOk_some m _ r hd (by simp)] at h
        cases h
        simp [Dir.firstDev, Node.dev, dev, hd]
      | dir d q es =>
        rw [readOk_some m _ r hd (by simp)] at h
        cases h
        simp [Dir.firstDev, Node.dev, dev, hd]
    · rw [readOk_dots m x r hd] at h
      have := readOk_firstDev r n nd rest h
      simp [Dir.firstDev, hd, this]

/-- Two iterators that differ in the path from the start only. -/
def Same (a b : Iter) : Prop :=
  a.recurse = b.recurse ∧ a.skip = b.skip ∧ a.goUp = b.goUp ∧ a.top = b.top ∧ a.frames = b.frames ∧ a.all = b.all ∧
  a.info.full = b.info.full ∧ a.info.name = b.info.name ∧ a.info.isDir = b.info.isDir

theorem step_same (a b : Iter) (h1 : a.recurse = b.recurse) (h2 : a.skip = b.skip) (h3 : a.goUp = b.goUp)
    (h4 : a.top = b.top) (h6 : a.all = b.all) (h7 : a.info.full = b.info.full) (h8 : a.info.name = b.info.name)
    (h9 : a.info.isDir = b.info.isDir) (fs : List Frame) : ∀ r r',
    (step a fs r).1 = (step b fs r').1 ∧ Same (step a fs r).2 (step b fs r').2 := by
  induction fs with
  | nil => intro r r'; exact ⟨rfl, h1, h2, h3, h4, rfl, h6, h7, h8, h9⟩
  | cons f fs ih =>
    intro r r'
    unfold step
    cases hr : readOk f.rest with
    | none =>
      cases fs with
      | nil => exact ⟨rfl, h1, h2, h3, h4, rfl, h6, h7, h8, h9⟩
      | cons g gs => exact ih _ _
    | some x =>
      obtain ⟨n, nd, rest⟩ := x
      simp only
      refine ⟨trivial, ?_⟩
      cases nd with
      | gone => exact ⟨h1, h2, h3, by simp only [enter]; rw [h4], rfl, h6, rfl, rfl, rfl⟩
      | file d => exact ⟨h1, h2, h3, by simp only [enter]; rw [h4], rfl, h6, rfl, rfl, rfl⟩
      | dir d q es =>
        simp only [enter]
        rw [h1, h2, h4]
        split
        · exact ⟨rfl, rfl, h3, rfl, rfl, h6, rfl, rfl, rfl⟩
        · exact ⟨rfl, rfl, h3, rfl, rfl, h6, rfl, rfl, rfl⟩

theorem next_same (a b : Iter) (h : Same a b) : (next a).1 = (next b).1 ∧ Same (next a).2 (next b).2 := by
  unfold next
  have h5 := h.2.2.2.2.1
  have h3 := h.2.2.1
  cases hb : b.frames with
  | nil => rw [h5, hb]; exact ⟨rfl, h⟩
  | cons f fs =>
    rw [h5, hb]
    simp only
    rw [h3]
    have h' : Same { a with goUp := false, frames := f :: fs } { b with goUp := false, frames := f :: fs } :=
      ⟨h.1, h.2.1, rfl, h.2.2.2.1, rfl, h.2.2.2.2.2⟩
    cases b.goUp with
    | true =>
      rw [if_pos rfl, if_pos rfl]
      split
      · exact step_same { a with goUp := false, frames := f :: fs } { b with goUp := false, frames := f :: fs }
          h.1 h.2.1 rfl h.2.2.2.1 h.2.2.2.2.2.1 h.2.2.2.2.2.2.1 h.2.2.2.2.2.2.2.1 h.2.2.2.2.2.2.2.2 _ _ _
      · exact ⟨rfl, h'⟩
    | false => exact step_same _ _ h.1 h.2.1 h3 h.2.2.2.1 h.2.2.2.2.2.1 h.2.2.2.2.2.2.1 h.2.2.2.2.2.2.2.1 h.2.2.2.2.2.2.2.2 _ _ _

/-- The full name, the name, and whether it is a directory. -/
def brief (e : Ent) : List Byte × List Byte × Bool := (e.full, e.name, e.isDir)

theorem run_same_next (n : Nat) (a b : Iter) (h : (next a).1 = (next b).1 ∧ Same (next a).2 (next b).2)
    (ih : ∀ (a b : Iter), Same a b → (run n a).1.map brief = (run n b).1.map brief) :
    (run (n + 1) a).1.map brief = (run (n + 1) b).1.map brief := by
  obtain ⟨h1, h2⟩ := h
  unfold run
  cases ha : next a with
  | mk x y =>
    cases hb : next b with
    | mk x' y' =>
      rw [ha, hb] at h1 h2
      have h1 : x = x' := h1
      have h2 : Same y y' := h2
      subst h1
      cases x with
      | false => rfl
      | true =>
        simp only [List.map_cons]
        rw [ih y y' h2]
        have : brief y.info = brief y'.info := by
          obtain ⟨_, _, _, _, _, _, h7, h8, h9⟩ := h2
          unfold brief
          rw [h7, h8, h9]
        rw [this]

theorem run_same (n : Nat) : ∀ (a b : Iter), Same a b → (run n a).1.map brief = (run n b).1.map brief := by
  induction n with
  | zero => intro a b h; rfl
  | succ n ih =>
    intro a b h
    exact run_same_next n a b (next_same a b h) ih

mutual
/-- What is in a directory has its name in front. -/
theorem visit_below (ent : Nat → Bool) (nd : Node) (full rel n : List Byte) (e : Ent) (he : e ∈ visit ent full rel n nd) :
    ∃ t, e.full = full ++ [ch '/'] ++ n ++ t ∧ (t = [] ∨ ∃ t', t = ch '/' :: t') := by
  match nd, he with
  | .gone, he => simp [visit] at he
  | .file d, he =>
    simp only [visit, List.mem_singleton] at he
    subst he
    exact ⟨[], by simp, Or.inl rfl⟩
  | .dir d r es, he =>
    simp only [visit, List.mem_cons] at he
    rcases he with he | he
    · subst he
      exact ⟨[], by simp, Or.inl rfl⟩
    · split at he
      · obtain ⟨m, t, _, h2, _⟩ := visitAll_below ent es _ _ e he
        exact ⟨ch '/' :: (m ++ t), by rw [h2]; simp, Or.inr ⟨_, rfl⟩⟩
      · cases he

theorem visitAll_below (ent : Nat → Bool) (es : Dir) (full rel : List Byte) (e : Ent) (he : e ∈ visitAll ent full rel es) :
    ∃ n t, n ∈ es.names ∧ e.full = full ++ [ch '/'] ++ n ++ t ∧ (t = [] ∨ ∃ t', t = ch '/' :: t') := by
  match es, he with
  | .nil, he => simp [visitAll] at he
  | .cons n nd rest, he =>
    simp only [visitAll, List.mem_append] at he
    rcases he with he | he
    · split at he
      · cases he
      · obtain ⟨t, h1, h2⟩ := visit_below ent nd full rel n e he
        exact ⟨n, t, by simp [Dir.names], h1, h2⟩
    · obtain ⟨m, t, h0, h1, h2⟩ := visitAll_below ent rest full rel e he
      exact ⟨m, t, by simp [Dir.names, h0], h1, h2⟩
end

theorem good_names (es : Dir) (hg : es.Good) : ∀ n ∈ es.names, n ≠ [] ∧ ch '/' ∉ n := by
  match es, hg with
  | .nil, _ => intro n h; simp [Dir.names] at h
  | .cons m nd rest, hg =>
    have hg : (m ≠ [] ∧ ch '/' ∉ m) ∧ m ∉ rest.names ∧ nd.Good ∧ rest.Good := by simpa only [Dir.Good] using hg
    intro n h
    simp only [Dir.names, List.mem_cons] at h
    rcases h with h | h
    · rw [h]; exact hg.1
    · exact good_names rest hg.2.2.2 n h

/-- `n/…` is not `m` or `m/…`. -/
theorem not_below (n m t u : List Byte) (hn : ch '/' ∉ n) (hm : ch '/' ∉ m) (hne : n ≠ m)
    (ht : t = [] ∨ ∃ t', t = ch '/' :: t') : n ++ [ch '/'] ++ u ≠ m ++ t := by
  induction n generalizing m with
  | nil =>
    intro h
    cases m with
    | nil => exact hne rfl
    | cons c m =>
      simp at h
      exact hm (by rw [h.1]; simp)
  | cons c n ih =>
    intro h
    cases m with
    | nil =>
      rcases ht with ht | ⟨t', ht⟩
      · rw [ht] at h; simp at h
      · rw [ht] at h
        simp at h
        exact hn (by rw [← h.1]; simp)
    | cons d m =>
      simp only [List.cons_append, List.cons.injEq] at h
      exact ih m (fun x => hn (List.mem_cons_of_mem _ x)) (fun x => hm (List.mem_cons_of_mem _ x))
        (fun x => hne (by rw [h.1, x])) h.2

/-- What is shown after a directory is not in it. -/
theorem chain_other {base : List Byte} (ent : Nat → Bool) : ∀ (fs : List (Frame × List Byte)) (p : Frame × List Byte),
    Chain base (p :: fs) → ∀ e ∈ pend ent fs, ∀ u, e.full ≠ p.1.name ++ [ch '/'] ++ u := by
  intro fs
  induction fs with
  | nil => intro p _ e he; simp [pend] at he
  | cons q fs ih =>
    intro p hc e he u
    cases hc with
    | sub f rel n _ es h1 h2 h3 h4 =>
      unfold pend at he
      rw [List.flatMap_cons, List.mem_append] at he
      rcases he with he | he
      · obtain ⟨m, t, e1, e2, e3⟩ := visitAll_below ent f.rest f.name rel e he
        rw [e2]
        intro h
        have hm := good_names f.rest (chain_good h1) m e1
        have : n ++ [ch '/'] ++ u = m ++ t := by
          have h' : f.name ++ ([ch '/'] ++ (m ++ t)) = f.name ++ ([ch '/'] ++ (n ++ [ch '/'] ++ u)) := by
            simpa using h
          exact (List.append_cancel_left (List.append_cancel_left h')).symm
        exact not_below n m t u h2.2 hm.2 (fun x => h3 (by rw [x]; exact e1)) e3 this
      · intro h
        refine ih (f, rel) h1 e he (n ++ [ch '/'] ++ u) ?_
        rw [h]
        simp

/-- An iterator at the start. -/
def start (base : List Byte) (rc sk : Bool) (es : Dir) : Iter :=
  { recurse := rc, skip := sk, goUp := false, top := none, frames := [⟨base, es⟩], all := es, rel := [],
    info := ⟨[], [], [], false⟩ }

theorem new_ok (dirname : List Byte) (rc sk : Bool) (es : Dir) (h : strip dirname ≠ []) :
    (new dirname rc sk (some es)).rewind = start (strip dirname) rc sk es := by
  unfold Iter.rewind new
  simp only
  rw [if_neg h]
  rfl

/-- A run from the start. -/
theorem run_new (dirname : List Byte) (rc sk : Bool) (d0 : Nat) (es : Dir) (h : strip dirname ≠ []) (hg : es.Good)
    (hd : sk = true → ∀ d, es.firstDev = some d → d = d0) (n : Nat) (it : Iter)
    (hit : it = (run n (new dirname rc sk (some es)).rewind).2) :
    (run n (new dirname rc sk (some es)).rewind).1 = (visitAll (ents rc sk d0) (strip dirname) [] es).take n ∧
    (∃ p' frs', Chain (strip dirname) (p' :: frs') ∧ it.frames = (p' :: frs').map (·.1) ∧ it.rel = p'.2 ∧
      pend (ents rc sk d0) (p' :: frs') = (visitAll (ents rc sk d0) (strip dirname) [] es).drop n) ∧
    it.goUp = false ∧ it.all = es ∧ Enters it rc sk d0 it.frames := by
  have hp : pend (ents rc sk d0) [(⟨strip dirname, es⟩, [])] = visitAll (ents rc sk d0) (strip dirname) [] es := by
    simp [pend]
  rw [new_ok dirname rc sk es h] at hit ⊢
  subst hit
  have := run_spec (strip dirname) rc sk d0 n (start (strip dirname) rc sk es) (⟨strip dirname, es⟩, []) []
    (.top es hg) rfl rfl rfl ⟨rfl, rfl, fun hs => Or.inr ⟨rfl, _, rfl, fun n nd rest hr =>
      hd hs _ (readOk_firstDev es n nd rest hr)⟩⟩
  rw [hp] at this
  exact this

theorem chain_last {base : List Byte} : ∀ (fs : List (Frame × List Byte)), Chain base fs →
    ∃ f, (fs.map (·.1)).getLast? = some f ∧ f.name = base := by
  intro fs h
  induction h with
  | top es h => exact ⟨_, rfl, rfl⟩
  | sub f rel n fs es h1 h2 h3 h4 ih =>
    obtain ⟨g, h, e⟩ := ih
    refine ⟨g, ?_, e⟩
    rw [List.map_cons, List.map_cons, List.getLast?_cons_cons]
    exact h

/-- The directory that is open after `next`. -/
theorem step_where (it : Iter) (fs : List Frame) : ∀ rel, (step it fs rel).1 = true →
    ∃ f fs', (step it fs rel).2.frames = f :: fs' ∧
      (((step it fs rel).2.info.isDir = true ∧ f.name = (step it fs rel).2.info.full) ∨
        (step it fs rel).2.info.full = f.name ++ [ch '/'] ++ (step it fs rel).2.info.name) := by
  induction fs with
  | nil => intro rel h; cases h
  | cons f fs ih =>
    intro rel
    unfold step
    cases hr : readOk f.rest with
    | none =>
      cases fs with
      | nil => intro h; cases h
      | cons g gs => exact ih _
    | some x =>
      obtain ⟨n, nd, rest⟩ := x
      intro _
      simp only
      cases nd with
      | gone => exact ⟨_, _, rfl, Or.inr rfl⟩
      | file d => exact ⟨_, _, rfl, Or.inr rfl⟩
      | dir d q es =>
        simp only [enter]
        split
        · exact ⟨_, _, rfl, Or.inl ⟨rfl, rfl⟩⟩
        · exact ⟨_, _, rfl, Or.inr rfl⟩

end Wv.DirWalk
