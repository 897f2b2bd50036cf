import Verif.Model.XIter
import Verif.Props.RecIter
/- C55: iterators over keys that match a pattern. -/
namespace Props
open Wv Spec.Conf Gens Spec.Walk
open Wv.Key (fold mk Names)
open Spec.Path (Matches wild star dots)

/-- "..." is only at the end. -/
def DotsLast (ps : List Text) : Prop := ∀ a b, ps = a ++ dots :: b → b = []

namespace X
open XIter

theorem seg_wild (p : Seg) : Key.segIswild p = wild p := rfl

theorem iswild_one (p : Seg) : Key.iswild [p] = wild p := by simp [Key.iswild, seg_wild]

theorem first_one (p : Seg) (ps : List Seg) (d : Bool) (h : Names (p :: ps)) (hd : d = true → p :: ps ≠ []) : Key.first (mk (p :: ps) d) 1 = [p] := by
  have := Key.first_mk (p :: ps) d h hd 1 (by simp)
  simpa using this

theorem rest_one (p : Seg) (ps : List Seg) (d : Bool) (h : Names (p :: ps)) (hd : d = true → p :: ps ≠ []) :
    Key.removefirst (mk (p :: ps) d) 1 = mk ps (d && !ps.isEmpty) := by
  have := Key.removefirst_mk (p :: ps) d h hd 1
  rw [show ((1 : Nat) : Int) = 1 from rfl] at this
  rw [this]
  cases ps <;> simp

theorem empty_rest (d : Bool) : mk [] (d && !([] : List Seg).isEmpty) = [] := by simp [mk]

theorem heads_nil : heads [] = ([], []) := by decide +kernel

theorem heads_wild (p : Seg) (ps : List Seg) (d : Bool) (h : Names (p :: ps)) (hw : wild p = true) :
    heads (mk (p :: ps) d) = ([p], mk ps (d && !ps.isEmpty)) := by
  simp only [heads, first_one p ps d h (by simp), rest_one p ps d h (by simp), iswild_one, hw, if_true]

theorem collect_spec : ∀ (n : Nat) (w ps : List Seg) (d : Bool), w ≠ [] → Names (w ++ ps) → ps.length ≤ n → (d = true → ps ≠ []) →
    (∀ p ∈ w, wild p = false) →
    ∃ w' l d', w ++ ps = w' ++ l ∧ collect n w (mk ps d) = (w', mk l d') ∧ w' ≠ [] ∧ (∀ p ∈ w', wild p = false) ∧
      (l = [] ∨ ∃ p t, l = p :: t ∧ wild p = true) ∧ (d' = true → l ≠ []) := by
  intro n
  induction n with
  | zero =>
    intro w ps d hw hn hl hd ha
    have : ps = [] := by cases ps <;> simp_all
    subst this
    exact ⟨w, [], d, rfl, rfl, hw, ha, Or.inl rfl, hd⟩
  | succ n ih =>
    intro w ps d hw hn hl hd ha
    cases ps with
    | nil =>
      refine ⟨w, [], d, rfl, ?_, hw, ha, Or.inl rfl, hd⟩
      have : d = false := by cases d <;> simp_all
      subst this
      simp [collect, mk, Key.isempty]
    | cons p ps =>
      have hp : Names (p :: ps) := fun x hx => hn x (by simp at hx ⊢; exact Or.inr hx)
      have he : Key.isempty (mk (p :: ps) d) = false := by rw [Key.isempty_mk _ _ hd]; rfl
      rw [collect]
      simp only [he, Bool.false_eq_true, if_false, first_one p ps d hp hd, rest_one p ps d hp hd, iswild_one]
      by_cases hwp : wild p = true
      · simp only [hwp, if_true]
        exact ⟨w, p :: ps, d, rfl, rfl, hw, ha, Or.inr ⟨p, ps, rfl, hwp⟩, hd⟩
      · have hwp : wild p = false := by simpa using hwp
        simp only [hwp, Bool.false_eq_true, if_false]
        have hone : Rec.One [p] := ⟨p, rfl, hp p (by simp)⟩
        have hnw : Names w := fun x hx => hn x (by simp [hx])
        rw [Rec.append_one hnw hone]
        obtain ⟨w', l, d', h1, h2, h3⟩ := ih (w ++ [p]) ps (d && !ps.isEmpty) (by simp) (by simpa using hn) (by simpa using hl)
          (by cases ps <;> simp) (by
            intro x hx
            rcases List.mem_append.mp hx with hx | hx
            · exact ha x hx
            · simp at hx; rw [hx]; exact hwp)
        exact ⟨w', l, d', by rw [← h1]; simp, h2, h3⟩

theorem heads_name (p : Seg) (ps : List Seg) (d : Bool) (h : Names (p :: ps)) (hw : wild p = false) :
    ∃ w l d', p :: ps = w ++ l ∧ heads (mk (p :: ps) d) = (w, mk l d') ∧ w ≠ [] ∧ (∀ x ∈ w, wild x = false) ∧
      (l = [] ∨ ∃ p t, l = p :: t ∧ wild p = true) ∧ (d' = true → l ≠ []) := by
  have hl : ps.length ≤ (mk (p :: ps) d).length := by rw [Key.mk_length]; simp; omega
  obtain ⟨w, l, d', h1, h2, h3⟩ := collect_spec (mk (p :: ps) d).length [p] ps (d && !ps.isEmpty) (by simp) h hl
    (by cases ps <;> simp) (by simpa using hw)
  refine ⟨w, l, d', h1, ?_, h3⟩
  simp only [heads, first_one p ps d h (by simp), rest_one p ps d h (by simp), iswild_one, hw, Bool.false_eq_true, if_false]
  exact h2

theorem eq_one (p q : Seg) (hp : p ≠ [] ∧ Spec.Path.slash ∉ p) (hq : q ≠ [] ∧ Spec.Path.slash ∉ q) : Key.eq [p] [q] = true ↔ p.map tolower = q.map tolower := by
  have n1 : Names [p] := by intro x hx; simp at hx; rw [hx]; exact hp
  have n2 : Names [q] := by intro x hx; simp at hx; rw [hx]; exact hq
  have := Key.eq_mk [p] [q] false false n1 n2
  simpa [mk, fold] using this

theorem wild_cases (p : Seg) (h : wild p = true) : p = star ∨ p = dots := by
  simp [wild] at h; exact h

theorem eq_star_any : Key.eq [star] Key.ANY = true ∧ Key.eq [star] Key.RECURSIVE_ANY = false ∧ Key.eq [dots] Key.RECURSIVE_ANY = true := by
  decide +kernel

theorem lower_back (s : Seg) (hs : ∀ c ∈ s, ∀ x : Byte, tolower x = tolower c → x = c) : ∀ a : Seg, a.map tolower = s.map tolower → a = s := by
  induction s with
  | nil => intro a h; simpa using h
  | cons c s ih =>
    intro a h
    cases a with
    | nil => simp at h
    | cons x a =>
      simp only [List.map_cons, List.cons.injEq] at h
      rw [hs c (by simp) x h.1, ih (fun d hd => hs d (by simp [hd])) a h.2]

theorem lower_byte : (∀ x : Byte, tolower x = tolower 46 → x = 46) ∧ ∀ x : Byte, tolower x = tolower 42 → x = 42 := by
  constructor <;> (apply forall_byte; decide +kernel)

theorem fold_one (w : List Seg) (s : Seg) (hs : ∀ a : Seg, a.map tolower = s.map tolower → a = s) (h : fold w = fold [s]) : w = [s] := by
  cases w with
  | nil => simp [fold] at h
  | cons a t =>
    cases t with
    | cons => simp [fold] at h
    | nil => rw [hs a (by simpa [fold] using h)]

theorem fold_dots (w : List Seg) (h : fold w = fold [dots]) : w = [dots] :=
  fold_one w dots (lower_back dots (by intro c hc; simp [dots] at hc; subst hc; exact lower_byte.1)) h

theorem fold_star (w : List Seg) (h : fold w = fold [star]) : w = [star] :=
  fold_one w star (lower_back star (by intro c hc; simp [star] at hc; subst hc; exact lower_byte.2)) h

theorem names_star : Names [star] := by intro x hx; simp at hx; subst hx; decide
theorem names_dots : Names [dots] := by intro x hx; simp at hx; subst hx; decide

theorem eq_wild (w : List Seg) (hw : ∀ p ∈ w, wild p = false) (hn : Names w) :
    Key.eq w Key.ANY = false ∧ Key.eq w Key.RECURSIVE_ANY = false := by
  constructor
  · cases h : Key.eq w Key.ANY
    · rfl
    · have := (Key.eq_mk w [star] false false hn names_star).mp (by rw [show mk w false = w by simp [mk], show mk [star] false = Key.ANY by decide +kernel]; exact h)
      have := hw star (by rw [fold_star w this.1]; simp)
      simp [wild] at this
  · cases h : Key.eq w Key.RECURSIVE_ANY
    · rfl
    · have := (Key.eq_mk w [dots] false false hn names_dots).mp (by rw [show mk w false = w by simp [mk], show mk [dots] false = Key.RECURSIVE_ANY by decide +kernel]; exact h)
      have := hw dots (by rw [fold_dots w this.1]; simp)
      simp [wild] at this

theorem choose_all {α : Type} (g : Nat → α → List Key) (P : α → List Key → Prop) (r : List α)
    (h : ∀ x ∈ r, ∃ L N, P x L ∧ ∀ n, N ≤ n → g n x = L) :
    ∃ (F : α → List Key) (N : Nat), (∀ x ∈ r, P x (F x)) ∧ ∀ n, N ≤ n → ∀ x ∈ r, g n x = F x := by
  have h1 : ∀ x, ∃ L : List Key, x ∈ r → ∃ N, P x L ∧ ∀ n, N ≤ n → g n x = L := by
    intro x
    by_cases hx : x ∈ r
    · obtain ⟨L, h⟩ := h x hx; exact ⟨L, fun _ => h⟩
    · exact ⟨[], fun h => absurd h hx⟩
  obtain ⟨F, hF⟩ := Classical.skolem.mp h1
  clear h h1
  refine ⟨F, ?_⟩
  induction r with
  | nil => exact ⟨0, by simp⟩
  | cons x r ih =>
    obtain ⟨N, h1, h2⟩ := ih (fun y hy => hF y (by simp [hy]))
    obtain ⟨N', h3, h4⟩ := hF x (by simp)
    refine ⟨max N N', ?_, ?_⟩
    · intro y hy
      rcases List.mem_cons.mp hy with rfl | hy
      · exact h3
      · exact h1 y hy
    · intro n hn y hy
      rcases List.mem_cons.mp hy with rfl | hy
      · exact h4 n (by omega)
      · exact h2 n (by omega) y hy

theorem flatMap_nodup {α β : Type} (r : List α) (g : α → β) (F : α → List Key) (tag : List Text → β) (h1 : (r.map g).Nodup)
    (h2 : ∀ x ∈ r, ((F x).map fold).Nodup) (h3 : ∀ x ∈ r, ∀ y ∈ F x, tag (fold y) = g x) : ((r.flatMap F).map fold).Nodup := by
  induction r with
  | nil => simp
  | cons x r ih =>
    obtain ⟨n1, n2⟩ := List.nodup_cons.mp h1
    rw [List.flatMap_cons, List.map_append, List.nodup_append]
    refine ⟨h2 x (by simp), ih n2 (fun y hy => h2 y (by simp [hy])) (fun y hy => h3 y (by simp [hy])), ?_⟩
    rintro a ha b hb rfl
    obtain ⟨y, hy, rfl⟩ := List.mem_map.mp ha
    obtain ⟨z, hz, hzy⟩ := List.mem_map.mp hb
    obtain ⟨x', hx', hz'⟩ := List.mem_flatMap.mp hz
    have e1 := h3 x (by simp) y hy
    have e2 := h3 x' (by simp [hx']) z hz'
    rw [hzy, e1] at e2
    exact n1 (e2 ▸ List.mem_map_of_mem hx')

theorem visit_prefix {σ : Type} (I : IGen σ) (s : σ) : ∀ (n j : Nat) (it : RecIter.It),
    (RecIter.visit I s n it).1 <+: (RecIter.visit I s (n + j) it).1 := by
  intro n
  induction n with
  | zero => intro j it; exact List.nil_prefix
  | succ n ih =>
    intro j it
    rw [show n + 1 + j = (n + j) + 1 by omega, RecIter.visit, RecIter.visit]
    simp only
    by_cases h : (RecIter.next I s it).2 = true
    · simp only [h, if_true]
      exact List.cons_prefix_cons.mpr ⟨rfl, ih j _⟩
    · simp only [h, if_false]
      exact List.prefix_refl _

section
variable {σ : Type} (I : IGen σ) (s : σ) (m : Spec.Conf.State) (hr : Reads I s m) (hb : Bounded m) (hc : Closed m)

theorem fold_parse (k : Text) (h : Spec.Path.dir k = false) : fold (Key.parse k) = place k := by
  have := Props.fold_parse k
  rw [this, Spec.Path.order, h]
  simp [place]

include hr in
theorem mem_self (k : Text) (h : Spec.Path.dir k = false) (y : Key) : y ∈ self I s (Key.parse k) ↔ y = Key.parse k ∧ m (place k) ≠ none := by
  have h1 := hr.exists_ k
  rw [Spec.Conf.get, h] at h1
  simp only [Bool.false_eq_true, if_false] at h1
  unfold self
  by_cases h2 : I.exists s (Key.parse k) = true
  · simp [h2, h1.mp h2]
  · have h3 : ¬ m (place k) ≠ none := fun h => h2 (h1.mpr h)
    simp [h2, h3]

theorem self_nodup (top : Key) : ((self I s top).map fold).Nodup := by
  unfold self
  split <;> simp

include hr hb hc in
/-- Names below a text's place are in lower case. -/
theorem low (k : Text) (q : Place) (h : m (place k ++ q) ≠ none) : fold q = q := by
  by_cases hq : q = []
  · subst hq; rfl
  obtain ⟨v, hv⟩ := Option.ne_none_iff_exists'.mp h
  obtain ⟨L, -, -, -, -, h5⟩ := C54_complete I s m hr hb hc k
  obtain ⟨y, -, h6, -⟩ := (h5 q v).mpr ⟨hq, hv⟩
  rw [← h6]
  have : ∀ c : Byte, tolower (tolower c) = tolower c := by apply forall_byte; decide +kernel
  simp [fold, Function.comp_def, this]

/-- what is below a text's place is visited and nothing else -/
def Sound (k : Text) (ps : List Text) (L : List Key) : Prop :=
  ∀ y ∈ L, ∃ q, fold y = place k ++ q ∧ Names y ∧ m (place k ++ q) ≠ none ∧ Matches q ps

def Full (k : Text) (ps : List Text) (L : List Key) : Prop :=
  (L.map fold).Nodup ∧ ∀ q, m (place k ++ q) ≠ none → Matches q ps → ∃ y ∈ L, fold y = place k ++ q

theorem names_parse (k : Text) (h : Spec.Path.dir k = false) : Names (Key.parse k) := by
  rw [Key.parse_eq, h]
  simpa [mk] using Key.names_ok k

include hr in
theorem self_sound (k : Text) (h : Spec.Path.dir k = false) : Sound m k [] (self I s (Key.parse k)) := by
  intro y hy
  obtain ⟨rfl, h1⟩ := (mem_self I s m hr k h y).mp hy
  exact ⟨[], by simp [fold_parse k h], names_parse k h, by simpa using h1, .nil⟩

include hr in
theorem self_full (k : Text) (h : Spec.Path.dir k = false) : Full m k [] (self I s (Key.parse k)) := by
  refine ⟨self_nodup I s _, ?_⟩
  intro q hq hm
  cases hm
  exact ⟨_, (mem_self I s m hr k h _).mpr ⟨rfl, by simpa using hq⟩, by simp [fold_parse k h]⟩

/-- Names that are no wildcards stand for themselves. -/
theorem matches_names : ∀ (w : List Seg), (∀ p ∈ w, wild p = false) → ∀ (l q : List Text), Matches q (w ++ l) ↔
    ∃ x r, q = x ++ r ∧ fold x = fold w ∧ Matches r l := by
  intro w
  induction w with
  | nil =>
    intro _ l q
    constructor
    · intro h; exact ⟨[], q, rfl, rfl, h⟩
    · rintro ⟨x, r, rfl, hx, h⟩
      have : x = [] := by simpa [fold] using hx
      subst this
      exact h
  | cons p w ih =>
    intro hw l q
    have hp := hw p (by simp)
    have ih := ih (fun x hx => hw x (by simp [hx])) l
    constructor
    · intro h
      rw [List.cons_append] at h
      cases h with
      | star h => simp [wild] at hp
      | dots h => simp [wild] at hp
      | name h1 h2 h3 =>
        rename_i x ks
        obtain ⟨a, r, rfl, ha, hr⟩ := (ih ks).mp h3
        refine ⟨x :: a, r, rfl, ?_, hr⟩
        rw [Key.lower_eq] at h2
        simp only [fold, List.map_cons] at ha ⊢
        rw [h2, ha]
    · rintro ⟨x, r, rfl, hx, h⟩
      cases x with
      | nil => simp [fold] at hx
      | cons a x =>
        simp only [fold, List.map_cons, List.cons.injEq] at hx
        exact .name hp (by rw [Key.lower_eq]; exact hx.1) ((ih (x ++ r)).mpr ⟨x, r, rfl, hx.2, h⟩)

theorem visit_nil (n f : Nat) (top : Key) : visit I s n (f + 1) top [] = self I s top := by
  rw [visit]
  simp only [heads_nil]
  rfl

include hr hb hc in
theorem visit_spec : ∀ (f : Nat) (ps : List Seg) (d : Bool) (k : Text), Names ps → (d = true → ps ≠ []) → ps.length < f → Spec.Path.dir k = false →
    (∀ n, Sound m k ps (visit I s n f (Key.parse k) (mk ps d))) ∧
    (DotsLast ps → ∃ L N, Full m k ps L ∧ ∀ n, N ≤ n → visit I s n f (Key.parse k) (mk ps d) = L) := by
  intro f
  induction f with
  | zero => intro ps d k _ _ h; exact absurd h (Nat.not_lt_zero _)
  | succ f ih =>
    intro ps d k hn hd hl hk
    cases ps with
    | nil =>
      have : d = false := by cases d <;> simp_all
      subst this
      have e : mk [] false = [] := rfl
      simp only [e, visit_nil]
      exact ⟨fun _ => self_sound I s m hr k hk, fun _ => ⟨_, 0, self_full I s m hr k hk, fun _ _ => rfl⟩⟩
    | cons p ps =>
      have hps : Names ps := fun x hx => hn x (by simp [hx])
      have hlf : ps.length < f := by simpa using hl
      have hdl : DotsLast (p :: ps) → DotsLast ps := fun h a b e => h (p :: a) b (by rw [e]; rfl)
      by_cases hw : wild p = true
      · have hne1 : Key.isempty [p] = false := by
          have := (hn p (by simp)).1
          simp [Key.isempty]
        rcases wild_cases p hw with rfl | rfl
        · -- "*"
          have hv : ∀ n, visit I s n (f + 1) (Key.parse k) (mk (star :: ps) d) =
              ((I.iterator s (Key.parse k)).getD []).flatMap fun c => visit I s n f (Key.join (Key.parse k) c.1) (mk ps (d && !ps.isEmpty)) := by
            intro n
            rw [visit]
            simp only [heads_wild star ps d hn hw, hne1, eq_star_any.1, eq_star_any.2.1, Bool.false_eq_true, if_false, if_true]
          have hit := hr.iterator k
          cases hi : I.iterator s (Key.parse k) with
          | none =>
            rw [hi] at hit
            refine ⟨fun n => by rw [hv, hi]; intro y hy; simp at hy, fun _ => ⟨[], 0, ⟨by simp, ?_⟩, fun n _ => by rw [hv, hi]; rfl⟩⟩
            intro q hq
            exact absurd (hit q) hq
          | some r =>
            rw [hi] at hit
            obtain ⟨i1, i2, i3⟩ := hit
            have each : ∀ x ∈ r, ∃ n : Seg, x.1 = [n] ∧ Names x.1 ∧
                Key.join (Key.parse k) x.1 = Key.parse (Mounts.path (Spec.Path.names k ++ x.1)) ∧
                place (Mounts.path (Spec.Path.names k ++ x.1)) = place k ++ fold x.1 ∧
                Spec.Path.dir (Mounts.path (Spec.Path.names k ++ x.1)) = false := by
              intro x hx
              obtain ⟨⟨n, e, h⟩, -⟩ := i2 x hx
              have hnx : Names x.1 := Rec.One.names ⟨n, e, h⟩
              exact ⟨n, e, hnx, Rec.join_top k hnx (by rw [e]; simp)⟩
            refine ⟨?_, ?_⟩
            · intro n
              rw [hv, hi]
              intro y hy
              obtain ⟨x, hx, hy⟩ := List.mem_flatMap.mp hy
              obtain ⟨c, e, hnx, j1, j2, j3⟩ := each x hx
              rw [j1] at hy
              obtain ⟨q, q1, q2, q3, q4⟩ := (ih ps (d && !ps.isEmpty) _ hps (by cases ps <;> simp) hlf j3).1 n y hy
              rw [j2, e] at q1 q3
              have ef : fold [c] = [c.map tolower] := rfl
              refine ⟨c.map tolower :: q, ?_, q2, ?_, .star q4⟩
              · rw [q1, ef]; simp
              · rw [ef] at q3; simpa using q3
            · intro hdots
              obtain ⟨F, N, hF, hN⟩ := choose_all (fun n c => visit I s n f (Key.join (Key.parse k) c.1) (mk ps (d && !ps.isEmpty)))
                (fun c L => Sound m (Mounts.path (Spec.Path.names k ++ c.1)) ps L ∧ Full m (Mounts.path (Spec.Path.names k ++ c.1)) ps L) r (by
                  intro x hx
                  obtain ⟨c, e, hnx, j1, j2, j3⟩ := each x hx
                  obtain ⟨h1, h2⟩ := ih ps (d && !ps.isEmpty) _ hps (by cases ps <;> simp) hlf j3
                  obtain ⟨L, N, h3, h4⟩ := h2 (hdl hdots)
                  refine ⟨L, N, ⟨by rw [← h4 N (Nat.le_refl _)]; exact h1 N, h3⟩, ?_⟩
                  intro n hn
                  show visit I s n f (Key.join (Key.parse k) x.1) (mk ps (d && !ps.isEmpty)) = L
                  rw [j1]
                  exact h4 n hn)
              refine ⟨r.flatMap F, N, ⟨?_, ?_⟩, ?_⟩
              · refine flatMap_nodup r (fun x => fold x.1) F (fun z => (z.drop (place k).length).take 1) i1 (fun x hx => (hF x hx).2.1) ?_
                intro x hx y hy
                obtain ⟨q, q1, -⟩ := (hF x hx).1 y hy
                obtain ⟨c, e, hnx, j1, j2, j3⟩ := each x hx
                rw [q1, j2, e]
                show ((place k ++ [c.map tolower] ++ q).drop (place k).length).take 1 = [c.map tolower]
                rw [List.append_assoc, List.drop_left' rfl]
                rfl
              · intro q hq hm
                cases hm with
                | name h => simp [wild] at h
                | star h =>
                  rename_i x ks
                  have hx1 : m (place k ++ [x]) ≠ none := hc _ ks (by simpa using hq)
                  obtain ⟨v, hv⟩ := Option.ne_none_iff_exists'.mp hx1
                  obtain ⟨z, hz, hz1, -⟩ := (i3 x v).mp hv
                  obtain ⟨c, e, hnx, j1, j2, j3⟩ := each z hz
                  obtain ⟨y, hy, hy1⟩ := (hF z hz).2.2 ks (by rw [j2, hz1]; simpa using hq) h
                  refine ⟨y, List.mem_flatMap.mpr ⟨z, hz, hy⟩, ?_⟩
                  rw [hy1, j2, hz1]
                  simp
              · intro n hn
                rw [hv, hi]
                show r.flatMap _ = _
                rw [List.flatMap_def, List.flatMap_def]
                congr 1
                exact List.map_congr_left (fun x hx => hN n hn x hx)
        · -- "..."
          have hv : ∀ n, visit I s n (f + 1) (Key.parse k) (mk (dots :: ps) d) =
              (if Key.matches [] (mk ps (d && !ps.isEmpty)) then self I s (Key.parse k) else []) ++
              (RecIter.recursive I s n (Key.parse k)).1.flatMap fun c => visit I s n f (Key.join (Key.parse k) c.1) (mk ps (d && !ps.isEmpty)) := by
            intro n
            rw [visit]
            simp only [heads_wild dots ps d hn hw, hne1, eq_star_any.2.2, Bool.false_eq_true, if_false, if_true]
          obtain ⟨L, l1, l2, l3, l4, l5⟩ := C54_complete I s m hr hb hc k
          have hpre : ∀ n, (RecIter.recursive I s n (Key.parse k)).1 <+: L := by
            intro n
            have := visit_prefix I s n (L.length + 1) (RecIter.rewind I s (Key.parse k))
            have e := l1 (n + (L.length + 1)) (by omega)
            rw [RecIter.recursive] at e ⊢
            rw [e] at this
            exact this
          have hLne : ∀ x ∈ L, x.1 ≠ [] := by
            intro x hx hx0
            obtain ⟨h6, -⟩ := Rec.preorder_mem m hc _ _ _ l3
            obtain ⟨t, t1, t2, -⟩ := (h6 (fold x.1) x.2).mp (List.mem_map.mpr ⟨x, hx, rfl⟩)
            rw [hx0] at t2
            exact t1 (by simpa [fold] using t2.symm)
          have each : ∀ x ∈ L, Key.join (Key.parse k) x.1 = Key.parse (Mounts.path (Spec.Path.names k ++ x.1)) ∧
                place (Mounts.path (Spec.Path.names k ++ x.1)) = place k ++ fold x.1 ∧
                Spec.Path.dir (Mounts.path (Spec.Path.names k ++ x.1)) = false := by
            intro x hx
            exact Rec.join_top k (l2 x hx) (hLne x hx)
          refine ⟨?_, ?_⟩
          · intro n
            rw [hv]
            intro y hy
            rcases List.mem_append.mp hy with hy | hy
            · by_cases hm : Key.matches [] (mk ps (d && !ps.isEmpty)) = true
              · rw [if_pos hm] at hy
                obtain ⟨q, q1, q2, q3, q4⟩ := self_sound I s m hr k hk y hy
                cases q4
                refine ⟨[], q1, q2, q3, ?_⟩
                have hps' : (d && !ps.isEmpty) = true → ps ≠ [] := by cases ps <;> simp
                rw [← Key.parse_write ps _ hps hps'] at hm
                have := (C21_matches_sound [] _ hm).1
                rw [Key.names_write ps _ hps] at this
                rw [show Spec.Path.names [] = [] from rfl] at this
                exact .dots (xs := []) this
              · rw [if_neg hm] at hy; simp at hy
            · obtain ⟨x, hx, hy⟩ := List.mem_flatMap.mp hy
              have hx := (hpre n).subset hx
              obtain ⟨j1, j2, j3⟩ := each x hx
              rw [j1] at hy
              obtain ⟨q, q1, q2, q3, q4⟩ := (ih ps (d && !ps.isEmpty) _ hps (by cases ps <;> simp) hlf j3).1 n y hy
              rw [j2] at q1 q3
              exact ⟨fold x.1 ++ q, by rw [q1]; simp, q2, by simpa using q3, .dots q4⟩
          · intro hdots
            have hps0 : ps = [] := hdots [] ps rfl
            subst hps0
            have e : mk [] (d && !([] : List Seg).isEmpty) = [] := empty_rest d
            obtain ⟨f, rfl⟩ : ∃ f', f = f' + 1 := ⟨f - 1, by simp at hlf; omega⟩
            refine ⟨self I s (Key.parse k) ++ L.flatMap fun c => self I s (Key.join (Key.parse k) c.1), L.length + 1, ⟨?_, ?_⟩, ?_⟩
            · have hs : ∀ x ∈ L, ∀ y ∈ self I s (Key.join (Key.parse k) x.1), (fold y).drop (place k).length = fold x.1 := by
                intro x hx y hy
                obtain ⟨j1, j2, j3⟩ := each x hx
                rw [j1] at hy
                obtain ⟨rfl, -⟩ := (mem_self I s m hr _ j3 y).mp hy
                rw [fold_parse _ j3, j2, List.drop_left' rfl]
              rw [List.map_append, List.nodup_append]
              refine ⟨self_nodup I s _, ?_, ?_⟩
              · exact flatMap_nodup L (fun x => fold x.1) (fun c => self I s (Key.join (Key.parse k) c.1)) (fun z => z.drop (place k).length) l4
                  (fun x _ => self_nodup I s _) hs
              · rintro a ha b hb rfl
                obtain ⟨y, hy, rfl⟩ := List.mem_map.mp ha
                obtain ⟨z, hz, hzy⟩ := List.mem_map.mp hb
                obtain ⟨x, hx, hz⟩ := List.mem_flatMap.mp hz
                have := hs x hx z hz
                obtain ⟨rfl, -⟩ := (mem_self I s m hr k hk y).mp hy
                rw [hzy, fold_parse k hk] at this
                simp at this
                exact hLne x hx (by simpa [fold] using this.symm)
            · intro q hq hm
              by_cases hq0 : q = []
              · subst hq0
                exact ⟨Key.parse k, List.mem_append.mpr (Or.inl ((mem_self I s m hr k hk _).mpr ⟨rfl, by simpa using hq⟩)), by
                  rw [fold_parse k hk]; simp⟩
              · obtain ⟨v, hv⟩ := Option.ne_none_iff_exists'.mp hq
                obtain ⟨x, hx, hx1, -⟩ := (l5 q v).mpr ⟨hq0, hv⟩
                obtain ⟨j1, j2, j3⟩ := each x hx
                refine ⟨Key.join (Key.parse k) x.1, List.mem_append.mpr (Or.inr (List.mem_flatMap.mpr ⟨x, hx, ?_⟩)), ?_⟩
                · rw [j1]
                  exact (mem_self I s m hr _ j3 _).mpr ⟨rfl, by rw [j2, hx1]; exact hq⟩
                · rw [j1, fold_parse _ j3, j2, hx1]
            · intro n hn
              rw [hv, l1 n (by omega), e]
              have : Key.matches [] [] = true := by decide +kernel
              simp only [this, if_true, visit_nil]
      · have hw : wild p = false := by simpa using hw
        obtain ⟨w, l, d', h1, h2, h3, h4, h5, h6⟩ := heads_name p ps d hn hw
        rw [h1]
        rw [h1] at hn hl
        have hnw : Names w := fun x hx => hn x (by simp [hx])
        have hnl : Names l := fun x hx => hn x (by simp [hx])
        obtain ⟨j1, j2, j3⟩ := Rec.join_top k hnw h3
        have he : Key.isempty w = false := by
          obtain ⟨a, t, rfl⟩ := List.exists_cons_of_ne_nil h3
          rfl
        have hv : ∀ n, visit I s n (f + 1) (Key.parse k) (mk (w ++ l) d) =
            visit I s n f (Key.parse (Mounts.path (Spec.Path.names k ++ w))) (mk l d') := by
          intro n
          rw [visit, ← h1]
          simp only [h2, he, eq_wild w h4 hnw, Bool.false_eq_true, if_false, j1]
          by_cases hl0 : l = []
          · subst hl0
            have : d' = false := by cases d' <;> simp_all
            subst this
            obtain ⟨f, rfl⟩ : ∃ f', f = f' + 1 := ⟨f - 1, by
              have := List.length_pos_iff.mpr h3
              simp at hl; omega⟩
            have e : mk [] false = [] := rfl
            rw [e, visit_nil]
            rfl
          · have : Key.isempty (mk l d') = false := by
              rw [Key.isempty_mk _ _ h6]
              simpa using hl0
            simp only [this, Bool.false_eq_true, if_false]
        have hlf : l.length < f := by
          have := List.length_pos_iff.mpr h3
          simp at hl; omega
        obtain ⟨g1, g2⟩ := ih l d' _ hnl h6 hlf j3
        refine ⟨?_, ?_⟩
        · intro n
          rw [hv]
          intro y hy
          obtain ⟨q, q1, q2, q3, q4⟩ := g1 n y hy
          rw [j2] at q1 q3
          have ff : fold (fold w) = fold w := by
            have : ∀ c : Byte, tolower (tolower c) = tolower c := by apply forall_byte; decide +kernel
            simp [fold, Function.comp_def, this]
          exact ⟨fold w ++ q, by rw [q1]; simp, q2, by simpa using q3, (matches_names w h4 l _).mpr ⟨fold w, q, rfl, ff, q4⟩⟩
        · intro hdots
          obtain ⟨L, N, ⟨n1, n2⟩, n3⟩ := g2 (fun a b e => hdots (w ++ a) b (by rw [e]; simp))
          refine ⟨L, N, ⟨n1, ?_⟩, fun n hn => by rw [hv]; exact n3 n hn⟩
          intro q hq hm
          obtain ⟨x, r, rfl, hx, hm'⟩ := (matches_names w h4 l q).mp hm
          have hxw : x = fold w := by
            have := low I s m hr hb hc k (x ++ r) hq
            have hx0 : m (place k ++ x) ≠ none := hc _ r (by simpa using hq)
            rw [← hx]
            exact (low I s m hr hb hc k x hx0).symm
          subst hxw
          obtain ⟨y, y1, y2⟩ := n2 r (by rw [j2]; simpa using hq) hm'
          exact ⟨y, y1, by rw [y2, j2]; simp⟩

end
theorem loop_eq {σ : Type} (I : IGen σ) (s : σ) (n : Nat) (k pt : Text) : loop I s n (Key.parse k) (Key.parse pt) =
    visit I s n ((Key.parse pt).length + 1) (Key.parse k) (mk (Spec.Path.names pt) (Spec.Path.dir pt)) := by
  rw [loop, ← Key.parse_eq]

theorem loop_len (pt : Text) : (Spec.Path.names pt).length < (Key.parse pt).length + 1 := by
  rw [Key.parse_eq, Key.mk_length]
  omega

end X

/-- C55: whatever the pattern, and if the loop is left early too, only keys below the given one are visited that exist and that the
    pattern stands for. -/
theorem C55_sound {σ : Type} (I : IGen σ) (s : σ) (m : Spec.Conf.State) (hr : Reads I s m) (hb : Bounded m) (hc : Closed m) (k pt : Text)
    (hk : Spec.Path.dir k = false) (n : Nat) (y : Key) (h : y ∈ XIter.loop I s n (Key.parse k) (Key.parse pt)) :
    ∃ q, fold y = place k ++ q ∧ Names y ∧ m (place k ++ q) ≠ none ∧ Matches q (Spec.Path.names pt) := by
  rw [X.loop_eq] at h
  exact (X.visit_spec I s m hr hb hc _ (Spec.Path.names pt) (Spec.Path.dir pt) k (Key.names_ok pt) (Key.dir_names pt) (X.loop_len pt) hk).1 n y h

/-- C55, for patterns in which nothing comes after "...": the loop visits exactly the keys below the given one that exist and that the
    pattern stands for, each once.

    Missing for C55: names or wildcards after "...": there "..." does not stand for no name (`C55_here_fails`), and a key can be visited
    more than once (`C55_once_fails`). -/
theorem C55_patterns_partial {σ : Type} (I : IGen σ) (s : σ) (m : Spec.Conf.State) (hr : Reads I s m) (hb : Bounded m) (hc : Closed m)
    (k pt : Text) (hk : Spec.Path.dir k = false) (hp : DotsLast (Spec.Path.names pt)) :
    ∃ (L : List Key) (N : Nat), (∀ n, N ≤ n → XIter.loop I s n (Key.parse k) (Key.parse pt) = L) ∧ (∀ y ∈ L, Names y) ∧ (L.map fold).Nodup ∧
      ∀ q, (∃ y ∈ L, fold y = place k ++ q) ↔ m (place k ++ q) ≠ none ∧ Matches q (Spec.Path.names pt) := by
  obtain ⟨h1, h2⟩ := X.visit_spec I s m hr hb hc _ (Spec.Path.names pt) (Spec.Path.dir pt) k (Key.names_ok pt) (Key.dir_names pt) (X.loop_len pt) hk
  obtain ⟨L, N, ⟨h3, h4⟩, h5⟩ := h2 hp
  have hs := h1 N
  rw [h5 N (Nat.le_refl _)] at hs
  refine ⟨L, N, fun n hn => by rw [X.loop_eq]; exact h5 n hn, fun y hy => (hs y hy).choose_spec.2.1, h3, ?_⟩
  intro q
  constructor
  · rintro ⟨y, hy, e⟩
    obtain ⟨q', e', -, h6, h7⟩ := hs y hy
    rw [e] at e'
    have := List.append_cancel_left e'
    subst this
    exact ⟨h6, h7⟩
  · rintro ⟨h6, h7⟩
    exact h4 q h6 h7

/-- C55_patterns_partial for the in-memory generator, after any calls. -/
theorem C55_temp_partial (ord : List TempGen.Tree → List TempGen.Tree) (l : List Temp.SetCall) (k pt : Text) (hk : Spec.Path.dir k = false)
    (hp : DotsLast (Spec.Path.names pt)) :
    ∃ (L : List Key) (N : Nat), (∀ n, N ≤ n → XIter.loop (IGen.temp ord) (Temp.after TempGen.new l) n (Key.parse k) (Key.parse pt) = L) ∧
      (∀ y ∈ L, Names y) ∧ (L.map fold).Nodup ∧
      ∀ q, (∃ y ∈ L, fold y = place k ++ q) ↔ Temp.conf l (place k ++ q) ≠ none ∧ Matches q (Spec.Path.names pt) := by
  obtain ⟨h1, h2⟩ := Rec.run_shape (Temp.calls l) Spec.Conf.empty Rec.empty_shape.1 Rec.empty_shape.2
  exact C55_patterns_partial _ _ _ (temp_reads ord _ _ (Temp.conf_holds l)) h2 h1 k pt hk hp

namespace X
open XIter

/-- x/foo and x/b/foo -/
def sample : List Temp.SetCall := [⟨str ['x', '/', 'f', 'o', 'o'], some [], id, fun _ => List.Perm.refl _⟩,
  ⟨str ['x', '/', 'b', '/', 'F', 'o', 'o'], some [], id, fun _ => List.Perm.refl _⟩]

theorem sample_runs : XIter.loop (IGen.temp id) (Temp.after TempGen.new sample) 20 (Key.parse (str ['x'])) (Key.parse (str ['.', '.', '.', '/', 'f', 'o', 'o'])) =
      [Key.parse (str ['x', '/', 'b', '/', 'f', 'o', 'o'])] ∧
    XIter.loop (IGen.temp id) (Temp.after TempGen.new sample) 20 (Key.parse (str ['x'])) (Key.parse (str ['*', '/', 'f', 'o', 'o'])) =
      [Key.parse (str ['x', '/', 'b', '/', 'f', 'o', 'o'])] ∧
    (XIter.loop (IGen.temp id) (Temp.after TempGen.new sample) 20 (Key.parse (str ['x'])) (Key.parse (str ['.', '.', '.', '/', '.', '.', '.']))).length = 5 ∧
    (XIter.loop (IGen.temp id) (Temp.after TempGen.new sample) 20 (Key.parse (str ['x'])) (Key.parse (str ['.', '.', '.']))).length = 4 := by
  decide +kernel

theorem flatMap_sub {α : Type} (l l' : List α) (F G : α → List Key) (h : l.Sublist l') (hf : ∀ x, (F x).Sublist (G x)) :
    (l.flatMap F).Sublist (l'.flatMap G) := by
  induction h with
  | slnil => exact List.Sublist.refl _
  | cons x h ih => exact ih.trans (by rw [List.flatMap_cons]; exact List.sublist_append_right _ _)
  | cons_cons x h ih => rw [List.flatMap_cons, List.flatMap_cons]; exact (hf x).append ih

theorem visit_mono {σ : Type} (I : IGen σ) (s : σ) (n j : Nat) : ∀ (f : Nat) (top pat : Key),
    (visit I s n f top pat).Sublist (visit I s (n + j) f top pat) := by
  intro f
  induction f with
  | zero => intro _ _; exact List.Sublist.refl _
  | succ f ih =>
    intro top pat
    rw [visit, visit]
    simp only
    by_cases h1 : Key.isempty (heads pat).1 = true
    · simp only [h1, if_true]; exact List.Sublist.refl _
    · simp only [h1]
      by_cases h2 : Key.eq (heads pat).1 Key.RECURSIVE_ANY = true
      · simp only [h2, if_true, if_false, Bool.false_eq_true]
        exact (List.Sublist.refl _).append (flatMap_sub _ _ _ _ (visit_prefix I s n j _).sublist (fun x => ih _ _))
      · simp only [h2]
        by_cases h3 : Key.eq (heads pat).1 Key.ANY = true
        · simp only [h3, if_true, if_false, Bool.false_eq_true]
          exact flatMap_sub _ _ _ _ (List.Sublist.refl _) (fun x => ih _ _)
        · simp only [h3]
          by_cases h4 : Key.isempty (heads pat).2 = true
          · simp only [h4, if_true, if_false, Bool.false_eq_true]; exact List.Sublist.refl _
          · simp only [h4, if_false, Bool.false_eq_true]; exact ih _ _

end X

/-- C55: ".../p" does not find the key "p" just below the given one, though "..." stands for any number of names. -/
theorem C55_here_fails {σ : Type} (I : IGen σ) (s : σ) (m : Spec.Conf.State) (hr : Reads I s m) (hb : Bounded m) (hc : Closed m) (k : Text)
    (hk : Spec.Path.dir k = false) (p : Text) (hp : Names [p]) (hw : wild p = false) :
    Matches [p.map Spec.Path.lower] [dots, p] ∧
    ∀ n y, y ∈ XIter.loop I s n (Key.parse k) [dots, p] → fold y ≠ place k ++ [p.map Spec.Path.lower] := by
  have hlow : (p.map Spec.Path.lower).map Spec.Path.lower = p.map Spec.Path.lower := by
    have : ∀ c : Byte, Spec.Path.lower (Spec.Path.lower c) = Spec.Path.lower c := by apply forall_byte; decide +kernel
    simp [Function.comp_def, this]
  refine ⟨.dots (xs := []) (.name hw hlow .nil), ?_⟩
  intro n y hy e
  have hn : Names [dots, p] := X.names_dots.append hp
  have hh := X.heads_wild dots [p] false hn (by decide)
  have em : mk [dots, p] false = [dots, p] := by simp [mk]
  have ep : mk [p] (false && !([p] : List Seg).isEmpty) = mk [p] false := by simp
  rw [em, ep] at hh
  have hm : Key.matches [] (mk [p] false) = false := by
    cases h : Key.matches [] (mk [p] false)
    · rfl
    · rw [← Key.parse_write [p] false hp (by simp)] at h
      have := (C21_matches_sound [] _ h).1
      rw [Key.names_write [p] false hp, show Spec.Path.names [] = [] from rfl] at this
      obtain ⟨x, r, e1, e2, -⟩ := (X.matches_names [p] (by simpa using hw) [] []).mp this
      have : x = [] := (List.append_eq_nil_iff.mp e1.symm).1
      subst this
      simp [fold] at e2
  have hd1 : Key.isempty [dots] = false := by decide +kernel
  rw [XIter.loop, XIter.visit] at hy
  simp only [hh, hd1, X.eq_star_any.2.2, Bool.false_eq_true, if_false, if_true, hm, List.nil_append] at hy
  obtain ⟨x, hx, hy⟩ := List.mem_flatMap.mp hy
  obtain ⟨L, l1, l2, l3, l4, l5⟩ := C54_complete I s m hr hb hc k
  have hpre : (RecIter.recursive I s n (Key.parse k)).1 <+: L := by
    have := X.visit_prefix I s n (L.length + 1) (RecIter.rewind I s (Key.parse k))
    have e := l1 (n + (L.length + 1)) (by omega)
    rw [RecIter.recursive] at e ⊢
    rw [e] at this
    exact this
  have hx := hpre.subset hx
  have hx0 : x.1 ≠ [] := by
    intro hx0
    obtain ⟨h6, -⟩ := Rec.preorder_mem m hc _ _ _ l3
    obtain ⟨t, t1, t2, -⟩ := (h6 (fold x.1) x.2).mp (List.mem_map.mpr ⟨x, hx, rfl⟩)
    rw [hx0] at t2
    exact t1 (by simpa [fold] using t2.symm)
  obtain ⟨j1, j2, j3⟩ := Rec.join_top k (l2 x hx) hx0
  rw [j1] at hy
  obtain ⟨q, q1, -, -, q4⟩ := (X.visit_spec I s m hr hb hc _ [p] false _ hp (by simp) (by simp) j3).1 n y hy
  rw [e, j2, List.append_assoc] at q1
  have q5 := congrArg List.length (List.append_cancel_left q1)
  have : q.length = 1 := by
    cases q4 with
    | star h => simp [wild] at hw
    | dots h => simp [wild] at hw
    | name h1 h2 h3 => cases h3; rfl
  have := List.length_pos_iff.mpr hx0
  simp [fold] at q5
  omega

/-- C55: a key can be visited more than once. -/
theorem C55_once_fails : ¬ ∀ (l : List Temp.SetCall) (k pt : Text), Spec.Path.dir k = false →
    ∃ N, ∀ n, N ≤ n → ((XIter.loop (IGen.temp id) (Temp.after TempGen.new l) n (Key.parse k) (Key.parse pt)).map fold).Nodup := by
  intro h
  obtain ⟨N, h⟩ := h X.sample (str ['x']) (str ['.', '.', '.', '/', '.', '.', '.']) (by decide +kernel)
  have h := h (20 + N) (by omega)
  have h1 := List.Nodup.sublist ((X.visit_mono (IGen.temp id) (Temp.after TempGen.new X.sample) 20 N _ _ _).map fold) h
  revert h1
  decide +kernel

/-- Patterns that are covered. -/
example : DotsLast (Spec.Path.names (str ['*', '/', 'f', 'o', 'o', '/', '.', '.', '.'])) ∧
    Matches [str ['b'], str ['f', 'o', 'o'], str ['c'], str ['d']] (Spec.Path.names (str ['*', '/', 'F', 'o', 'o', '/', '.', '.', '.'])) := by
  constructor
  · rw [show Spec.Path.names (str ['*', '/', 'f', 'o', 'o', '/', '.', '.', '.']) = [star, str ['f', 'o', 'o'], dots] by decide +kernel]
    intro a b h
    match a, h with
    | [], h => exact absurd (List.cons.inj h).1 (by decide)
    | [_], h => exact absurd (List.cons.inj (List.cons.inj h).2).1 (by decide +kernel)
    | [_, _], h => have := h.symm; simp at this; exact this.2.2
    | _ :: _ :: _ :: _, h => simp at h
  · rw [show Spec.Path.names (str ['*', '/', 'F', 'o', 'o', '/', '.', '.', '.']) = [star, str ['F', 'o', 'o'], dots] by decide +kernel]
    exact .star (.name (by decide +kernel) (by decide +kernel) (.dots (xs := [str ['c'], str ['d']]) .nil))

end Props
