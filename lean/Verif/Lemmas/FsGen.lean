import Verif.Model.FsGen
import Verif.Spec.Folders
/-!
Lemmas for Props/FsGen: paths as texts, the file system, `mkdirp` and `rm_rf`.
-/
namespace Wv.FsGen

/-! ## Texts -/

theorem pieces_ne (s : List Byte) : pieces s ≠ [] := by
  cases s with
  | nil => simp [pieces]
  | cons c s =>
    unfold pieces
    split
    · simp
    · split <;> simp

theorem pieces_slash (a b : List Byte) : pieces (a ++ ch '/' :: b) = pieces a ++ pieces b := by
  induction a with
  | nil => simp [pieces]
  | cons c a ih =>
    rw [List.cons_append]
    by_cases hc : c = ch '/'
    · subst hc
      simp [pieces, ih]
    · rw [pieces, if_neg hc, ih, pieces, if_neg hc]
      cases h : pieces a with
      | nil => exact absurd h (pieces_ne a)
      | cons p ps => rfl

theorem comps_slash (a b : List Byte) : comps (a ++ ch '/' :: b) = comps a ++ comps b := by
  unfold comps; rw [pieces_slash, List.filter_append]

theorem comps_nil : comps [] = [] := by simp [comps, pieces]

theorem comps_end (a : List Byte) : comps (a ++ [ch '/']) = comps a := by rw [comps_slash, comps_nil, List.append_nil]

theorem pieces_word (w : List Byte) (h : ch '/' ∉ w) : pieces w = [w] := by
  induction w with
  | nil => rfl
  | cons c w ih =>
    simp only [List.mem_cons, not_or] at h
    rw [pieces, if_neg (fun e => h.1 e.symm), ih h.2]

theorem comps_word (w : List Byte) (h : ch '/' ∉ w) : comps w = if w = [] then [] else [w] := by
  unfold comps; rw [pieces_word w h]
  by_cases hw : w = []
  · simp [hw]
  · simp [hw]

theorem comps_seg (w : List Byte) (h : ch '/' ∉ w) (hw : w ≠ []) : comps w = [w] := by rw [comps_word w h, if_neg hw]

/-- `a` is at the start or behind a slash. -/
def Edge (a : List Byte) : Prop := a = [] ∨ ∃ b, a = b ++ [ch '/']

theorem comps_edge (a w : List Byte) (h : Edge a) : comps (a ++ w) = comps a ++ comps w := by
  rcases h with h | ⟨b, h⟩
  · rw [h, comps_nil]; rfl
  · rw [h, comps_end, List.append_assoc, List.singleton_append, comps_slash]

/-- The paths in the list name one directory after the other. -/
inductive Steps : Path → List (List Byte) → Path → Prop
  | done (c : Path) : Steps c [] c
  | same {c e : Path} {p : List Byte} {ps : List (List Byte)} : p ≠ [] → comps p = c → Steps c ps e → Steps c (p :: ps) e
  | down {c e : Path} {p : List Byte} {ps : List (List Byte)} (x : Seg) : p ≠ [] → comps p = c ++ [x] → Steps (c ++ [x]) ps e → Steps c (p :: ps) e

theorem steps_slashes (s : List Byte) : ∀ a w : List Byte, Edge a → ch '/' ∉ w → a ++ w ≠ [] →
    ∃ e, Steps (comps a) (slashes (a ++ w) s) e ∧ (comps (a ++ w ++ s) = e ∨ ∃ x, comps (a ++ w ++ s) = e ++ [x]) := by
  induction s with
  | nil =>
    intro a w ha hw _
    refine ⟨comps a, Steps.done _, ?_⟩
    rw [List.append_nil, comps_edge a w ha, comps_word w hw]
    by_cases h : w = []
    · left; rw [if_pos h, List.append_nil]
    · right; exact ⟨w, by rw [if_neg h]⟩
  | cons c s ih =>
    intro a w ha hw hne
    by_cases hc : c = ch '/'
    · subst hc
      obtain ⟨e, h1, h2⟩ := ih (a ++ w ++ [ch '/']) [] (Or.inr ⟨_, rfl⟩) (by simp) (by simp)
      rw [comps_end, List.append_nil] at h1
      rw [List.append_nil, List.append_assoc (a ++ w), List.singleton_append] at h2
      refine ⟨e, ?_, h2⟩
      rw [slashes, if_pos rfl]
      have hcw : comps (a ++ w) = comps a ++ comps w := comps_edge a w ha
      rw [comps_word w hw] at hcw
      by_cases h : w = []
      · rw [if_pos h, List.append_nil] at hcw
        rw [hcw] at h1
        exact Steps.same hne hcw h1
      · rw [if_neg h] at hcw
        rw [hcw] at h1
        exact Steps.down w hne hcw h1
    · obtain ⟨e, h1, h2⟩ := ih a (w ++ [c]) ha (by simp [hw]; exact fun h => hc h.symm) (by simp)
      refine ⟨e, ?_, ?_⟩
      · rw [slashes, if_neg hc, List.append_assoc]; exact h1
      · have : a ++ (w ++ [c]) ++ s = a ++ w ++ c :: s := by simp
        rw [this] at h2; exact h2

/-! ## The file system -/

theorem find_filter (fs : FS) (q p : Path) : (fs.filter (·.1 ≠ q)).find? (·.1 = p) = if p = q then none else fs.find? (·.1 = p) := by
  induction fs with
  | nil => simp
  | cons e fs ih =>
    by_cases h : e.1 = q
    · rw [List.filter_cons_of_neg (by simp [h]), ih]
      by_cases hp : p = q
      · rw [if_pos hp, if_pos hp]
      · rw [if_neg hp, if_neg hp, List.find?_cons_of_neg]
        simp only [decide_eq_true_eq]; intro e'; exact hp (e'.symm.trans h)
    · rw [List.filter_cons_of_pos (by simp [h])]
      by_cases hp : p = q
      · rw [if_pos hp, List.find?_cons_of_neg, ih, if_pos hp]
        simp only [decide_eq_true_eq]; intro e'; exact h (e'.trans hp)
      · rw [if_neg hp]
        by_cases he : e.1 = p
        · rw [List.find?_cons_of_pos (by simp [he]), List.find?_cons_of_pos (by simp [he])]
        · rw [List.find?_cons_of_neg (by simp [he]), List.find?_cons_of_neg (by simp [he]), ih, if_neg hp]

theorem kind_nil (fs : FS) : kind fs [] = some .dir := rfl

theorem kind_erase (fs : FS) (q p : Path) (hq : q ≠ []) : kind (erase fs q) p = if p = q then none else kind fs p := by
  unfold kind erase
  by_cases hp : p = []
  · rw [if_pos hp, if_pos hp, if_neg (fun e => hq (e.symm.trans hp))]
  · rw [if_neg hp, if_neg hp, find_filter]
    by_cases h : p = q
    · rw [if_pos h, if_pos h]; rfl
    · rw [if_neg h, if_neg h]

theorem kind_put (fs : FS) (q p : Path) (k : Kind) (hq : q ≠ []) : kind (put fs q k) p = if p = q then some k else kind fs p := by
  unfold kind put
  by_cases hp : p = []
  · rw [if_pos hp, if_pos hp, if_neg (fun e => hq (e.symm.trans hp))]
  · rw [if_neg hp, if_neg hp]
    by_cases h : p = q
    · rw [if_pos h, List.find?_cons_of_pos (by simp [h])]; rfl
    · rw [if_neg h, List.find?_cons_of_neg (by simp; exact fun e => h e.symm), find_filter, if_neg h]

theorem kind_mem (fs : FS) (q : Path) (hq : q ≠ []) : kind fs q ≠ none ↔ ∃ k, (q, k) ∈ fs := by
  unfold kind
  rw [if_neg hq]
  constructor
  · intro h
    cases hf : fs.find? (·.1 = q) with
    | none => rw [hf] at h; exact absurd rfl h
    | some e =>
      have h1 := List.mem_of_find?_eq_some hf
      have h2 := List.find?_some hf
      simp only [decide_eq_true_eq] at h2
      exact ⟨e.2, by rw [← h2]; exact h1⟩
  · intro ⟨k, hk⟩ h
    rw [Option.map_eq_none_iff] at h
    have := List.find?_eq_none.mp h _ hk
    simp at this

theorem mem_children (fs : FS) (q : Path) (e : Seg) : e ∈ children fs q ↔ kind fs (q ++ [e]) ≠ none := by
  rw [kind_mem fs _ (by simp)]
  unfold children
  rw [List.mem_filterMap]
  constructor
  · intro ⟨x, hx, h⟩
    split at h
    · next hd =>
      refine ⟨x.2, ?_⟩
      have : x.1 = q ++ [e] := by
        rw [← hd]
        obtain ⟨y, hy⟩ := List.getLast?_eq_some_iff.mp h
        rw [hy]; simp
      rw [← this]; exact hx
    · cases h
  · intro ⟨k, hk⟩
    exact ⟨_, hk, by simp⟩

/-- A name of a file. -/
def NameOk (x : Seg) : Prop := x ≠ [] ∧ ch '/' ∉ x ∧ x ≠ str ['.'] ∧ x ≠ str ['.', '.']

/-- A file system as it may be: what is there is in a directory. -/
structure Wf (fs : FS) : Prop where
  parent : ∀ p x, kind fs (p ++ [x]) ≠ none → kind fs p = some .dir
  names : ∀ p, kind fs p ≠ none → ∀ x ∈ p, NameOk x
  nodup : (fs.map (·.1)).Nodup

theorem Wf.over {fs : FS} (h : Wf fs) (p r : Path) (hr : r ≠ []) (hk : kind fs (p ++ r) ≠ none) : kind fs p = some .dir := by
  induction r generalizing p with
  | nil => exact absurd rfl hr
  | cons x r ih =>
    by_cases he : r = []
    · subst he; exact h.parent p x hk
    · have h1 := ih (p ++ [x]) he (by rw [List.append_assoc]; exact hk)
      exact h.parent p x (by rw [h1]; simp)

theorem Wf.prefix {fs : FS} (h : Wf fs) (p q : Path) (hp : p <+: q) (hne : p ≠ q) (hk : kind fs q ≠ none) : kind fs p = some .dir := by
  obtain ⟨r, rfl⟩ := hp
  exact h.over p r (fun e => hne (by rw [e, List.append_nil])) hk

theorem nodup_filter {l : FS} (q : Path) (h : (l.map (·.1)).Nodup) : ((l.filter (·.1 ≠ q)).map (·.1)).Nodup :=
  List.Nodup.sublist (List.Sublist.map _ List.filter_sublist) h

theorem wf_put {fs : FS} (h : Wf fs) (q : Path) (k : Kind) (hq : q ≠ []) (hn : ∀ x ∈ q, NameOk x) (hp : kind fs q.dropLast = some .dir)
    (hk : k = .dir ∨ kind fs q ≠ some .dir) : Wf (put fs q k) := by
  refine ⟨fun p x hx => ?_, fun p hp' => ?_, ?_⟩
  · rw [kind_put fs q _ k hq] at hx ⊢
    by_cases e : p ++ [x] = q
    · have : p = q.dropLast := by rw [← e]; simp
      rw [if_neg, this]
      · exact hp
      · intro e2
        have := congrArg List.length e
        rw [e2] at this; simp at this
    · rw [if_neg e] at hx
      have h1 := h.parent p x hx
      by_cases e2 : p = q
      · rw [if_pos e2]
        rcases hk with hk | hk
        · rw [hk]
        · rw [e2] at h1; exact absurd h1 hk
      · rw [if_neg e2]; exact h1
  · rw [kind_put fs q _ k hq] at hp'
    by_cases e : p = q
    · rw [e]; exact hn
    · rw [if_neg e] at hp'; exact h.names p hp'
  · unfold put
    rw [List.map_cons, List.nodup_cons]
    refine ⟨?_, nodup_filter q h.nodup⟩
    intro hm
    obtain ⟨e, he, h2⟩ := List.mem_map.mp hm
    have := (List.mem_filter.mp he).2
    simp at this; exact this h2

theorem wf_erase {fs : FS} (h : Wf fs) (q : Path) (hq : q ≠ []) (hc : ∀ x, kind fs (q ++ [x]) = none) : Wf (erase fs q) := by
  refine ⟨fun p x hx => ?_, fun p hp' => ?_, nodup_filter q h.nodup⟩
  · rw [kind_erase fs q _ hq] at hx ⊢
    by_cases e : p ++ [x] = q
    · rw [if_pos e] at hx; exact absurd rfl hx
    · rw [if_neg e] at hx
      by_cases e2 : p = q
      · rw [e2] at hx; exact absurd (hc x) hx
      · rw [if_neg e2]; exact h.parent p x hx
  · rw [kind_erase fs q _ hq] at hp'
    by_cases e : p = q
    · rw [if_pos e] at hp'; exact absurd rfl hp'
    · rw [if_neg e] at hp'; exact h.names p hp'

/-- There is no link on the way. -/
def NoLink (fs : FS) (q : Path) : Prop := ∀ p, p <+: q → ∀ t, kind fs p ≠ some (.link t)

theorem walk_plain {fs : FS} (h : Wf fs) (again : Path → List Seg → Option Path) (f : Bool) (rest : List Seg) : ∀ cur : Path,
    (∀ x ∈ rest, NameOk x) → NoLink fs (cur ++ rest) → kind fs cur = some .dir →
    walk again fs f cur rest = if rest = [] ∨ kind fs (cur ++ rest.dropLast) = some .dir then some (cur ++ rest) else none := by
  induction rest with
  | nil => intro cur _ _ _; simp [walk]
  | cons x rest ih =>
    intro cur hn hl hc
    have hx := hn x (by simp)
    rw [walk, if_neg (by simp [hc]), if_neg hx.2.2.1, if_neg hx.2.2.2]
    have e1 : cur ++ x :: rest = cur ++ [x] ++ rest := by simp
    have hsub : NoLink fs (cur ++ [x] ++ rest) := by rw [← e1]; exact hl
    have hx2 : cur ++ [x] <+: cur ++ x :: rest := by rw [e1]; exact List.prefix_append _ _
    have hd : rest ≠ [] → cur ++ (x :: rest).dropLast = cur ++ [x] ++ rest.dropLast := by
      intro hr; rw [List.dropLast_cons_of_ne_nil hr]; simp
    -- nothing is under what is no directory
    have hnone : rest ≠ [] → kind fs (cur ++ [x]) ≠ some .dir → kind fs (cur ++ (x :: rest).dropLast) ≠ some .dir := by
      intro hr hk hk2
      rw [hd hr] at hk2
      by_cases hr2 : rest.dropLast = []
      · rw [hr2, List.append_nil] at hk2; exact hk hk2
      · exact hk (h.over _ _ hr2 (by rw [hk2]; simp))
    cases hk : kind fs (cur ++ [x]) with
    | none =>
      dsimp only
      by_cases hr : rest = []
      · subst hr
        rw [if_pos rfl, if_pos (Or.inr (by simpa using hc))]
      · rw [if_neg hr, if_neg]
        rintro (h' | h')
        · cases h'
        · exact hnone hr (by rw [hk]; simp) h'
    | some kd =>
      cases kd with
      | link t => exact absurd hk (hl _ hx2 t)
      | dir =>
        dsimp only
        rw [ih (cur ++ [x]) (fun y hy => hn y (List.mem_cons_of_mem _ hy)) hsub hk, e1]
        by_cases hr : rest = []
        · subst hr
          rw [if_pos (Or.inl rfl), if_pos (Or.inr (by simpa using hc))]
        · simp only [hr, false_or, reduceCtorEq]
          rw [hd hr]
      | file c =>
        dsimp only
        by_cases hr : rest = []
        · subst hr
          rw [walk, if_pos (Or.inr (by simpa using hc))]
        · rw [if_neg]
          · obtain ⟨y, r, rfl⟩ := List.exists_cons_of_ne_nil hr
            rw [walk, if_pos (by rw [hk]; simp)]
          · rintro (h' | h')
            · cases h'
            · exact hnone hr (by rw [hk]; simp) h'

theorem resolve_plain {fs : FS} (h : Wf fs) (n : Nat) (f : Bool) (q : Path) (hn : ∀ x ∈ q, NameOk x) (hl : NoLink fs q) :
    resolve n fs f [] q = if kind fs q.dropLast = some .dir then some q else none := by
  have : ∀ again, walk again fs f [] q = if kind fs q.dropLast = some .dir then some q else none := by
    intro again
    rw [walk_plain h again f q [] hn (by simpa using hl) (kind_nil fs)]
    by_cases hq : q = []
    · subst hq; simp [kind_nil]
    · simp [hq]
  cases n with
  | zero => exact this _
  | succ n => exact this _

theorem place_plain {fs : FS} (h : Wf fs) (f : Bool) (s : List Byte) (q : Path) (hs : s ≠ []) (hc : comps s = q) (hn : ∀ x ∈ q, NameOk x)
    (hl : NoLink fs q) : place fs f s = if kind fs q.dropLast = some .dir then some q else none := by
  unfold place; rw [if_neg hs, hc, resolve_plain h _ _ q hn hl]

theorem kind_drop {fs : FS} (h : Wf fs) (q : Path) (hk : kind fs q ≠ none) : kind fs q.dropLast = some .dir := by
  by_cases hq : q = []
  · subst hq; rfl
  · exact h.prefix _ _ (List.dropLast_prefix q) (fun e => by
      have h1 := congrArg List.length e
      have h2 : 0 < q.length := by
        cases q with
        | nil => exact absurd rfl hq
        | cons a b => simp
      rw [List.length_dropLast] at h1; omega) hk

theorem stat_plain {fs : FS} (h : Wf fs) (f : Bool) (s : List Byte) (q : Path) (hs : s ≠ []) (hc : comps s = q) (hn : ∀ x ∈ q, NameOk x)
    (hl : NoLink fs q) : stat fs f s = match kind fs q with
      | some .dir => some .dir
      | k => if slash s then none else k := by
  unfold stat
  rw [place_plain h f s q hs hc hn hl]
  by_cases hp : kind fs q.dropLast = some .dir
  · rw [if_pos hp]; rfl
  · rw [if_neg hp]
    have : kind fs q = none := by
      cases hk : kind fs q with
      | none => rfl
      | some k => exact absurd (kind_drop h q (by rw [hk]; simp)) hp
    rw [this]; simp

theorem access_plain {fs : FS} (h : Wf fs) (s : List Byte) (q : Path) (hs : s ≠ []) (hc : comps s = q) (hn : ∀ x ∈ q, NameOk x)
    (hl : NoLink fs q) : access fs s = true ↔ kind fs q = some .dir := by
  unfold access
  rw [stat_plain h true s q hs hc hn hl]
  cases hk : kind fs q with
  | none => simp
  | some k =>
    cases k with
    | dir => simp
    | file c => cases slash s <;> simp
    | link t => exact absurd hk (hl q (List.prefix_refl q) t)

theorem mkdir_plain {fs : FS} (h : Wf fs) (s : List Byte) (q : Path) (hs : s ≠ []) (hc : comps s = q) (hn : ∀ x ∈ q, NameOk x)
    (hl : NoLink fs q) (hp : kind fs q.dropLast = some .dir) : mkdir fs s = if kind fs q = none then some (put fs q .dir) else none := by
  unfold mkdir
  rw [place_plain h false s q hs hc hn hl, if_pos hp]

/-! ## `mkdirp` -/

/-- The file system `fs` is `fs0` with the directories of `c`. -/
structure Made (fs0 : FS) (c : Path) (fs : FS) : Prop where
  wf : Wf fs
  kinds : ∀ p, kind fs p = if p <+: c then some .dir else kind fs0 p
  clear : ∀ p, p <+: c → kind fs0 p = some .dir ∨ kind fs0 p = none

/-- Nothing was done. -/
def Same (fs0 fs : FS) : Prop := ∀ p, kind fs p = kind fs0 p

theorem prefix_snoc (p c : Path) (x : Seg) : p <+: c ++ [x] ↔ p = c ++ [x] ∨ p <+: c := by
  rw [List.prefix_concat_iff]

theorem not_snoc (c : Path) (x : Seg) : ¬ c ++ [x] <+: c := by
  intro h; have := h.length_le; simp at this; omega

theorem Made.noLink {fs0 fs : FS} {c : Path} (m : Made fs0 c fs) (Q : Path) (hl : NoLink fs0 Q) : NoLink fs Q := by
  intro p hp t
  rw [m.kinds]
  split
  · simp
  · exact hl p hp t

theorem made_down {fs0 fs : FS} {c : Path} (m : Made fs0 c fs) (x : Seg) (hk : kind fs0 (c ++ [x]) = some .dir) : Made fs0 (c ++ [x]) fs := by
  refine ⟨m.wf, fun p => ?_, fun p hp => ?_⟩
  · rw [m.kinds]
    by_cases h1 : p <+: c
    · rw [if_pos h1, if_pos ((prefix_snoc p c x).mpr (Or.inr h1))]
    · rw [if_neg h1]
      by_cases h2 : p = c ++ [x]
      · rw [if_pos ((prefix_snoc p c x).mpr (Or.inl h2)), h2, hk]
      · rw [if_neg]
        intro h3
        exact ((prefix_snoc p c x).mp h3).elim h2 h1
  · rcases (prefix_snoc p c x).mp hp with h | h
    · left; rw [h, hk]
    · exact m.clear p h

theorem made_put {fs0 fs : FS} {c : Path} (m : Made fs0 c fs) (x : Seg) (hn : ∀ y ∈ c ++ [x], NameOk y) (hk : kind fs0 (c ++ [x]) = none) :
    Made fs0 (c ++ [x]) (put fs (c ++ [x]) .dir) := by
  refine ⟨wf_put m.wf _ _ (by simp) hn (by rw [List.dropLast_concat, m.kinds, if_pos (List.prefix_refl c)]) (Or.inl rfl), fun p => ?_, fun p hp => ?_⟩
  · rw [kind_put _ _ _ _ (by simp), m.kinds]
    by_cases h2 : p = c ++ [x]
    · rw [if_pos h2, if_pos ((prefix_snoc p c x).mpr (Or.inl h2))]
    · rw [if_neg h2]
      by_cases h1 : p <+: c
      · rw [if_pos h1, if_pos ((prefix_snoc p c x).mpr (Or.inr h1))]
      · rw [if_neg h1, if_neg]
        intro h3
        exact ((prefix_snoc p c x).mp h3).elim h2 h1
  · rcases (prefix_snoc p c x).mp hp with h | h
    · right; rw [h, hk]
    · exact m.clear p h

theorem made_stop {fs0 fs : FS} {c : Path} (h0 : Wf fs0) (m : Made fs0 c fs) (x : Seg) (hk : kind fs0 (c ++ [x]) ≠ none) : Same fs0 fs := by
  intro p
  rw [m.kinds]
  split
  · next h =>
    rw [h0.prefix p (c ++ [x]) ((prefix_snoc p c x).mpr (Or.inr h)) (fun e => not_snoc c x (e ▸ h)) hk]
  · rfl

theorem steps_prefix {c e : Path} {ps : List (List Byte)} (h : Steps c ps e) : c <+: e := by
  induction h with
  | done c => exact List.prefix_refl c
  | same _ _ _ ih => exact ih
  | down x _ _ _ ih => exact (List.prefix_append _ _).trans ih

theorem mkdirLoop_spec {fs0 : FS} (h0 : Wf fs0) (Q : Path) (hn : ∀ x ∈ Q, NameOk x) (hl : NoLink fs0 Q) {c e : Path} {ps : List (List Byte)}
    (hs : Steps c ps e) : ∀ fs, e <+: Q → Made fs0 c fs →
    ((mkdirLoop fs ps).2 = true ∧ Made fs0 e (mkdirLoop fs ps).1) ∨
    ((mkdirLoop fs ps).2 = false ∧ Wf (mkdirLoop fs ps).1 ∧ Same fs0 (mkdirLoop fs ps).1 ∧ ∃ p v, p <+: Q ∧ kind fs0 p = some (.file v)) := by
  induction hs with
  | done c => intro fs _ m; exact Or.inl ⟨rfl, m⟩
  | @same c e p ps hp hc hs ih =>
    intro fs he m
    have hcQ : c <+: Q := (steps_prefix hs).trans he
    have ha : access fs p = true := by
      rw [access_plain m.wf p c hp hc (fun x hx => hn x (hcQ.subset hx)) (fun r hr => m.noLink Q hl r (hr.trans hcQ)), m.kinds,
        if_pos (List.prefix_refl c)]
    rw [mkdirLoop, if_pos ha]
    exact ih fs he m
  | @down c e p ps x hp hc hs ih =>
    intro fs he m
    have hcQ : c ++ [x] <+: Q := (steps_prefix hs).trans he
    have hn' : ∀ y ∈ c ++ [x], NameOk y := fun y hy => hn y (hcQ.subset hy)
    have hl' : NoLink fs (c ++ [x]) := fun r hr => m.noLink Q hl r (hr.trans hcQ)
    have hkx : kind fs (c ++ [x]) = kind fs0 (c ++ [x]) := by rw [m.kinds, if_neg (not_snoc c x)]
    have hpar : kind fs (c ++ [x]).dropLast = some .dir := by
      rw [List.dropLast_concat, m.kinds, if_pos (List.prefix_refl c)]
    rw [mkdirLoop]
    cases hk : kind fs0 (c ++ [x]) with
    | none =>
      rw [if_neg (by rw [access_plain m.wf p _ hp hc hn' hl', hkx, hk]; simp), mkdir_plain m.wf p _ hp hc hn' hl' hpar, if_pos (by rw [hkx, hk])]
      exact ih _ he (made_put m x hn' hk)
    | some kd =>
      cases kd with
      | link t => exact absurd hk (hl _ hcQ t)
      | dir =>
        rw [if_pos (by rw [access_plain m.wf p _ hp hc hn' hl', hkx, hk])]
        exact ih _ he (made_down m x hk)
      | file v =>
        rw [if_neg (by rw [access_plain m.wf p _ hp hc hn' hl', hkx, hk]; simp), mkdir_plain m.wf p _ hp hc hn' hl' hpar,
          if_neg (by rw [hkx, hk]; simp)]
        exact Or.inr ⟨rfl, m.wf, made_stop h0 m x (by rw [hk]; simp), _, v, hcQ, hk⟩

/-- `mkdirp` makes the directories, or does nothing if there is a file in the way. -/
theorem mkdirp_spec {fs0 : FS} (h0 : Wf fs0) (s : List Byte) (Q : Path) (hs : s ≠ []) (hc : comps s = Q) (hn : ∀ x ∈ Q, NameOk x) (hl : NoLink fs0 Q) :
    Made fs0 Q (mkdirp fs0 s) ∨ (Wf (mkdirp fs0 s) ∧ Same fs0 (mkdirp fs0 s) ∧ ∃ p v, p <+: Q ∧ kind fs0 p = some (.file v)) := by
  unfold mkdirp
  by_cases ha : access fs0 s = true
  · rw [if_pos ha]
    have hk := (access_plain h0 s Q hs hc hn hl).mp ha
    have hk' : ∀ p, p <+: Q → kind fs0 p = some .dir := by
      intro p hp
      by_cases e : p = Q
      · rw [e]; exact hk
      · exact h0.prefix p Q hp e (by rw [hk]; simp)
    left
    refine ⟨h0, fun p => ?_, fun p hp => Or.inl (hk' p hp)⟩
    split
    · next hp => exact hk' p hp
    · rfl
  · rw [if_neg ha]
    dsimp only
    obtain ⟨c, t, rfl⟩ := List.exists_cons_of_ne_nil hs
    dsimp only
    obtain ⟨e, hst, hfin⟩ : ∃ e, Steps [] (slashes [c] t) e ∧ (comps (c :: t) = e ∨ ∃ x, comps (c :: t) = e ++ [x]) := by
      by_cases hsl : c = ch '/'
      · obtain ⟨e, h1, h2⟩ := steps_slashes t [c] [] (Or.inr ⟨[], by rw [hsl]; rfl⟩) (by simp) (by simp)
        refine ⟨e, ?_, h2⟩
        have : comps [c] = [] := by rw [hsl]; exact (comps_end []).trans comps_nil
        rw [this] at h1; exact h1
      · obtain ⟨e, h1, h2⟩ := steps_slashes t [] [c] (Or.inl rfl) (by simp; exact fun h => hsl h.symm) (by simp)
        refine ⟨e, ?_, h2⟩
        rw [comps_nil] at h1; exact h1
    rw [hc] at hfin
    have heQ : e <+: Q := by
      rcases hfin with h | ⟨x, h⟩
      · rw [h]; exact List.prefix_refl e
      · rw [h]; exact List.prefix_append _ _
    have m0 : Made fs0 [] fs0 := by
      refine ⟨h0, fun p => ?_, fun p hp => ?_⟩
      · by_cases hp : p = []
        · subst hp; simp [kind_nil]
        · rw [if_neg (by simpa using hp)]
      · have : p = [] := by simpa using hp
        left; rw [this]; rfl
    rcases mkdirLoop_spec h0 Q hn hl hst fs0 heQ m0 with ⟨h1, m⟩ | ⟨h1, h2, h3, h4⟩
    · rw [if_pos h1]
      generalize mkdirLoop fs0 (slashes [c] t) = r at m
      have hlr : NoLink r.1 Q := m.noLink Q hl
      unfold exist
      rw [stat_plain m.wf true (c :: t) Q hs hc hn hlr]
      rcases hfin with h | ⟨x, h⟩
      · have : kind r.1 Q = some .dir := by rw [m.kinds, if_pos (by rw [h]; exact List.prefix_refl e)]
        rw [this]
        simp only [Option.isSome_some, if_true]
        left; rw [h]; exact m
      · have hkx : kind r.1 Q = kind fs0 Q := by rw [m.kinds, h, if_neg (not_snoc e x)]
        have hpar : kind r.1 Q.dropLast = some .dir := by rw [h, List.dropLast_concat, m.kinds, if_pos (List.prefix_refl e)]
        rw [mkdir_plain m.wf _ Q hs hc hn hlr hpar, hkx]
        cases hk : kind fs0 Q with
        | none =>
          dsimp only
          have hres : (if (if slash (c :: t) = true then (none : Option Kind) else none).isSome = true then r.1
              else (if (none : Option Kind) = none then some (put r.1 Q .dir) else none).getD r.1) = put r.1 Q .dir := by
            cases slash (c :: t) <;> simp
          rw [hres]
          left
          rw [h] at hk hn ⊢
          exact made_put m x hn hk
        | some kd =>
          cases kd with
          | link t => exact absurd hk (hl _ (List.prefix_refl Q) t)
          | dir =>
            simp only [Option.isSome_some, if_true]
            left; rw [h] at hk ⊢; exact made_down m x hk
          | file v =>
            have hres : (if (if slash (c :: t) = true then none else some (Kind.file v)).isSome = true then r.1
                else (if some (Kind.file v) = none then some (put r.1 Q .dir) else none).getD r.1) = r.1 := by
              cases slash (c :: t) <;> simp
            dsimp only
            rw [hres]
            right
            refine ⟨m.wf, made_stop h0 m x (by rw [← h, hk]; simp), Q, v, List.prefix_refl Q, hk⟩
    · rw [if_neg (by rw [h1]; simp)]
      exact Or.inr ⟨h2, h3, h4⟩

end Wv.FsGen
