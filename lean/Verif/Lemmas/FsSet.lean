import Verif.Lemmas.FsGen
import Verif.Lemmas.Key
/-!
Lemmas for Props/FsGen: `rm_rf`, and `set` and `get` of `UniFileSystemGen`.
-/
namespace Wv.FsGen
open Spec.Folders (Item Tree Safe Under Careful History)

/-! ## `rm_rf` -/

theorem unlink_plain {fs : FS} (h : Wf fs) (s : List Byte) (q : Path) (hs : s ≠ []) (hc : comps s = q) (hn : ∀ x ∈ q, NameOk x) (hl : NoLink fs q)
    (hq : q ≠ []) (hsl : slash s = true → ∀ c, kind fs q ≠ some (.file c)) :
    Wf (unlink fs s) ∧ ∀ p, kind (unlink fs s) p = if p = q ∧ kind fs q ≠ some .dir then none else kind fs p := by
  unfold unlink
  have hsame : (kind fs q = none ∨ kind fs q = some .dir) → Wf fs ∧ ∀ p, kind fs p = if p = q ∧ kind fs q ≠ some .dir then none else kind fs p := by
    intro hk
    refine ⟨h, fun p => ?_⟩
    split
    · next hp =>
      rcases hk with hk | hk
      · rw [hp.1, hk]
      · exact absurd hk hp.2
    · rfl
  by_cases hb : slash s = true
  · rw [if_pos hb]
    apply hsame
    cases hk : kind fs q with
    | none => exact Or.inl rfl
    | some kd =>
      cases kd with
      | dir => exact Or.inr rfl
      | file c => exact absurd hk (hsl hb c)
      | link t => exact absurd hk (hl q (List.prefix_refl q) t)
  · rw [if_neg hb, place_plain h false s q hs hc hn hl]
    cases hk : kind fs q with
    | none =>
      rw [hk] at hsame
      split
      · exact hsame (Or.inl rfl)
      · next q' he =>
        have : q' = q := by split at he <;> simp at he; exact he.symm
        subst this
        rw [hk]; exact hsame (Or.inl rfl)
    | some kd =>
      rw [if_pos (kind_drop h q (by rw [hk]; simp))]
      dsimp only
      rw [hk]
      cases kd with
      | dir => rw [hk] at hsame; exact hsame (Or.inr rfl)
      | link t => exact absurd hk (hl q (List.prefix_refl q) t)
      | file c =>
        dsimp only
        refine ⟨wf_erase h q hq (fun x => ?_), fun p => ?_⟩
        · cases hx : kind fs (q ++ [x]) with
          | none => rfl
          | some _ => exact absurd (h.parent q x (by rw [hx]; simp)) (by rw [hk]; simp)
        · rw [kind_erase fs q p hq]
          simp

theorem rmdir_plain {fs : FS} (h : Wf fs) (s : List Byte) (q : Path) (hs : s ≠ []) (hc : comps s = q) (hn : ∀ x ∈ q, NameOk x) (hl : NoLink fs q)
    (hq : q ≠ []) (he : ∀ x, kind fs (q ++ [x]) = none) :
    Wf (rmdir fs s) ∧ ∀ p, kind (rmdir fs s) p = if p = q ∧ kind fs q = some .dir then none else kind fs p := by
  unfold rmdir
  rw [if_neg hs, hc, resolve_plain h _ _ q hn hl]
  by_cases hk : kind fs q = some .dir
  · rw [if_pos (kind_drop h q (by rw [hk]; simp))]
    dsimp only
    have hch : children fs q = [] := by
      apply List.eq_nil_iff_forall_not_mem.mpr
      intro x hx
      exact (mem_children fs q x).mp hx (he x)
    rw [if_pos ⟨hq, hk, hch⟩]
    refine ⟨wf_erase h q hq he, fun p => ?_⟩
    rw [kind_erase fs q p hq]; simp [hk]
  · have hsame : Wf fs ∧ ∀ p, kind fs p = if p = q ∧ kind fs q = some .dir then none else kind fs p :=
      ⟨h, fun p => by rw [if_neg]; exact fun h => hk h.2⟩
    split
    · exact hsame
    · next q' he =>
      have : q' = q := by split at he <;> simp at he; exact he.symm
      subst this
      rw [if_neg]
      · exact hsame
      · exact fun h => hk h.2.1

theorem comps_strip (s : List Byte) : comps (strip s) = comps s := by
  unfold strip
  split
  · next h =>
    unfold slash at h
    simp only [beq_iff_eq] at h
    obtain ⟨y, hy⟩ := List.getLast?_eq_some_iff.mp h
    rw [hy]; simp [comps_end]
  · rfl

theorem readdir_plain {fs : FS} (h : Wf fs) (s : List Byte) (q : Path) (hs : s ≠ []) (hc : comps s = q) (hn : ∀ x ∈ q, NameOk x) (hl : NoLink fs q) :
    readdir fs s = if kind fs q = some .dir then children fs q else [] := by
  unfold readdir
  rw [place_plain h true s q hs hc hn hl]
  by_cases hp : kind fs q.dropLast = some .dir
  · rw [if_pos hp]
  · rw [if_neg hp, if_neg]
    intro hk
    exact hp (kind_drop h q (by rw [hk]; simp))

theorem slash_word (a w : List Byte) (hw : w ≠ []) (h : ch '/' ∉ w) : slash (a ++ w) = false := by
  unfold slash
  rw [List.getLast?_append]
  cases hl : w.getLast? with
  | none => exact absurd (List.getLast?_eq_none_iff.mp hl) hw
  | some c =>
    have : c ∈ w := List.mem_of_getLast? hl
    simp
    intro e; rw [e] at this; exact h this

/-- There is no link on the way and below. -/
def NoLinks (fs : FS) (q : Path) : Prop := ∀ p, p <+: q ∨ q <+: p → ∀ t, kind fs p ≠ some (.link t)

theorem NoLinks.on {fs : FS} {q : Path} (h : NoLinks fs q) : NoLink fs q := fun p hp => h p (Or.inl hp)

theorem NoLinks.under {fs : FS} {q : Path} (h : NoLinks fs q) (r : Path) : NoLinks fs (q ++ r) := by
  intro p hp
  rcases hp with hp | hp
  · rcases List.prefix_or_prefix_of_prefix hp (List.prefix_append q r) with h1 | h1
    · exact h p (Or.inl h1)
    · exact h p (Or.inr h1)
  · exact h p (Or.inr ((List.prefix_append q r).trans hp))

theorem NoLinks.less {fs fs' : FS} {q : Path} (h : NoLinks fs q) (hk : ∀ p, kind fs' p = none ∨ kind fs' p = kind fs p) : NoLinks fs' q := by
  intro p hp t
  rcases hk p with h1 | h1
  · rw [h1]; simp
  · rw [h1]; exact h p hp t

theorem rmRf_spec (n : Nat) : ∀ (fs : FS) (s : List Byte) (q : Path), Wf fs → s ≠ [] → comps s = q → q ≠ [] → (∀ x ∈ q, NameOk x) → NoLinks fs q →
    (slash s = true → ∀ c, kind fs q ≠ some (.file c)) → (∀ p, q <+: p → kind fs p ≠ none → p.length < q.length + n) →
    Wf (rmRf n fs s) ∧ ∀ p, kind (rmRf n fs s) p = if q <+: p then none else kind fs p := by
  induction n with
  | zero =>
    intro fs s q h _ _ _ _ _ _ hd
    refine ⟨h, fun p => ?_⟩
    split
    · next hp =>
      show kind fs p = none
      cases hk : kind fs p with
      | none => rfl
      | some k =>
        have := hd p hp (by rw [hk]; simp)
        have := hp.length_le
        omega
    · rfl
  | succ n ih =>
    intro fs s q h hs hc hq hn hl hsl hd
    have hcs : comps (strip s) = q := (comps_strip s).trans hc
    have hss : strip s ≠ [] := by intro e; rw [e, comps_nil] at hcs; exact hq hcs.symm
    rw [rmRf]
    dsimp only
    rw [readdir_plain h (strip s) q hss hcs hn hl.on]
    -- the loop
    have loop : ∀ (es : List Seg) (fs1 : FS), (∀ e ∈ es, NameOk e) → Wf fs1 → (∀ p, kind fs1 p = none ∨ kind fs1 p = kind fs p) →
        let fs2 := es.foldl (fun fs e => if stat fs false (strip s ++ ch '/' :: e) = some .dir then rmRf n fs (strip s ++ ch '/' :: e)
          else unlink fs (strip s ++ ch '/' :: e)) fs1
        Wf fs2 ∧ (∀ p, (∀ e ∈ es, ¬ q ++ [e] <+: p) → kind fs2 p = kind fs1 p) ∧ (∀ p e, e ∈ es → q ++ [e] <+: p → kind fs2 p = none) ∧
        (∀ p, kind fs1 p = none → kind fs2 p = none) := by
      intro es
      induction es with
      | nil => intro fs1 _ h1 _; exact ⟨h1, fun p _ => rfl, fun p e he => (by cases he), fun p hp => hp⟩
      | cons e es ihe =>
        intro fs1 hes h1 hk1
        rw [List.foldl_cons]
        have hne := hes e (by simp)
        have hfull : comps (strip s ++ ch '/' :: e) = q ++ [e] := by rw [comps_slash, hcs, comps_seg e hne.2.1 hne.1]
        have hfs : strip s ++ ch '/' :: e ≠ [] := by simp
        have hfsl : slash (strip s ++ ch '/' :: e) = false := by
          have := slash_word (strip s ++ [ch '/']) e hne.1 hne.2.1
          rw [List.append_assoc] at this; exact this
        have hn' : ∀ x ∈ q ++ [e], NameOk x := by
          intro x hx
          rcases List.mem_append.mp hx with hx | hx
          · exact hn x hx
          · rw [List.mem_singleton.mp hx]; exact hne
        have hl1 : NoLinks fs1 (q ++ [e]) := (hl.less hk1).under [e]
        have hst : stat fs1 false (strip s ++ ch '/' :: e) = kind fs1 (q ++ [e]) := by
          rw [stat_plain h1 false _ _ hfs hfull hn' hl1.on, hfsl]
          cases kind fs1 (q ++ [e]) with
          | none => rfl
          | some kd => cases kd <;> rfl
        have hstep : Wf (if stat fs1 false (strip s ++ ch '/' :: e) = some .dir then rmRf n fs1 (strip s ++ ch '/' :: e)
            else unlink fs1 (strip s ++ ch '/' :: e)) ∧ ∀ p, kind (if stat fs1 false (strip s ++ ch '/' :: e) = some .dir then rmRf n fs1 (strip s ++ ch '/' :: e)
            else unlink fs1 (strip s ++ ch '/' :: e)) p = if q ++ [e] <+: p then none else kind fs1 p := by
          rw [hst]
          by_cases hk : kind fs1 (q ++ [e]) = some .dir
          · rw [if_pos hk]
            refine ih fs1 _ _ h1 hfs hfull (by simp) hn' hl1 (fun hb => by rw [hfsl] at hb; cases hb) (fun p hp hkp => ?_)
            have hkp' : kind fs p ≠ none := by
              rcases hk1 p with h2 | h2
              · exact absurd h2 hkp
              · rw [← h2]; exact hkp
            have := hd p ((List.prefix_append q [e]).trans hp) hkp'
            simp; omega
          · rw [if_neg hk]
            obtain ⟨u1, u2⟩ := unlink_plain h1 _ _ hfs hfull hn' hl1.on (by simp) (fun hb => by rw [hfsl] at hb; cases hb)
            refine ⟨u1, fun p => ?_⟩
            rw [u2]
            by_cases hp : q ++ [e] <+: p
            · rw [if_pos hp]
              by_cases hpe : p = q ++ [e]
              · rw [if_pos ⟨hpe, hk⟩]
              · rw [if_neg (fun h => hpe h.1)]
                cases hkp : kind fs1 p with
                | none => rfl
                | some _ => exact absurd (h1.prefix _ p hp (fun e => hpe e.symm) (by rw [hkp]; simp)) hk
            · rw [if_neg hp, if_neg]
              intro h; exact hp (by rw [h.1]; exact List.prefix_refl _)
        generalize (if stat fs1 false (strip s ++ ch '/' :: e) = some .dir then rmRf n fs1 (strip s ++ ch '/' :: e)
            else unlink fs1 (strip s ++ ch '/' :: e)) = fsx at hstep
        obtain ⟨w1, w2⟩ := hstep
        have hkx : ∀ p, kind fsx p = none ∨ kind fsx p = kind fs p := by
          intro p
          rw [w2]
          split
          · exact Or.inl rfl
          · exact hk1 p
        obtain ⟨r1, r2, r3, r4⟩ := ihe fsx (fun x hx => hes x (List.mem_cons_of_mem _ hx)) w1 hkx
        refine ⟨r1, fun p hp => ?_, fun p x hx hpx => ?_, fun p hp => ?_⟩
        · rw [r2 p (fun x hx => hp x (List.mem_cons_of_mem _ hx)), w2, if_neg (hp e (by simp))]
        · rcases List.mem_cons.mp hx with hx | hx
          · apply r4; rw [w2, if_pos (by rw [← hx]; exact hpx)]
          · exact r3 p x hx hpx
        · apply r4; rw [w2]; split
          · rfl
          · exact hp
    -- after the loop
    have hes : ∀ e ∈ (if kind fs q = some .dir then children fs q else []), NameOk e := by
      intro e he
      split at he
      · exact h.names _ ((mem_children fs q e).mp he) e (by simp)
      · cases he
    obtain ⟨l1, l2, l3, l4⟩ := loop _ fs hes h (fun p => Or.inr rfl)
    generalize ((if kind fs q = some .dir then children fs q else []).foldl (fun fs e => if stat fs false (strip s ++ ch '/' :: e) = some .dir
      then rmRf n fs (strip s ++ ch '/' :: e) else unlink fs (strip s ++ ch '/' :: e)) fs) = fs2 at l1 l2 l3 l4
    have hbelow : ∀ p, q <+: p → p ≠ q → kind fs2 p = none := by
      intro p hp hne
      obtain ⟨r, rfl⟩ := hp
      cases r with
      | nil => exact absurd (List.append_nil q) hne
      | cons x r =>
        cases hk : kind fs (q ++ x :: r) with
        | none => exact l4 _ hk
        | some k =>
          have hqd : kind fs q = some .dir := h.over q (x :: r) (by simp) (by rw [hk]; simp)
          have hqx : kind fs (q ++ [x]) ≠ none := by
            cases r with
            | nil => rw [hk]; simp
            | cons y r => rw [h.over (q ++ [x]) (y :: r) (by simp) (by simp [hk])]; simp
          apply l3 _ x
          · rw [if_pos hqd]; exact (mem_children fs q x).mpr hqx
          · exact ⟨r, by simp⟩
    have hother : ∀ p, ¬ q <+: p → kind fs2 p = kind fs p := fun p hp => l2 p (fun e _ h => hp ((List.prefix_append q [e]).trans h))
    have hq2 : kind fs2 q = kind fs q := l2 q (fun e _ => not_snoc q e)
    have hl2 : NoLink fs2 q := by
      intro p hp
      by_cases e : p = q
      · rw [e, hq2]; exact hl q (Or.inl (List.prefix_refl q))
      · rw [hother p (fun h2 => e (List.IsPrefix.eq_of_length hp (Nat.le_antisymm hp.length_le h2.length_le)))]
        exact hl p (Or.inl hp)
    obtain ⟨d1, d2⟩ := rmdir_plain l1 s q hs hc hn hl2 hq (fun x => hbelow _ (List.prefix_append q [x]) (by simp))
    generalize rmdir fs2 s = fs3 at d1 d2
    have hl3 : NoLink fs3 q := by
      intro p hp t
      rw [d2]; split
      · simp
      · exact hl2 p hp t
    have hq3 : kind fs3 q ≠ some .dir := by
      rw [d2]; split
      · simp
      · next hk => exact fun e => hk ⟨rfl, e⟩
    obtain ⟨u1, u2⟩ := unlink_plain d1 s q hs hc hn hl3 hq (fun hb c => by
      rw [d2]; split
      · simp
      · rw [hq2]; exact hsl hb c)
    refine ⟨u1, fun p => ?_⟩
    rw [u2]
    by_cases hp : q <+: p
    · rw [if_pos hp]
      by_cases e : p = q
      · rw [if_pos ⟨e, hq3⟩]
      · rw [if_neg (fun h => e h.1), d2, if_neg (fun h => e h.1)]; exact hbelow p hp e
    · rw [if_neg hp, if_neg (fun h => hp (by rw [h.1]; exact List.prefix_refl _)), d2, if_neg (fun h => hp (by rw [h.1]; exact List.prefix_refl _)), hother p hp]

theorem depth_spec (fs : FS) (p : Path) (h : kind fs p ≠ none) : p.length < depth fs := by
  by_cases hp : p = []
  · subst hp; unfold depth; simp
  · obtain ⟨k, hk⟩ := (kind_mem fs p hp).mp h
    unfold depth
    clear h
    induction fs with
    | nil => cases hk
    | cons e fs ih =>
      rw [List.foldr_cons]
      rcases List.mem_cons.mp hk with h | h
      · rw [← h]; dsimp only; omega
      · have := ih h; omega

/-! ## Keys -/

theorem printable_loop (k : Key) : Key.printable k = Key.printLoop k := by rw [Key.printable_eq, Key.printLoop_eq]

theorem comps_printable (k : Key) (h : ∀ x ∈ k, NameOk x) : comps (Key.printable k) = k := by
  rw [printable_loop]
  induction k with
  | nil => exact comps_nil
  | cons x k ih =>
    have hx := h x (by simp)
    have hk := fun y hy => h y (List.mem_cons_of_mem x hy)
    cases k with
    | nil => rw [Key.printLoop]; exact comps_seg x hx.2.1 hx.1
    | cons y k =>
      rw [Key.printLoop, comps_slash, comps_seg x hx.2.1 hx.1, ih hk]
      · rfl
      · simp

theorem comps_path (ds : List Byte) (k : Key) (h : ∀ x ∈ k, NameOk x) : comps (pathOf ds k) = comps ds ++ k := by
  unfold pathOf; rw [comps_slash, comps_printable k h]

theorem names_of {k : Key} (h : ∀ x ∈ k, NameOk x) : Key.Names k := fun x hx => ⟨(h x hx).1, (h x hx).2.1⟩

theorem slash_path (ds : List Byte) (k : Key) (h : ∀ x ∈ k, NameOk x) : slash (pathOf ds k) = true ↔ k = [] := by
  unfold pathOf slash
  constructor
  · intro hs
    apply Decidable.byContradiction
    intro hk
    have hne : Key.printable k ≠ [] := by
      intro e
      have := comps_printable k h
      rw [e, comps_nil] at this; exact hk this.symm
    have hl := Key.join_last k (names_of h)
    rw [← Key.printable_eq] at hl
    rw [List.getLast?_append, List.getLast?_cons] at hs
    cases hg : (Key.printable k).getLast? with
    | none => exact hne (List.getLast?_eq_none_iff.mp hg)
    | some c =>
      rw [hg] at hs hl
      simp at hs
      exact hl (by rw [hs]; rfl)
  · intro e; subst e
    simp [Key.printable]

theorem removelast_eq (k : Key) (h : ∀ x ∈ k, NameOk x) : Key.removelast k 1 = k.dropLast := by
  have hcol : ∀ l : Key, (∀ x ∈ l, NameOk x) → Key.collapse l = l := by
    intro l hl
    unfold Key.collapse
    split
    · next hh =>
      rcases hh with e | e
      · rw [e] at hl; exact absurd rfl (hl [] (by simp)).1
      · exact e.symm
    · rfl
  have htake : ∀ j : Nat, Key.collapse ((k.take j).drop 0) = k.take j := by
    intro j
    rw [List.drop_zero]
    exact hcol _ (fun x hx => h x (List.mem_of_mem_take hx))
  unfold Key.removelast Key.range Key.numsegments
  rw [List.dropLast_eq_take]
  dsimp only
  have hj : (if (if (k.length : Int) - 1 > k.length then (k.length : Int) else k.length - 1) < 0 then (0 : Int)
      else if (k.length : Int) - 1 > k.length then (k.length : Int) else k.length - 1).toNat = k.length - 1 := by
    split <;> split <;> omega
  have hz : (if (0 : Int) < 0 then (0 : Int) else 0) = 0 := rfl
  rw [hz, hj]
  exact htake _

theorem keySafe_iff (k : Key) : keySafe k = true ↔ Safe k := by
  unfold keySafe Safe
  rw [List.all_eq_true]
  constructor
  · intro h s hs
    have := h s hs
    simp at this
    exact ⟨this.2, this.1.1, this.1.2⟩
  · intro h s hs
    have := h s hs
    simp [this.1, this.2.1, this.2.2]

theorem names_ok {k : Key} (hs : Safe k) (hk : ∀ x ∈ k, ch '/' ∉ x) : ∀ x ∈ k, NameOk x :=
  fun x hx => ⟨(hs x hx).1, hk x hx, (hs x hx).2.1, (hs x hx).2.2⟩

/-! ## What the theorems speak of -/

/-- The configuration that is in the directory `d`. -/
def view (fs : FS) (d : Path) : Tree := fun k => match kind fs (d ++ k) with
  | none => none
  | some (.file c) => some (.value c)
  | some _ => some .folder

/-- A file system in which `d` may be used: nothing is outside of directories, `d` is no file and its parent is a directory, and
    there are no links on the way to `d` and below it. -/
structure Base (fs : FS) (d : Path) : Prop where
  wf : Wf fs
  ne : d ≠ []
  names : ∀ x ∈ d, NameOk x
  parent : kind fs d.dropLast = some .dir
  nofile : ∀ c, kind fs d ≠ some (.file c)
  nolinks : NoLinks fs d

theorem Base.before {fs : FS} {d : Path} (h : Base fs d) (p : Path) (hp : p <+: d) (hne : p ≠ d) : kind fs p = some .dir := by
  have hpd : p <+: d.dropLast := by
    obtain ⟨r, rfl⟩ := hp
    have hr : r ≠ [] := fun e => hne (by rw [e, List.append_nil])
    rw [List.dropLast_append_of_ne_nil hr]
    exact List.prefix_append _ _
  by_cases e : p = d.dropLast
  · rw [e]; exact h.parent
  · exact h.wf.prefix p _ hpd e (by rw [h.parent]; simp)

theorem view_value {fs : FS} {d : Path} (k : Key) (v : List Byte) : view fs d k = some (.value v) ↔ kind fs (d ++ k) = some (.file v) := by
  unfold view
  cases kind fs (d ++ k) with
  | none => simp
  | some kd => cases kd <;> simp

theorem view_folder {fs : FS} {d : Path} (h : NoLinks fs d) (k : Key) : view fs d k = some .folder ↔ kind fs (d ++ k) = some .dir := by
  unfold view
  cases hk : kind fs (d ++ k) with
  | none => simp
  | some kd =>
    cases kd with
    | link t => exact absurd hk (h _ (Or.inr (List.prefix_append d k)) t)
    | file _ => simp
    | dir => simp

theorem view_none {fs : FS} {d : Path} (k : Key) : view fs d k = none ↔ kind fs (d ++ k) = none := by
  unfold view
  cases kind fs (d ++ k) with
  | none => simp
  | some kd => cases kd <;> simp

theorem view_same {fs fs' : FS} {d : Path} (k : Key) (h : kind fs' (d ++ k) = kind fs (d ++ k)) : view fs' d k = view fs d k := by
  unfold view; rw [h]

theorem create_plain {fs : FS} (h : Wf fs) (s v : List Byte) (q : Path) (hs : s ≠ []) (hsl : slash s = false) (hc : comps s = q)
    (hn : ∀ x ∈ q, NameOk x) (hl : NoLink fs q) :
    create fs s v = if kind fs q.dropLast = some .dir ∧ kind fs q ≠ some .dir then put fs q (.file v) else fs := by
  unfold create
  rw [if_neg (by simp [hsl]), place_plain h true s q hs hc hn hl]
  by_cases hp : kind fs q.dropLast = some .dir
  · rw [if_pos hp]
    dsimp only
    cases hk : kind fs q with
    | none => simp [hp]
    | some kd => cases kd <;> simp [hp]
  · rw [if_neg hp, if_neg (fun h => hp h.1)]

theorem append_pre {d k p : Path} : d ++ p <+: d ++ k ↔ p <+: k := List.prefix_append_right_inj d

theorem dropLast_proper {k p : Key} (h : p <+: k) (hne : p ≠ k) : p <+: k.dropLast := by
  obtain ⟨r, rfl⟩ := h
  have hr : r ≠ [] := fun e => hne (by rw [e, List.append_nil])
  rw [List.dropLast_append_of_ne_nil hr]
  exact List.prefix_append _ _

theorem dropLast_ne {k p : Key} (hk : k ≠ []) (h : p <+: k.dropLast) : p <+: k ∧ p ≠ k := by
  refine ⟨h.trans (List.dropLast_prefix k), fun e => ?_⟩
  have h1 := h.length_le
  have h2 : 0 < k.length := by
    cases k with
    | nil => exact absurd rfl hk
    | cons a b => simp
  rw [e, List.length_dropLast] at h1; omega

theorem Base.change {fs fs' : FS} {d : Path} (h : Base fs d) (hw : Wf fs') (hout : ∀ p, ¬ d <+: p → kind fs' p = kind fs p)
    (hd : ∀ c, kind fs' d ≠ some (.file c)) (hl : ∀ p t, d <+: p → kind fs' p ≠ some (.link t)) : Base fs' d := by
  have hnd : ∀ p, p <+: d → p ≠ d → ¬ d <+: p := fun p hp hne h2 => hne (List.IsPrefix.eq_of_length hp (Nat.le_antisymm hp.length_le h2.length_le))
  refine ⟨hw, h.ne, h.names, ?_, hd, ?_⟩
  · have := dropLast_ne h.ne (List.prefix_refl d.dropLast)
    rw [hout _ (hnd _ this.1 this.2)]; exact h.parent
  · intro p hp t
    by_cases hdp : d <+: p
    · exact hl p t hdp
    · rw [hout p hdp]; exact h.nolinks p hp t

/-- `set` is what is expected. -/
theorem set_spec {fs : FS} {d : Path} (hb : Base fs d) (ds : List Byte) (hds : comps ds = d) (k : Key) (hk : ∀ x ∈ k, ch '/' ∉ x)
    (v : Option (List Byte)) (hcare : Careful (view fs d) k v) :
    Spec.Folders.Set (view fs d) k v (view (set ds fs k v) d) ∧ Base (set ds fs k v) d ∧ ∀ p, ¬ d <+: p → kind (set ds fs k v) p = kind fs p := by
  unfold set
  by_cases hsafe : keySafe k = true
  rotate_left
  · rw [if_pos (by simpa using hsafe)]
    exact ⟨.refused _ (fun h => hsafe ((keySafe_iff k).mpr h)), hb, fun p _ => rfl⟩
  rw [if_neg (by simp [hsafe])]
  have hs := (keySafe_iff k).mp hsafe
  have hn := names_ok hs hk
  have hnd : ∀ x ∈ k.dropLast, NameOk x := fun x hx => hn x ((List.dropLast_prefix k).subset hx)
  rw [removelast_eq k hn]
  dsimp only
  have hQ : ∀ x ∈ d ++ k.dropLast, NameOk x := fun x hx => (List.mem_append.mp hx).elim (hb.names x) (hnd x)
  have hq : ∀ x ∈ d ++ k, NameOk x := fun x hx => (List.mem_append.mp hx).elim (hb.names x) (hn x)
  have hcQ : comps (pathOf ds k.dropLast) = d ++ k.dropLast := by rw [comps_path ds _ hnd, hds]
  have hcq : comps (pathOf ds k) = d ++ k := by rw [comps_path ds _ hn, hds]
  have hpn : ∀ k, pathOf ds k ≠ [] := by intro k; unfold pathOf; simp
  have hqne : d ++ k ≠ [] := fun e => hb.ne (List.append_eq_nil_iff.mp e).1
  have hlk : ∀ r, NoLinks fs (d ++ r) := fun r => hb.nolinks.under r
  -- removing, when `mkdirp` changed nothing
  have remove : ∀ fs1 : FS, Wf fs1 → Same fs fs1 → Spec.Folders.Set (view fs d) k none (view (rmRf (depth fs1) fs1 (pathOf ds k)) d)
      ∧ Base (rmRf (depth fs1) fs1 (pathOf ds k)) d ∧ ∀ p, ¬ d <+: p → kind (rmRf (depth fs1) fs1 (pathOf ds k)) p = kind fs p := by
    intro fs1 w1 sm
    have hl1 : NoLinks fs1 (d ++ k) := by intro p hp t; rw [sm]; exact hlk k p hp t
    obtain ⟨r1, r2⟩ := rmRf_spec (depth fs1) fs1 (pathOf ds k) (d ++ k) w1 (hpn k) hcq hqne hq hl1
      (fun hsl c => by
        rw [sm]
        have := (slash_path ds k hn).mp hsl
        rw [this, List.append_nil]; exact hb.nofile c)
      (fun p _ hp => by have := depth_spec fs1 p hp; omega)
    have hout : ∀ p, ¬ d <+: p → kind (rmRf (depth fs1) fs1 (pathOf ds k)) p = kind fs p := by
      intro p hp
      rw [r2, if_neg (fun h => hp ((List.prefix_append d k).trans h)), sm]
    refine ⟨.null _ hs (fun p hp => ?_) (fun p hp => ?_), hb.change r1 hout (fun c => ?_) (fun p t hp => ?_), hout⟩
    · rw [view_none, r2, if_pos (append_pre.mpr hp)]
    · apply view_same
      rw [r2, if_neg (fun h => hp (append_pre.mp h)), sm]
    · rw [r2]; split
      · simp
      · rw [sm]; exact hb.nofile c
    · rw [r2]; split
      · simp
      · rw [sm]; exact hb.nolinks p (Or.inr hp) t
  rcases mkdirp_spec hb.wf (pathOf ds k.dropLast) (d ++ k.dropLast) (hpn _) hcQ hQ (hlk _).on with m | ⟨w1, sm, p, c, hp, hpf⟩
  · -- the directories are there now
    generalize mkdirp fs (pathOf ds k.dropLast) = fs1 at m ⊢
    have hl1 : NoLinks fs1 d := by
      intro p hp t
      rw [m.kinds]; split
      · simp
      · exact hb.nolinks p hp t
    have hunder : ¬ Under (view fs d) k := by
      rintro ⟨p, c, h1, h2, h3⟩
      rw [view_value] at h3
      rcases m.clear (d ++ p) (append_pre.mpr (dropLast_proper h1 h2)) with h | h <;> rw [h] at h3 <;> cases h3
    have hsame : view fs d k.dropLast ≠ none → Same fs fs1 := by
      intro hk0 p
      rw [m.kinds]
      split
      · next hp =>
        rcases m.clear p hp with h | h
        · exact h.symm
        · exfalso
          apply hk0
          rw [view_none]
          cases hx : kind fs (d ++ k.dropLast) with
          | none => rfl
          | some _ =>
            by_cases e : p = d ++ k.dropLast
            · rw [e, hx] at h; cases h
            · rw [hb.wf.prefix p _ hp e (by rw [hx]; simp)] at h; cases h
      · rfl
    have hout1 : ∀ p, ¬ d <+: p → kind fs1 p = kind fs p := by
      intro p hp
      rw [m.kinds]
      split
      · next h =>
        rcases List.prefix_or_prefix_of_prefix h (List.prefix_append d k.dropLast) with h1 | h1
        · by_cases e : p = d
          · exact absurd (e ▸ List.prefix_refl d) hp
          · exact (hb.before p h1 e).symm
        · exact absurd h1 hp
      · rfl
    cases v with
    | none => exact remove fs1 m.wf (hsame ((hcare (Or.inl rfl)).resolve_right hunder))
    | some v =>
      dsimp only
      by_cases hk0 : k = []
      · have hsl := (slash_path ds k hn).mpr hk0
        have hcr : create fs1 (pathOf ds k) v = fs1 := by unfold create; rw [if_pos hsl]
        rw [hcr]
        have sm := hsame ((hcare (Or.inr hk0)).resolve_right hunder)
        have hv : view fs1 d = view fs d := funext fun p => view_same p (sm _)
        rw [hv]
        exact ⟨.cannot v (Or.inl hk0), hb.change m.wf hout1 (fun c => by rw [sm]; exact hb.nofile c) (fun p t hp => hl1 p (Or.inr hp) t), hout1⟩
      · have hsl : slash (pathOf ds k) = false := by
          cases hx : slash (pathOf ds k) with
          | false => rfl
          | true => exact absurd ((slash_path ds k hn).mp hx) hk0
        have hdrop : (d ++ k).dropLast = d ++ k.dropLast := List.dropLast_append_of_ne_nil hk0
        have hpar : kind fs1 (d ++ k).dropLast = some .dir := by rw [hdrop, m.kinds, if_pos (List.prefix_refl _)]
        have hnq : ¬ d ++ k <+: d ++ k.dropLast := by
          intro h
          exact (dropLast_ne hk0 (append_pre.mp h)).2 rfl
        have hkq : kind fs1 (d ++ k) = kind fs (d ++ k) := by rw [m.kinds, if_neg hnq]
        rw [create_plain m.wf (pathOf ds k) v (d ++ k) (hpn k) hsl hcq hq (hl1.under k).on]
        by_cases hkd : kind fs (d ++ k) = some .dir
        · rw [if_neg (fun h => h.2 (hkq.trans hkd))]
          have hex : view fs d k.dropLast ≠ none := by
            rw [ne_eq, view_none]
            have := hb.wf.prefix (d ++ k.dropLast) (d ++ k) (append_pre.mpr (List.dropLast_prefix k)) (by
              intro e; exact (dropLast_ne hk0 (List.prefix_refl _)).2 (List.append_cancel_left e)) (by rw [hkd]; simp)
            rw [this]; simp
          have sm := hsame hex
          have hv : view fs1 d = view fs d := funext fun p => view_same p (sm _)
          rw [hv]
          exact ⟨.cannot v (Or.inr (Or.inl ((view_folder hb.nolinks k).mpr hkd))),
            hb.change m.wf hout1 (fun c => by rw [sm]; exact hb.nofile c) (fun p t hp => hl1 p (Or.inr hp) t), hout1⟩
        · rw [if_pos ⟨hpar, fun h => hkd (hkq.symm.trans h)⟩]
          have hw2 := wf_put m.wf (d ++ k) (.file v) hqne hq hpar (Or.inr (fun h => hkd (hkq.symm.trans h)))
          have hkp : ∀ p, kind (put fs1 (d ++ k) (.file v)) p = if p = d ++ k then some (.file v) else kind fs1 p :=
            fun p => kind_put fs1 (d ++ k) p _ hqne
          have hout : ∀ p, ¬ d <+: p → kind (put fs1 (d ++ k) (.file v)) p = kind fs p := by
            intro p hp
            rw [hkp, if_neg (fun e => hp (by rw [e]; exact List.prefix_append d k))]; exact hout1 p hp
          have hl2 : ∀ p t, d <+: p → kind (put fs1 (d ++ k) (.file v)) p ≠ some (.link t) := by
            intro p t hp
            rw [hkp]; split
            · simp
            · exact hl1 p (Or.inr hp) t
          have hd2 : ∀ c, kind (put fs1 (d ++ k) (.file v)) d ≠ some (.file c) := by
            intro c
            rw [hkp, if_neg (fun e => hk0 (List.append_right_eq_self.mp e.symm)), m.kinds, if_pos (List.prefix_append d _)]; simp
          refine ⟨.value v _ hs hk0 (fun h => hkd ((view_folder hb.nolinks k).mp h)) hunder ?_ (fun p h1 h2 => ?_) (fun p hp => ?_),
            hb.change hw2 hout hd2 hl2, hout⟩
          · rw [view_value, hkp, if_pos rfl]
          · rw [view_folder (fun p hp t => by
              rcases hp with hp | hp
              · by_cases hdp : d <+: p
                · exact hl2 p t hdp
                · rw [hout p hdp]; exact hb.nolinks p (Or.inl hp) t
              · exact hl2 p t hp), hkp, if_neg (fun e => h2 (List.append_cancel_left e)), m.kinds, if_pos (append_pre.mpr (dropLast_proper h1 h2))]
          · apply view_same
            rw [hkp, if_neg (fun e => hp (by rw [List.append_cancel_left e]; exact List.prefix_refl k)), m.kinds,
              if_neg (fun h => hp ((append_pre.mp h).trans (List.dropLast_prefix k)))]
  · -- there is a file in the way
    generalize mkdirp fs (pathOf ds k.dropLast) = fs1 at w1 sm ⊢
    cases v with
    | none => exact remove fs1 w1 sm
    | some v =>
      dsimp only
      have hdp : d <+: p ∧ p ≠ d := by
        rcases List.prefix_or_prefix_of_prefix hp (List.prefix_append d k.dropLast) with h1 | h1
        · by_cases e : p = d
          · rw [e] at hpf; exact absurd hpf (hb.nofile c)
          · rw [hb.before p h1 e] at hpf; cases hpf
        · refine ⟨h1, fun e => ?_⟩
          rw [e] at hpf; exact hb.nofile c hpf
      obtain ⟨⟨r, rfl⟩, hpd⟩ := hdp
      have hr : r <+: k.dropLast := append_pre.mp hp
      have hk0 : k ≠ [] := by
        intro e; subst e
        have : r = [] := by simpa using hr
        exact hpd (by rw [this, List.append_nil])
      have hun : Under (view fs d) k := ⟨r, c, (dropLast_ne hk0 hr).1, (dropLast_ne hk0 hr).2, (view_value r c).mpr hpf⟩
      have hsl : slash (pathOf ds k) = false := by
        cases hx : slash (pathOf ds k) with
        | false => rfl
        | true => exact absurd ((slash_path ds k hn).mp hx) hk0
      have hl1 : NoLinks fs1 (d ++ k) := by intro p hp t; rw [sm]; exact hlk k p hp t
      have hdrop : (d ++ k).dropLast = d ++ k.dropLast := List.dropLast_append_of_ne_nil hk0
      have hpar : kind fs1 (d ++ k).dropLast ≠ some .dir := by
        rw [hdrop, sm]
        intro h
        by_cases e : d ++ r = d ++ k.dropLast
        · rw [e, h] at hpf; cases hpf
        · rw [hb.wf.prefix _ _ hp e (by rw [h]; simp)] at hpf; cases hpf
      rw [create_plain w1 (pathOf ds k) v (d ++ k) (hpn k) hsl hcq hq hl1.on, if_neg (fun h => hpar h.1)]
      have hv : view fs1 d = view fs d := funext fun p => view_same p (sm _)
      rw [hv]
      exact ⟨.cannot v (Or.inr (Or.inr hun)), hb.change w1 (fun p _ => sm p) (fun c => by rw [sm]; exact hb.nofile c)
        (fun p t hp => by rw [sm]; exact hb.nolinks p (Or.inr hp) t), fun p _ => sm p⟩

/-- Whatever is set, nothing outside of the directory changes. -/
theorem set_any {fs : FS} {d : Path} (hb : Base fs d) (ds : List Byte) (hds : comps ds = d) (k : Key) (hk : ∀ x ∈ k, ch '/' ∉ x)
    (v : Option (List Byte)) : Base (set ds fs k v) d ∧ ∀ p, ¬ d <+: p → kind (set ds fs k v) p = kind fs p := by
  by_cases hsafe : keySafe k = true
  rotate_left
  · unfold set
    rw [if_pos (by simpa using hsafe)]
    exact ⟨hb, fun p _ => rfl⟩
  have hs := (keySafe_iff k).mp hsafe
  have hn := names_ok hs hk
  have hnd : ∀ x ∈ k.dropLast, NameOk x := fun x hx => hn x ((List.dropLast_prefix k).subset hx)
  have hQ : ∀ x ∈ d ++ k.dropLast, NameOk x := fun x hx => (List.mem_append.mp hx).elim (hb.names x) (hnd x)
  have hcQ : comps (pathOf ds k.dropLast) = d ++ k.dropLast := by rw [comps_path ds _ hnd, hds]
  have hpn : ∀ k, pathOf ds k ≠ [] := by intro k; unfold pathOf; simp
  rcases mkdirp_spec hb.wf (pathOf ds k.dropLast) (d ++ k.dropLast) (hpn _) hcQ hQ (hb.nolinks.under _).on with m | ⟨w1, sm, p, c, hp, hpf⟩
  · generalize hfs1 : mkdirp fs (pathOf ds k.dropLast) = fs1 at m
    have hout1 : ∀ p, ¬ d <+: p → kind fs1 p = kind fs p := by
      intro p hp
      rw [m.kinds]
      split
      · next h =>
        rcases List.prefix_or_prefix_of_prefix h (List.prefix_append d k.dropLast) with h1 | h1
        · by_cases e : p = d
          · exact absurd (e ▸ List.prefix_refl d) hp
          · exact (hb.before p h1 e).symm
        · exact absurd h1 hp
      · rfl
    have hb1 : Base fs1 d := by
      refine hb.change m.wf hout1 (fun c => ?_) (fun p t hp => ?_)
      · rw [m.kinds, if_pos (List.prefix_append d _)]; simp
      · rw [m.kinds]; split
        · simp
        · exact hb.nolinks p (Or.inr hp) t
    have hself : mkdirp fs1 (pathOf ds k.dropLast) = fs1 := by
      unfold mkdirp
      rw [if_pos ((access_plain m.wf _ _ (hpn _) hcQ hQ (hb1.nolinks.under _).on).mpr (by rw [m.kinds, if_pos (List.prefix_refl _)]))]
    have he : set ds fs k v = set ds fs1 k v := by
      unfold set
      rw [removelast_eq k hn, hfs1, hself]
      simp [hsafe]
    rw [he]
    have hc : Careful (view fs1 d) k v := by
      intro _
      left
      rw [ne_eq, view_none, m.kinds, if_pos (List.prefix_refl _)]; simp
    obtain ⟨_, g1, g2⟩ := set_spec hb1 ds hds k hk v hc
    exact ⟨g1, fun p hp => by rw [g2 p hp, hout1 p hp]⟩
  · have hdp : d <+: p ∧ p ≠ d := by
      rcases List.prefix_or_prefix_of_prefix hp (List.prefix_append d k.dropLast) with h1 | h1
      · by_cases e : p = d
        · rw [e] at hpf; exact absurd hpf (hb.nofile c)
        · rw [hb.before p h1 e] at hpf; cases hpf
      · refine ⟨h1, fun e => ?_⟩
        rw [e] at hpf; exact hb.nofile c hpf
    obtain ⟨⟨r, rfl⟩, hpd⟩ := hdp
    have hr : r <+: k.dropLast := append_pre.mp hp
    have hk0 : k ≠ [] := by
      intro e; subst e
      have : r = [] := by simpa using hr
      exact hpd (by rw [this, List.append_nil])
    exact (set_spec hb ds hds k hk v (fun _ => Or.inr ⟨r, c, (dropLast_ne hk0 hr).1, (dropLast_ne hk0 hr).2, (view_value r c).mpr hpf⟩)).2

/-- `get` is what is expected. -/
theorem get_spec {fs : FS} {d : Path} (hb : Base fs d) (ds : List Byte) (hds : comps ds = d) (k : Key) (hk : ∀ x ∈ k, ch '/' ∉ x) :
    get ds fs k = if Safe k then Spec.Folders.get (view fs d) k else none := by
  unfold get
  by_cases hsafe : keySafe k = true
  rotate_left
  · rw [if_pos (by simpa using hsafe), if_neg (fun h => hsafe ((keySafe_iff k).mpr h))]
  have hs := (keySafe_iff k).mp hsafe
  have hn := names_ok hs hk
  rw [if_neg (by simp [hsafe]), if_pos hs]
  have hq : ∀ x ∈ d ++ k, NameOk x := fun x hx => (List.mem_append.mp hx).elim (hb.names x) (hn x)
  rw [stat_plain hb.wf true (pathOf ds k) (d ++ k) (by unfold pathOf; simp) (by rw [comps_path ds _ hn, hds]) hq (hb.nolinks.under k).on]
  unfold Spec.Folders.get view
  cases hkk : kind fs (d ++ k) with
  | none => cases slash (pathOf ds k) <;> rfl
  | some kd =>
    cases kd with
    | dir => rfl
    | link t => exact absurd hkk (hb.nolinks _ (Or.inr (List.prefix_append d k)) t)
    | file c =>
      have hsl : slash (pathOf ds k) = false := by
        cases hx : slash (pathOf ds k) with
        | false => rfl
        | true =>
          have := (slash_path ds k hn).mp hx
          rw [this, List.append_nil] at hkk
          exact absurd hkk (hb.nofile c)
      rw [hsl]; rfl

/-- There is one configuration after a key was set. -/
theorem set_unique {T T1 T2 : Tree} {k : Key} {v : Option (List Byte)} (h1 : Spec.Folders.Set T k v T1) (h2 : Spec.Folders.Set T k v T2) : T1 = T2 := by
  cases h1 with
  | refused _ ns =>
    cases h2 with
    | refused => rfl
    | cannot => rfl
    | value _ _ hs => exact absurd hs ns
    | null _ hs => exact absurd hs ns
  | cannot _ hc =>
    cases h2 with
    | refused => rfl
    | cannot => rfl
    | value _ _ _ h3 h4 h5 =>
      rcases hc with h | h | h
      · exact absurd h h3
      · exact absurd h h4
      · exact absurd h h5
  | value _ _ hs h3 h4 h5 h6 h7 h8 =>
    cases h2 with
    | refused _ ns => exact absurd hs ns
    | cannot _ hc =>
      rcases hc with h | h | h
      · exact absurd h h3
      · exact absurd h h4
      · exact absurd h h5
    | value _ _ _ _ _ _ g6 g7 g8 =>
      funext p
      by_cases hp : p <+: k
      · by_cases e : p = k
        · rw [e, h6, g6]
        · rw [h7 p hp e, g7 p hp e]
      · rw [h8 p hp, g8 p hp]
  | null _ hs h3 h4 =>
    cases h2 with
    | refused _ ns => exact absurd hs ns
    | null _ _ g3 g4 =>
      funext p
      by_cases hp : k <+: p
      · rw [h3 p hp, g3 p hp]
      · rw [h4 p hp, g4 p hp]

theorem parse_name (e : Seg) (he : NameOk e) : Key.parse e = [e] := by
  have h := Key.names_one e ⟨he.1, he.2.1⟩
  rw [Key.parse_eq, h]
  have hd : Spec.Path.dir e = false := by
    have := Key.join_last [e] (by intro x hx; rw [List.mem_singleton.mp hx]; exact ⟨he.1, he.2.1⟩)
    unfold Spec.Path.dir
    simp only [Spec.Split.join] at this
    simp only [Bool.and_eq_false_iff, beq_eq_false_iff_ne]
    exact Or.inr this
  rw [hd]; rfl

theorem parse_child (k : Key) (e : Seg) (hk : ∀ x ∈ k, NameOk x) (he : NameOk e) :
    Key.parse (Key.printable k ++ ch '/' :: e) = k ++ [e] := by
  have h1 : Spec.Path.names (Key.printable k ++ ch '/' :: e) = k ++ [e] := by
    rw [show ch '/' = Spec.Path.slash from rfl, Key.names_append, Key.printable_eq, Key.names_join k (names_of hk), Key.names_one e ⟨he.1, he.2.1⟩]
  rw [Key.parse_eq, h1]
  have hd : Spec.Path.dir (Key.printable k ++ ch '/' :: e) = false := by
    have := slash_word (Key.printable k ++ [ch '/']) e he.1 he.2.1
    unfold slash at this
    unfold Spec.Path.dir
    rw [List.append_assoc] at this
    simp only [beq_eq_false_iff_ne] at this
    simp only [Bool.and_eq_false_iff, beq_eq_false_iff_ne]
    exact Or.inr this
  rw [hd]
  unfold Key.mk
  simp

theorem nodup_children {fs : FS} (h : Wf fs) (q : Path) : (children fs q).Nodup := by
  unfold children
  have hn : fs.Pairwise (fun a b => a.1 ≠ b.1) := by
    have := h.nodup
    unfold List.Nodup at this
    rwa [List.pairwise_map] at this
  unfold List.Nodup
  rw [List.pairwise_filterMap]
  refine hn.imp (fun {a b} hab x hx y hy e => hab ?_)
  subst e
  split at hx
  · next ha =>
    split at hy
    · next hb =>
      obtain ⟨r1, h1⟩ := List.getLast?_eq_some_iff.mp hx
      obtain ⟨r2, h2⟩ := List.getLast?_eq_some_iff.mp hy
      rw [h1, h2]
      rw [h1, List.dropLast_concat] at ha
      rw [h2, List.dropLast_concat] at hb
      rw [ha, hb]
    · cases hy
  · cases hx

/-- The iterator is what is expected. -/
theorem iter_spec {fs : FS} {d : Path} (hb : Base fs d) (ds : List Byte) (hds : comps ds = d) (k : Key) (hk : ∀ x ∈ k, ch '/' ∉ x) (hs : Safe k) :
    ∃ l, iter ds fs k = some l ∧ (l.map (·.1)).Nodup
      ∧ ∀ e x, (e, x) ∈ l ↔ ∃ n, e = [n] ∧ view fs d (k ++ [n]) ≠ none ∧ x = Spec.Folders.get (view fs d) (k ++ [n]) := by
  have hn := names_ok hs hk
  have hq : ∀ x ∈ d ++ k, NameOk x := fun x hx => (List.mem_append.mp hx).elim (hb.names x) (hn x)
  have hkids : readdir fs (strip (pathOf ds k)) = children fs (d ++ k) := by
    have hc : comps (strip (pathOf ds k)) = d ++ k := by rw [comps_strip, comps_path ds _ hn, hds]
    rw [readdir_plain hb.wf _ (d ++ k) (by
      intro e; rw [e, comps_nil] at hc; exact hb.ne (List.append_eq_nil_iff.mp hc.symm).1) hc hq (hb.nolinks.under k).on]
    split
    · rfl
    · next hd =>
      cases hch : children fs (d ++ k) with
      | nil => rfl
      | cons e l =>
        have : e ∈ children fs (d ++ k) := by rw [hch]; simp
        exact absurd (hb.wf.parent _ _ ((mem_children fs _ e).mp this)) hd
  have hname : ∀ e ∈ children fs (d ++ k), NameOk e := by
    intro e he
    have := hb.wf.names (d ++ k ++ [e]) ((mem_children fs _ e).mp he)
    exact this e (by simp)
  refine ⟨_, by unfold iter; rw [if_neg (by simp [(keySafe_iff k).mpr hs])], ?_, ?_⟩
  · rw [hkids, List.map_map]
    have : ((fun x : Key × Option (List Byte) => x.1) ∘ fun e => (Key.parse e, get ds fs (Key.parse (Key.printable k ++ ch '/' :: e)))) = Key.parse := rfl
    rw [this]
    have h2 : (children fs (d ++ k)).map Key.parse = (children fs (d ++ k)).map (fun e => [e]) :=
      List.map_congr_left (fun e he => parse_name e (hname e he))
    rw [h2]
    unfold List.Nodup
    rw [List.pairwise_map]
    exact (nodup_children hb.wf (d ++ k)).imp (fun h e => h (by injection e))
  · intro e x
    rw [hkids, List.mem_map]
    have hget : ∀ n, NameOk n → get ds fs (k ++ [n]) = Spec.Folders.get (view fs d) (k ++ [n]) := by
      intro n hno
      rw [get_spec hb ds hds (k ++ [n]) (fun x hx => by
        rcases List.mem_append.mp hx with h | h
        · exact hk x h
        · rw [List.mem_singleton.mp h]; exact hno.2.1), if_pos]
      intro x hx
      rcases List.mem_append.mp hx with h | h
      · exact hs x h
      · rw [List.mem_singleton.mp h]; exact ⟨hno.1, hno.2.2.1, hno.2.2.2⟩
    constructor
    · rintro ⟨n, hnm, he⟩
      have hno := hname n hnm
      rw [parse_name n hno, parse_child k n hn hno, hget n hno] at he
      injection he with h1 h2
      refine ⟨n, h1.symm, ?_, h2.symm⟩
      rw [ne_eq, view_none, ← List.append_assoc]
      exact (mem_children fs _ n).mp hnm
    · rintro ⟨n, h1, h2, h3⟩
      rw [ne_eq, view_none, ← List.append_assoc] at h2
      have hnm := (mem_children fs _ n).mpr h2
      have hno := hname n hnm
      refine ⟨n, hnm, ?_⟩
      rw [parse_name n hno, parse_child k n hn hno, hget n hno, h1, h3]

end Wv.FsGen
