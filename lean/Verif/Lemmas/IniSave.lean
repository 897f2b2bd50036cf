import Verif.Lemmas.IniGen
/- Helper lemmas for C49: what is saved, and what is read from it. -/
namespace Ini
open Wv Wv.Tcl Wv.TempGen Wv.IniGen Spec.Ini Spec.Conf
open Wv.Key (fold Names)
open Spec.Path (slash)

/-! ### The entries of a tree -/

mutual
def entBelow (path : List Key) : Tree → List (List Key × Value)
  | .node _ _ c => ent true path c
def ent (recursive : Bool) (path : List Key) : List Tree → List (List Key × Value)
  | [] => []
  | .node k v c :: r =>
    (if v ≠ [] then [(path ++ [k], v)] else []) ++
      (if recursive then entBelow (path ++ [k]) (.node k v c) else []) ++ ent recursive path r
end

/-- The entries as they are printed. -/
def lines (es : List (List Key × Value)) : List Byte := es.flatMap fun e => printkey (fullkey e.1) e.2

/-- A section. -/
def block (top : Key) (es : List (List Key × Value)) : List Byte := if es = [] then [] else printsection top ++ lines es

theorem lines_append (a b : List (List Key × Value)) : lines (a ++ b) = lines a ++ lines b := by simp [lines]

/-- What is printed of some entries. -/
def part (top : Key) (printed : Bool) (es : List (List Key × Value)) : List Byte × Bool :=
  ((if printed || es.isEmpty then [] else printsection top) ++ lines es, printed || !es.isEmpty)

theorem part_append (top : Key) (p : Bool) (a b : List (List Key × Value)) :
    part top p (a ++ b) = ((part top p a).1 ++ (part top (part top p a).2 b).1, (part top (part top p a).2 b).2) := by
  cases p <;> cases a <;> cases b <;> simp [part, lines]

mutual
theorem saveBelow_eq (top : Key) (path : List Key) (p : Bool) : (t : Tree) →
    saveBelow top path p t = part top p (entBelow path t)
  | .node k v c => by rw [saveBelow, entBelow]; exact saveSect_eq top true path p c
theorem saveSect_eq (top : Key) (rec : Bool) (path : List Key) (p : Bool) : (c : List Tree) →
    saveSect top rec path p c = part top p (ent rec path c)
  | [] => by rw [saveSect, ent]; simp [part, lines]
  | .node k v c :: r => by
    have ha : (if v ≠ [] then ((if p then [] else printsection top) ++ printkey (fullkey (path ++ [k])) v, true) else ([], p)) =
        part top p (if v ≠ [] then [(path ++ [k], v)] else []) := by
      by_cases hv : v = [] <;> cases p <;> simp [hv, part, lines]
    have hb : ∀ q, (if rec then saveBelow top (path ++ [k]) q (.node k v c) else ([], q)) =
        part top q (if rec then entBelow (path ++ [k]) (.node k v c) else []) := by
      intro q
      cases rec with
      | false => simp [part, lines]
      | true => simpa using saveBelow_eq top (path ++ [k]) q (.node k v c)
    rw [saveSect, ent, ha]
    rw [hb, saveSect_eq top rec path _ r, part_append, part_append]
end

theorem part_block (top : Key) (es : List (List Key × Value)) : (part top false es).1 = block top es := by
  cases es <;> simp [part, block, lines]

theorem save_eq (k : Key) (v : Value) (c : List Tree) : save (some (.node k v c)) =
    (if v ≠ [] then printkey k v else []) ++ block [] (ent false [] c) ++
      c.flatMap fun t => block (fullkey [t.key]) (ent true [] t.children) := by
  rw [save]
  simp only [saveSect_eq, part_block]

/-! ### Reading what was printed -/

theorem prepend_names (a b : List Seg) (ha : Names a) (hb : Names b) : Key.prepend b a = a ++ b := by
  unfold Key.prepend
  have e1 := Key.filter_mk a false ha
  have e2 := Key.collapse_mk (a ++ b) false (ha.append hb)
  simp only [Key.mk, Bool.false_eq_true, if_false, List.append_nil, Bool.false_and] at e1 e2
  rw [e1, e2]

theorem printable_names (ns : List Seg) : Key.printable ns = Spec.Split.join [slash] ns := by
  have := Key.printable_mk ns false (by simp)
  simpa [Key.mk, Spec.Path.write] using this

theorem parse_printable (ns : List Seg) (h : Names ns) : Key.parse (Key.printable ns) = ns := by
  have := Key.ok_parse (Key.mk ns false) ⟨ns, false, h, by simp, rfl⟩
  simpa [Key.mk] using this

theorem join_ne_nil (ns : List Seg) (h : Names ns) (h0 : ns ≠ []) : Spec.Split.join [slash] ns ≠ [] := by
  intro e
  have := Key.names_join ns h
  rw [e] at this
  exact h0 (by rw [← this]; rfl)

theorem splits_key_nl : Splits keyNasties newlines := by
  intro c hc
  simp [newlines] at hc
  rcases hc with rfl | rfl <;> decide
theorem splits_key_eq : Splits keyNasties [61] := by
  intro c hc
  simp at hc
  subst hc
  decide
theorem splits_sect_nl : Splits sectNasties newlines := by
  intro c hc
  simp [newlines] at hc
  rcases hc with rfl | rfl <;> decide

/-- An entry's key is in order. -/
theorem continue_printkey {k : Nat} (ns : List Seg) (v : Value) (hn : Names ns) (h0 : ns ≠ [])
    (hk : KeyOk (Spec.Split.join [slash] ns)) (hv : ValueOk v) (hv0 : v ≠ []) (st : Read) (hs : Names st.sect) (F : List Byte) :
    continue_ (st, nls k) (printkey ns v ++ F) =
      continue_ ({ st with sets := st.sets ++ [(st.sect ++ ns, v)] }, nls 1) F := by
  have wk : Written keySep keyNasties _ _ := survives_written hk.1
  have wv : Written valueSep spaces _ _ := survives_written hv.1
  have hj := join_ne_nil ns hn h0
  have hK0 := wk.nonempty hj
  have hV0 := wv.nonempty hv0
  have hpk : printkey ns v = written keySep keyNasties (Spec.Split.join [slash] ns) ++ [32, 61, 32] ++ written valueSep spaces v ++ [10] := by
    unfold printkey
    simp only [printable_names]
    rw [if_neg hj]
    rfl
  generalize written keySep keyNasties (Spec.Split.join [slash] ns) = K at *
  generalize written valueSep spaces v = V at *
  obtain ⟨c, cs, hKe⟩ : ∃ c cs, K = c :: cs := by
    cases K with
    | nil => exact absurd rfl hK0
    | cons c cs => exact ⟨c, cs, rfl⟩
  have hc := wk.head c (by rw [hKe]; rfl)
  have hcn : ∀ x ∈ keySep, x ≠ 123 → c ≠ x := by
    rintro x hx hx1 rfl
    rcases hc.2 with h | h
    · exact hx1 h
    · exact h hx
  have hw : Word (K ++ [32, 61, 32] ++ V) := by
    refine ⟨?_, ⟨c, cs ++ [32, 61, 32] ++ V, by rw [hKe]; rfl, ?_, hcn 34 (by decide) (by decide)⟩, ?_⟩
    · refine Pass.append (Pass.append (wk.pass newlines (by decide) splits_key_nl) ?_) (wv.pass newlines (by decide) Props.Uc.splits_nl)
      exact Pass.append (a := [32]) (b := [61, 32]) (Pass.one (by decide) (by decide) (by decide) (by decide))
        (Pass.append (a := [61]) (b := [32]) (Pass.one (by decide) (by decide) (by decide) (by decide))
          (Pass.one (by decide) (by decide) (by decide) (by decide)))
    · have h1 := hcn 10 (by decide) (by decide)
      have h2 := hcn 13 (by decide) (by decide)
      simp [newlines, h1, h2]
    · have h1 := wk.nul hk.2
      have h2 := wv.nul hv.2
      simp [h1, h2]
  have hr := readWord_key st K V _ v wk.back wv.back hj (wk.pass [61] (by decide) splits_key_eq)
    ⟨c, cs, hKe, hc.1, hcn 34 (by decide) (by decide), hcn 35 (by decide) (by decide), hcn 91 (by decide) (by decide),
      hcn 61 (by decide) (by decide)⟩ wk.last hV0 (fun c hc => (wv.head c hc).1) wv.last
  have hp : Key.parse (Spec.Split.join [slash] ns) = ns := by rw [← printable_names]; exact parse_printable ns hn
  rw [hp, prepend_names _ _ hs hn] at hr
  rw [hpk, List.append_assoc (_ ++ V), List.singleton_append, continue_word hw, hr]
  rfl

/-- The value of the root. -/
theorem continue_root {k : Nat} (v : Value) (hv : ValueOk v) (hv0 : v ≠ []) (st : Read) (hs : st.sect = []) (F : List Byte) :
    continue_ (st, nls k) (printkey [] v ++ F) = continue_ ({ st with sets := st.sets ++ [([], v)] }, nls 1) F := by
  have wv : Written valueSep spaces _ _ := survives_written hv.1
  have hV0 := wv.nonempty hv0
  have hpk : printkey [] v = [47] ++ [32, 61, 32] ++ written valueSep spaces v ++ [10] := by
    unfold printkey
    rfl
  generalize written valueSep spaces v = V at *
  have hw : Word ([47] ++ [32, 61, 32] ++ V) := by
    refine ⟨?_, ⟨47, [32, 61, 32] ++ V, rfl, by decide, by decide⟩, ?_⟩
    · refine Pass.append (Pass.append (Pass.one (by decide) (by decide) (by decide) (by decide)) ?_) (wv.pass newlines (by decide) Props.Uc.splits_nl)
      exact Pass.append (a := [32]) (b := [61, 32]) (Pass.one (by decide) (by decide) (by decide) (by decide))
        (Pass.append (a := [61]) (b := [32]) (Pass.one (by decide) (by decide) (by decide) (by decide))
          (Pass.one (by decide) (by decide) (by decide) (by decide)))
    · have h2 := wv.nul hv.2
      simp [h2]
  have hr := readWord_key st [47] V [47] v (by decide +kernel) wv.back (by simp)
    (Pass.one (by decide) (by decide) (by decide) (by decide)) ⟨47, [], rfl, by decide, by decide, by decide, by decide, by decide⟩
    (by intro c hc; simp at hc; subst hc; decide) hV0 (fun c hc => (wv.head c hc).1) wv.last
  have hp : Key.parse [47] = [] := by decide +kernel
  rw [hp, hs] at hr
  have e : printkey [] v ++ F = ([47] ++ [32, 61, 32] ++ V) ++ 10 :: F := by rw [hpk]; simp
  have e2 : Key.prepend [] [] = [] := rfl
  rw [e, continue_word hw, hr, hs, e2]
  rfl

theorem continue_printsection {k : Nat} (top : Key) (hn : Names top) (hk : SectionOk (Spec.Split.join [slash] top))
    (st : Read) (F : List Byte) :
    continue_ (st, nls k) (printsection top ++ F) = continue_ ({ st with sect := top }, nls 1) F := by
  have wk : Written sectNasties sectNasties _ _ := survives_written hk.1
  have hps : printsection top = 10 :: (91 :: (written sectNasties sectNasties (Spec.Split.join [slash] top) ++ [93]) ++ [10]) := by
    unfold printsection
    simp only [printable_names]
    simp [written]
  generalize written sectNasties sectNasties (Spec.Split.join [slash] top) = K at *
  have hw : Word (91 :: (K ++ [93])) := by
    refine ⟨?_, ⟨91, K ++ [93], rfl, by decide, by decide⟩, ?_⟩
    · exact Pass.append (a := [91]) (b := K ++ [93]) (Pass.one (by decide) (by decide) (by decide) (by decide))
        (Pass.append (wk.pass newlines (by decide) splits_sect_nl) (Pass.one (by decide) (by decide) (by decide) (by decide)))
    · have h1 := wk.nul hk.2
      simp [h1]
  have hr := readWord_section st K _ wk.back (fun c hc => (wk.head c hc).1) wk.last
  have hp : Key.parse (Spec.Split.join [slash] top) = top := by rw [← printable_names]; exact parse_printable top hn
  rw [hp] at hr
  have e : printsection top ++ F = 10 :: ((91 :: (K ++ [93])) ++ 10 :: F) := by rw [hps]; simp
  rw [e, continue_blank, continue_word hw, hr]
  rfl

theorem sectionOk_nil : SectionOk [] := by
  refine ⟨⟨by decide, ?_, ?_⟩, by simp⟩
  · intro h
    rcases h with (⟨c, h, -⟩ | ⟨c, h, -⟩) | h
    · simp at h
    · simp at h
    · simp [exposed] at h
  · intro _
    exact ⟨by simp, by simp [within], by simp [within]⟩

/-- An entry that is read back. -/
def EntOk (e : List Key × Value) : Prop :=
  ∃ ns, e.1 = ones ns ∧ ns ≠ [] ∧ Names ns ∧ KeyOk (Spec.Split.join [slash] ns) ∧ ValueOk e.2 ∧ e.2 ≠ []

theorem continue_lines (es : List (List Key × Value)) : ∀ (k : Nat) (h : ∀ e ∈ es, EntOk e) (st : Read) (hs : Names st.sect) (F : List Byte),
    ∃ k', continue_ (st, nls k) (lines es ++ F) =
      continue_ ({ st with sets := st.sets ++ es.map fun e => (st.sect ++ fullkey e.1, e.2) }, nls k') F := by
  induction es with
  | nil => intro k h st hs F; exact ⟨k, by simp [lines]⟩
  | cons e es ih =>
    intro k h st hs F
    obtain ⟨ns, e1, e2, e3, e4, e5, e6⟩ := h e (by simp)
    have hf : fullkey e.1 = ns := by rw [e1, fullkey_ones ns e3]
    have hl : lines (e :: es) ++ F = printkey (fullkey e.1) e.2 ++ (lines es ++ F) := by simp [lines]
    obtain ⟨k', hk'⟩ := ih 1 (fun x hx => h x (by simp [hx])) { st with sets := st.sets ++ [(st.sect ++ ns, e.2)] } hs F
    refine ⟨k', ?_⟩
    rw [hl, hf, continue_printkey ns e.2 e3 e2 e4 e5 e6 st hs, hk']
    simp [hf]

theorem continue_block (top : Key) (ht : Names top)
    (es : List (List Key × Value)) (k : Nat) (h : ∀ e ∈ es, EntOk e) (st : Read) (hs : Names st.sect) (F : List Byte) (hk : es ≠ [] → SectionOk (Spec.Split.join [slash] top)) :
    ∃ k' sect, Names sect ∧ continue_ (st, nls k) (block top es ++ F) =
      continue_ (({ sect := sect, sets := st.sets ++ es.map fun e => (top ++ fullkey e.1, e.2) } : Read), nls k') F := by
  by_cases he : es = []
  · subst he
    exact ⟨k, st.sect, hs, by simp [block]⟩
  · obtain ⟨k', h'⟩ := continue_lines es 1 h { st with sect := top } ht F
    refine ⟨k', top, ht, ?_⟩
    rw [block, if_neg he, List.append_assoc, continue_printsection top ht (hk he), h']

/-! ### The entries are the values -/

theorem ones_append (a b : List Seg) : ones (a ++ b) = ones a ++ ones b := by simp [ones]

mutual
/-- Each entry is a value that is not empty. -/
theorem below_sound (ps : List Seg) : (t : Tree) → Good t → ∀ e ∈ entBelow (ones ps) t,
    ∃ n ns, e.1 = ones (ps ++ n :: ns) ∧ Names (n :: ns) ∧ look t (fold (n :: ns)) = some e.2 ∧ e.2 ≠ []
  | .node k v c, hg, e, he => by
    obtain ⟨h1, h2, h3⟩ := hg.parts
    rw [entBelow] at he
    obtain ⟨x, hx, n, ns, a1, a2, a3, a4, a5, -⟩ := ent_sound ps true c h1 h3 e he
    refine ⟨n, ns, a2, a3, ?_, a5⟩
    have hl : lk c (n.map tolower) = some x := (lk_some c h2 _ x).mpr ⟨hx, by rw [low, a1]; rfl⟩
    rw [fold, List.map_cons, look_cons]
    show (lk c (n.map tolower)).bind _ = _
    rw [hl]
    exact a4
theorem ent_sound (ps : List Seg) (rec : Bool) : (c : List Tree) → (∀ x ∈ c, ∃ n : Seg, x.key = [n] ∧ n ≠ [] ∧ slash ∉ n) →
    (∀ x ∈ c, Good x) → ∀ e ∈ ent rec (ones ps) c,
    ∃ x ∈ c, ∃ n ns, x.key = [n] ∧ e.1 = ones (ps ++ n :: ns) ∧ Names (n :: ns) ∧ look x (fold ns) = some e.2 ∧ e.2 ≠ [] ∧
      (rec = false → ns = [])
  | [], _, _, e, he => by simp [ent] at he
  | .node k v c :: r, hk, hg, e, he => by
    obtain ⟨n, hn1, hn2, hn3⟩ := hk _ List.mem_cons_self
    rw [ent, List.mem_append, List.mem_append] at he
    have hn1' : k = [n] := hn1
    have hp : ones ps ++ [k] = ones (ps ++ [n]) := by rw [ones_append, hn1']; rfl
    rcases he with (he | he) | he
    · by_cases hv : v = []
      · simp [hv] at he
      · rw [if_pos hv] at he
        simp only [List.mem_singleton] at he
        subst he
        refine ⟨_, List.mem_cons_self, n, [], hn1, hp, ?_, rfl, hv, fun _ => rfl⟩
        intro m hm
        simp at hm
        subst hm
        exact ⟨hn2, hn3⟩
    · cases rec with
      | false => simp at he
      | true =>
        simp only [if_true] at he
        rw [hp] at he
        obtain ⟨m, ms, a1, a2, a3, a4⟩ := below_sound (ps ++ [n]) (.node k v c) (hg _ List.mem_cons_self) e he
        refine ⟨_, List.mem_cons_self, n, m :: ms, hn1, by rw [a1]; simp, ?_, a3, a4, by simp⟩
        intro x hx
        rcases List.mem_cons.mp hx with rfl | hx
        · exact ⟨hn2, hn3⟩
        · exact a2 x hx
    · obtain ⟨x, hx, h⟩ := ent_sound ps rec r (fun x hx => hk x (by simp [hx])) (fun x hx => hg x (by simp [hx])) e he
      exact ⟨x, by simp [hx], h⟩
end

mutual
/-- Each value that is not empty is an entry. -/
theorem below_complete (ps : List Seg) : (t : Tree) → Good t → ∀ m q v, look t (m :: q) = some v → v ≠ [] →
    ∃ n ns, fold (n :: ns) = m :: q ∧ Names (n :: ns) ∧ (ones (ps ++ n :: ns), v) ∈ entBelow (ones ps) t
  | .node k w c, hg, m, q, v, hl, hv => by
    obtain ⟨h1, h2, h3⟩ := hg.parts
    rw [look_cons] at hl
    obtain ⟨x, hx, hl⟩ := Option.bind_eq_some_iff.mp hl
    have hx' := (lk_some c h2 _ x).mp hx
    obtain ⟨n, hn1, hn2, hn3⟩ := h1 x hx'.1
    obtain ⟨ns, a1, a2, a3⟩ := ent_complete ps true c h1 h3 x hx'.1 n hn1 q v hl hv (Or.inl rfl)
    have hm : n.map tolower = m := by
      have := hx'.2
      rw [low, hn1] at this
      simpa [fold] using this
    refine ⟨n, ns, by rw [← a1, ← hm]; rfl, a2, ?_⟩
    rw [entBelow]
    exact a3
theorem ent_complete (ps : List Seg) (rec : Bool) : (c : List Tree) → (∀ x ∈ c, ∃ n : Seg, x.key = [n] ∧ n ≠ [] ∧ slash ∉ n) →
    (∀ x ∈ c, Good x) → ∀ x ∈ c, ∀ n, x.key = [n] → ∀ q v, look x q = some v → v ≠ [] → (rec = true ∨ q = []) →
    ∃ ns, fold ns = q ∧ Names (n :: ns) ∧ (ones (ps ++ n :: ns), v) ∈ ent rec (ones ps) c
  | [], _, _, x, hx, _, _, _, _, _, _, _ => by simp at hx
  | .node k w c :: r, hk, hg, x, hx, n, hn, q, v, hl, hv, hr => by
    rw [ent]
    rcases List.mem_cons.mp hx with hx | hx
    · subst hx
      obtain ⟨n', hn1, hn2, hn3⟩ := hk _ List.mem_cons_self
      rw [hn] at hn1
      cases hn1
      have hn' : k = [n] := hn
      have hp : ones ps ++ [k] = ones (ps ++ [n]) := by rw [ones_append, hn']; rfl
      cases q with
      | nil =>
        refine ⟨[], rfl, ?_, ?_⟩
        · intro x hx
          simp at hx
          subst hx
          exact ⟨hn2, hn3⟩
        · rw [look_nil] at hl
          simp only [Option.some.injEq] at hl
          have hl' : w = v := hl
          subst hl'
          rw [if_pos hv, hp]
          simp
      | cons m q =>
        rcases hr with rfl | hr
        · obtain ⟨n2, ns2, a1, a2, a3⟩ := below_complete (ps ++ [n]) (.node k w c) (hg _ List.mem_cons_self) m q v hl hv
          refine ⟨n2 :: ns2, a1, ?_, ?_⟩
          · intro x hx
            rcases List.mem_cons.mp hx with rfl | hx
            · exact ⟨hn2, hn3⟩
            · exact a2 x hx
          · simp only [if_true]
            rw [hp]
            rw [List.append_assoc] at a3
            simp only [List.mem_append]
            left; right
            exact a3
        · simp at hr
    · obtain ⟨ns, a1, a2, a3⟩ := ent_complete ps rec r (fun x hx => hk x (by simp [hx])) (fun x hx => hg x (by simp [hx]))
        x hx n hn q v hl hv hr
      exact ⟨ns, a1, a2, List.mem_append_right _ a3⟩
end

/-- What is set when a saved tree is read. -/
def sets : Tree → List (Key × Value)
  | .node _ v c => (if v ≠ [] then [([], v)] else []) ++ (ent false [] c).map (fun e => (fullkey e.1, e.2)) ++
      c.flatMap fun t => (ent true [] t.children).map fun e => (fullkey [t.key] ++ fullkey e.1, e.2)

theorem sets_sound (t : Tree) (hg : Good t) : ∀ e ∈ sets t, Names e.1 ∧ look t (fold e.1) = some e.2 ∧ e.2 ≠ [] := by
  cases t with
  | node k v c =>
    obtain ⟨h1, h2, h3⟩ := hg.parts
    intro e he
    rw [sets, List.mem_append, List.mem_append] at he
    rcases he with (he | he) | he
    · by_cases hv : v = []
      · simp [hv] at he
      · simp [hv] at he
        subst he
        exact ⟨by simp [Names], rfl, hv⟩
    · obtain ⟨e', he', rfl⟩ := List.mem_map.mp he
      obtain ⟨x, hx, n, ns, a1, a2, a3, a4, a5, a6⟩ := ent_sound [] false c h1 h3 e' he'
      have hns := a6 rfl
      subst hns
      have hf : fullkey e'.1 = [n] := by rw [a2]; exact fullkey_ones _ a3
      have hl : lk c (n.map tolower) = some x := (lk_some c h2 _ x).mpr ⟨hx, by rw [low, a1]; rfl⟩
      refine ⟨by rw [hf]; exact a3, ?_, a5⟩
      show look _ (fold (fullkey e'.1)) = _
      rw [hf, fold, List.map_cons, look_cons]
      show (lk c (n.map tolower)).bind _ = _
      rw [hl]
      exact a4
    · obtain ⟨x, hx, he⟩ := List.mem_flatMap.mp he
      obtain ⟨e', he', rfl⟩ := List.mem_map.mp he
      obtain ⟨n, hn1, hn2, hn3⟩ := h1 x hx
      have hnn : Names [n] := by
        intro m hm
        simp at hm
        subst hm
        exact ⟨hn2, hn3⟩
      have he'' : e' ∈ entBelow (ones []) x := by
        cases x
        rw [entBelow]
        exact he'
      obtain ⟨m, ms, a1, a2, a3, a4⟩ := below_sound [] x (h3 x hx) e' he''
      have hf : fullkey e'.1 = m :: ms := by rw [a1]; exact fullkey_ones _ a2
      have hf2 : fullkey [x.key] = [n] := by rw [hn1]; exact fullkey_ones [n] hnn
      have hl : lk c (n.map tolower) = some x := (lk_some c h2 _ x).mpr ⟨hx, by rw [low, hn1]; rfl⟩
      show Names (fullkey [x.key] ++ fullkey e'.1) ∧ look _ (fold (fullkey [x.key] ++ fullkey e'.1)) = _ ∧ _
      rw [hf, hf2]
      refine ⟨hnn.append a2, ?_, a4⟩
      have e1 : fold ([n] ++ m :: ms) = n.map tolower :: fold (m :: ms) := rfl
      rw [e1, look_cons]
      show (lk c (n.map tolower)).bind _ = _
      rw [hl]
      exact a3

theorem sets_complete (t : Tree) (hg : Good t) (q : Place) (v : Value) (hl : look t q = some v) (hv : v ≠ []) :
    ∃ k, fold k = q ∧ (k, v) ∈ sets t := by
  cases t with
  | node k w c =>
    obtain ⟨h1, h2, h3⟩ := hg.parts
    rw [sets]
    cases q with
    | nil =>
      rw [look_nil] at hl
      simp only [Option.some.injEq] at hl
      have hl' : w = v := hl
      subst hl'
      exact ⟨[], rfl, by simp [hv]⟩
    | cons m q =>
      rw [look_cons] at hl
      obtain ⟨x, hx, hl⟩ := Option.bind_eq_some_iff.mp hl
      have hx' := (lk_some c h2 _ x).mp hx
      obtain ⟨n, hn1, hn2, hn3⟩ := h1 x hx'.1
      have hm : n.map tolower = m := by
        have := hx'.2
        rw [low, hn1] at this
        simpa [fold] using this
      have hnn : Names [n] := by
        intro m hm
        simp at hm
        subst hm
        exact ⟨hn2, hn3⟩
      cases q with
      | nil =>
        obtain ⟨ns, a1, a2, a3⟩ := ent_complete [] false c h1 h3 x hx'.1 n hn1 [] v hl hv (Or.inr rfl)
        have hns : ns = [] := by simpa [fold] using a1
        subst hns
        refine ⟨[n], by rw [← hm]; rfl, ?_⟩
        apply List.mem_append_left
        apply List.mem_append_right
        refine List.mem_map.mpr ⟨_, a3, ?_⟩
        show (fullkey (ones ([] ++ [n])), v) = _
        rw [fullkey_ones _ (by exact hnn)]
        rfl
      | cons m2 q =>
        obtain ⟨n2, ns, a1, a2, a3⟩ := below_complete [] x (h3 x hx'.1) m2 q v hl hv
        refine ⟨n :: n2 :: ns, by rw [← hm, ← a1]; rfl, ?_⟩
        apply List.mem_append_right
        refine List.mem_flatMap.mpr ⟨x, hx'.1, List.mem_map.mpr ⟨(ones ([] ++ n2 :: ns), v), ?_, ?_⟩⟩
        · cases x
          rw [entBelow] at a3
          exact a3
        · show (fullkey [x.key] ++ fullkey (ones (n2 :: ns)), v) = _
          rw [fullkey_ones _ a2, hn1]
          have : fullkey [[n]] = [n] := fullkey_ones [n] hnn
          rw [this]
          rfl

/-! ### Reading a saved tree -/

theorem placeOk_key (ns : List Seg) (h0 : ns ≠ []) (n : Seg) : ns = [n] → PlaceOk (fold ns) → KeyOk (Spec.Split.join [slash] ns) := by
  rintro rfl h
  exact keyOk_low _ h

theorem placeOk_sect (n m : Seg) (ms : List Seg) (h : PlaceOk (fold (n :: m :: ms))) :
    SectionOk n ∧ KeyOk (Spec.Split.join [slash] (m :: ms)) := by
  have h' : SectionOk (n.map tolower) ∧ KeyOk (Spec.Split.join [slash] ((m :: ms).map (List.map tolower))) := h
  rw [join_low] at h'
  exact ⟨sectionOk_low _ h'.1, keyOk_low _ h'.2⟩

theorem continue_blocks (c : List Tree) : ∀ (k : Nat) (h1 : ∀ x ∈ c, ∃ n : Seg, x.key = [n] ∧ n ≠ [] ∧ slash ∉ n)
    (h2 : ∀ x ∈ c, ∀ e ∈ ent true [] x.children, EntOk e ∧ SectionOk (Spec.Split.join [slash] (fullkey [x.key]))) (st : Read) (hs : Names st.sect)
    (F : List Byte),
    ∃ k' sect, Names sect ∧
      continue_ (st, nls k) ((c.flatMap fun t => block (fullkey [t.key]) (ent true [] t.children)) ++ F) =
      continue_ ((⟨sect, st.sets ++
        c.flatMap fun t => (ent true [] t.children).map fun e => (fullkey [t.key] ++ fullkey e.1, e.2)⟩ : Read), nls k') F := by
  induction c with
  | nil => intro k h1 h2 st hs F; exact ⟨k, st.sect, hs, by simp⟩
  | cons x c ih =>
    intro k h1 h2 st hs F
    obtain ⟨n, hn1, hn2, hn3⟩ := h1 x (by simp)
    have hnn : Names [n] := by
      intro m hm
      simp at hm
      subst hm
      exact ⟨hn2, hn3⟩
    have hf2 : fullkey [x.key] = [n] := by rw [hn1]; exact fullkey_ones [n] hnn
    obtain ⟨k1, s1, b1, b2⟩ := continue_block (fullkey [x.key]) (by rw [hf2]; exact hnn) (ent true [] x.children) k
      (fun e he => (h2 x (by simp) e he).1) st hs
      ((c.flatMap fun t => block (fullkey [t.key]) (ent true [] t.children)) ++ F) (by
        intro hne
        obtain ⟨e, he⟩ := List.exists_mem_of_ne_nil _ hne
        exact (h2 x (by simp) e he).2)
    obtain ⟨k2, s2, b3, b4⟩ := ih k1 (fun y hy => h1 y (by simp [hy])) (fun y hy => h2 y (by simp [hy]))
      { sect := s1, sets := st.sets ++ (ent true [] x.children).map fun e => (fullkey [x.key] ++ fullkey e.1, e.2) } b1 F
    refine ⟨k2, s2, b3, ?_⟩
    rw [List.flatMap_cons, List.append_assoc, b2, b4, List.flatMap_cons, List.append_assoc]

theorem read_save (t : Tree) (hg : Good t) (hk : t.key = []) (hs : Savable (look t)) :
    IniGen.read (save (some t)) = some (sets t) := by
  cases t with
  | node k v c =>
    have hk' : k = [] := hk
    subst hk'
    obtain ⟨h1, h2, h3⟩ := hg.parts
    -- the root
    obtain ⟨k0, r0⟩ : ∃ k0, ∀ F, continue_ (({} : Read), nls 0) ((if v ≠ [] then printkey [] v else []) ++ F) =
        continue_ (({ sets := if v ≠ [] then [([], v)] else [] } : Read), nls k0) F := by
      by_cases hv : v = []
      · exact ⟨0, fun F => by simp [hv]⟩
      · refine ⟨1, fun F => ?_⟩
        rw [if_pos hv, if_pos hv]
        exact continue_root v (hs [] v rfl hv).2 hv {} rfl F
    -- the first section
    obtain ⟨k1, s1, b1, r1⟩ := continue_block [] (by simp [Names]) (ent false [] c) k0 (by
      intro e he
      obtain ⟨x, hx, n, ns, a1, a2, a3, a4, a5, a6⟩ := ent_sound [] false c h1 h3 e he
      have hns := a6 rfl
      subst hns
      have hl : lk c (n.map tolower) = some x := (lk_some c h2 _ x).mpr ⟨hx, by rw [low, a1]; rfl⟩
      have hh := hs (fold [n]) e.2 (by
        rw [fold, List.map_cons, look_cons]
        show (lk c (n.map tolower)).bind _ = _
        rw [hl]
        exact a4) a5
      exact ⟨[n], a2, by simp, a3, placeOk_key [n] (by simp) n rfl hh.1, hh.2, a5⟩)
      ({ sets := if v ≠ [] then [([], v)] else [] } : Read) (by simp [Names])
      ((c.flatMap fun t => block (fullkey [t.key]) (ent true [] t.children)) ++ []) (fun _ => sectionOk_nil)
    -- the other sections
    obtain ⟨k2, s2, b2, r2⟩ := continue_blocks c k1 h1 (by
      intro x hx e he
      obtain ⟨n, hn1, hn2, hn3⟩ := h1 x hx
      have hnn : Names [n] := by
        intro m hm
        simp at hm
        subst hm
        exact ⟨hn2, hn3⟩
      have hf2 : fullkey [x.key] = [n] := by rw [hn1]; exact fullkey_ones [n] hnn
      have he'' : e ∈ entBelow (ones []) x := by
        cases x
        rw [entBelow]
        exact he
      obtain ⟨m, ms, a1, a2, a3, a4⟩ := below_sound [] x (h3 x hx) e he''
      have hl : lk c (n.map tolower) = some x := (lk_some c h2 _ x).mpr ⟨hx, by rw [low, hn1]; rfl⟩
      have hh := hs (fold (n :: m :: ms)) e.2 (by
        have e1 : fold (n :: m :: ms) = n.map tolower :: fold (m :: ms) := rfl
        rw [e1, look_cons]
        show (lk c (n.map tolower)).bind _ = _
        rw [hl]
        exact a3) a4
      obtain ⟨q1, q2⟩ := placeOk_sect n m ms hh.1
      refine ⟨⟨m :: ms, a1, by simp, a2, q2, hh.2, a4⟩, ?_⟩
      rw [hf2]
      exact q1)
      ({ sect := s1, sets := (if v ≠ [] then [([], v)] else []) ++ (ent false [] c).map fun e => ([] ++ fullkey e.1, e.2) } : Read) b1 []
    refine read_of (st := ({ sect := s2, sets := sets (.node [] v c) } : Read)) (k := k2) ?_
    rw [save_eq, List.append_assoc, r0]
    rw [List.append_nil] at r1 r2
    rw [r1, r2, continue_nil]
    rfl

/-! ### The new configuration -/

/-- Some values are set. -/
def setAll (m : State) : List (Key × Value) → State
  | [] => m
  | (k, v) :: r => setAll (setAt m (fold k) v) r

theorem apply_spec (ord : Nat → List Tree → List Tree) (hord : ∀ n l, (ord n l).Perm l) (ss : List (Key × Value)) :
    ∀ (n : Nat) (g : Gen) (m : State), (∀ e ∈ ss, Names e.1) → Props.Temp.Holds g m →
    Props.Temp.Holds (IniGen.apply ord n g ss) (setAll m ss) := by
  induction ss with
  | nil => intro n g m _ h; exact h
  | cons e ss ih =>
    obtain ⟨k, v⟩ := e
    intro n g m hn h
    have hk := hn (k, v) (by simp)
    have hc := (Props.Temp.call_spec g m h ⟨Spec.Path.write k false, some v, ord n, hord n⟩).1
    have e1 : Key.parse (Spec.Path.write k false) = k := by
      have := Key.parse_write k false hk (by simp)
      simpa [Key.mk] using this
    have e2 : Spec.Conf.set m (Spec.Path.write k false) (some v) = setAt m (fold k) v := by
      unfold Spec.Conf.set setAt
      rw [Key.dir_write k false hk (by simp), place_eq, Key.names_write k false hk]
      rfl
    rw [IniGen.apply, setAll]
    apply ih _ _ _ (fun e he => hn e (by simp [he]))
    unfold Props.Temp.call at hc
    simp only [] at hc
    rw [e1, e2] at hc
    exact hc

open Classical in
/-- What there is after some values of `m` are set. -/
noncomputable def partly (m : State) (done : List (Key × Value)) : State := fun q =>
  if ∃ e ∈ done, fold e.1 = q then m q else if ∃ e ∈ done, q <+: fold e.1 then some [] else none

theorem setAll_partly (m : State) (ss : List (Key × Value)) : ∀ (done : List (Key × Value)),
    (∀ e ∈ done ++ ss, m (fold e.1) = some e.2) → setAll (partly m done) ss = partly m (done ++ ss) := by
  induction ss with
  | nil => intro done _; simp [setAll]
  | cons e ss ih =>
    obtain ⟨k, v⟩ := e
    intro done h
    rw [setAll]
    have hs : setAt (partly m done) (fold k) v = partly m (done ++ [(k, v)]) := by
      funext q
      have hkv := h (k, v) (by simp)
      unfold setAt partly
      by_cases hq : q = fold k
      · subst hq
        rw [if_pos rfl, if_pos ⟨(k, v), by simp, rfl⟩, hkv]
      · rw [if_neg hq]
        by_cases hd : ∃ e ∈ done, fold e.1 = q
        · rw [if_pos hd]
          have hd' : ∃ e ∈ done ++ [(k, v)], fold e.1 = q := by
            obtain ⟨e, he, h⟩ := hd; exact ⟨e, by simp [he], h⟩
          rw [if_pos hd']
          obtain ⟨e, he, rfl⟩ := hd
          rw [h e (by simp [he])]
          simp
        · rw [if_neg hd]
          have hd' : ¬ ∃ e ∈ done ++ [(k, v)], fold e.1 = q := by
            rintro ⟨e, he, h⟩
            rcases List.mem_append.mp he with he | he
            · exact hd ⟨e, he, h⟩
            · simp at he
              subst he
              exact hq h.symm
          rw [if_neg hd']
          by_cases hp : q <+: fold k
          · have hx : ∃ e ∈ done ++ [(k, v)], q <+: fold e.1 := ⟨(k, v), by simp, hp⟩
            rw [if_pos hp, if_pos hx]
            split <;> rfl
          · rw [if_neg hp]
            have : (∃ e ∈ done ++ [(k, v)], q <+: fold e.1) ↔ ∃ e ∈ done, q <+: fold e.1 := by
              constructor
              · rintro ⟨e, he, h⟩
                rcases List.mem_append.mp he with he | he
                · exact ⟨e, he, h⟩
                · simp at he
                  subst he
                  exact absurd h hp
              · rintro ⟨e, he, h⟩
                exact ⟨e, by simp [he], h⟩
            simp only [this]
    rw [hs, ih _ (by simpa using h)]
    simp

open Classical in
theorem kept_other (m : State) (q : Place) (hl : ∀ c v, m q ≠ some (c :: v)) :
    kept m q = if q = [] ∨ ∃ p c v, q <+: p ∧ m p = some (c :: v) then some [] else none := by
  unfold kept
  cases hx : m q with
  | none => rfl
  | some w =>
    cases w with
    | nil => rfl
    | cons c v => exact absurd hx (hl c v)

theorem kept_some (m : State) (q : Place) (c : Byte) (v : List Byte) (h : m q = some (c :: v)) : kept m q = some (c :: v) := by
  unfold kept
  rw [h]

open Classical in
theorem load_save (ord : Nat → List Tree → List Tree) (hord : ∀ n l, (ord n l).Perm l) (t : Tree) (m : State) (hg : Good t)
    (hm : ∀ q, look t q = m q) (hk : t.key = []) (hs : Savable m) :
    ∃ g, load ord (save (some t)) = some g ∧ Props.Temp.Holds g (kept m) := by
  have hm' : look t = m := funext hm
  subst hm'
  refine ⟨_, by rw [load, read_save t hg hk hs]; rfl, ?_⟩
  have hsnd := sets_sound t hg
  have ha := apply_spec ord hord (([], []) :: sets t) 0 TempGen.new Spec.Conf.empty (by
    intro e he
    rcases List.mem_cons.mp he with rfl | he
    · simp [Names]
    · exact (hsnd e he).1) Props.Temp.new_holds
  -- with the root's value first
  have hkept : setAll Spec.Conf.empty (([], []) :: sets t) = kept (look t) := by
    rw [setAll]
    have h0 : setAt Spec.Conf.empty (fold []) [] = fun q => if q = [] then some [] else none := by
      funext q
      unfold setAt
      by_cases hq : q = []
      · simp [hq, fold]
      · simp [hq, fold, Spec.Conf.empty]
    rw [h0]
    funext q
    have hgen : ∀ (ss : List (Key × Value)) (done : List (Key × Value)), (∀ e ∈ done ++ ss, look t (fold e.1) = some e.2) →
        ∀ σ : State, (∀ q, σ q = if q = [] then some (((partly (look t) done) q).getD []) else partly (look t) done q) →
        ∀ q, setAll σ ss q = if q = [] then some (((partly (look t) (done ++ ss)) q).getD []) else partly (look t) (done ++ ss) q := by
      intro ss
      induction ss with
      | nil => intro done h σ hσ q; simpa [setAll] using hσ q
      | cons e ss ih =>
        obtain ⟨k, v⟩ := e
        intro done h σ hσ q
        rw [setAll]
        have := ih (done ++ [(k, v)]) (by simpa using h) (setAt σ (fold k) v) (by
          intro q
          have hp := congrFun (setAll_partly (look t) [(k, v)] done (by
            intro e he
            exact h e (by simp at he ⊢; rcases he with h | h <;> simp [h]))) q
          rw [← hp]
          simp only [setAll, setAt, hσ]
          by_cases h1 : q = fold k
          · by_cases h2 : q = [] <;> simp [h1]
          · simp only [h1, if_false]
            by_cases h2 : q = []
            · subst h2
              simp
            · simp [h2]) q
        simpa using this
    rw [hgen (sets t) [] (by simpa using fun e v he => (hsnd (e, v) he).2.1) _ (by
      intro q; unfold partly; by_cases hq : q = [] <;> simp [hq]) q]
    simp only [List.nil_append]
    unfold partly
    by_cases hq : ∃ e ∈ sets t, fold e.1 = q
    · rw [if_pos hq]
      obtain ⟨e, he, rfl⟩ := hq
      obtain ⟨-, l1, l2⟩ := hsnd e he
      cases hv : e.2 with
      | nil => exact absurd hv l2
      | cons c v =>
        rw [hv] at l1
        rw [kept_some _ _ c v l1, l1]
        simp
    · rw [if_neg hq]
      have hl : ∀ c v, look t q ≠ some (c :: v) := by
        intro c v hl
        obtain ⟨k, hk, hm⟩ := sets_complete t hg q (c :: v) hl (by simp)
        exact hq ⟨_, hm, hk⟩
      have hiff : (∃ e ∈ sets t, q <+: fold e.1) ↔ ∃ p c v, q <+: p ∧ look t p = some (c :: v) := by
        constructor
        · rintro ⟨e, he, hp⟩
          obtain ⟨-, l1, l2⟩ := hsnd e he
          cases hv : e.2 with
          | nil => exact absurd hv l2
          | cons c v => exact ⟨_, c, v, hp, by rw [l1, hv]⟩
        · rintro ⟨p, c, v, hp, hl⟩
          obtain ⟨k, hk, hm⟩ := sets_complete t hg p (c :: v) hl (by simp)
          exact ⟨_, hm, by rw [hk]; exact hp⟩
      rw [kept_other _ q hl]
      by_cases h0 : q = []
      · simp only [h0, if_true, true_or]
        split <;> rfl
      · simp only [h0, if_false, false_or]
        simp only [hiff]
  rw [hkept] at ha
  exact ha

end Ini
