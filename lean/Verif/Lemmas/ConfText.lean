import Verif.Lemmas.ConfFile
import Verif.Lemmas.HttpText
/-! Saving and loading a `WvConf` (C72). -/
namespace Wv.ConfFile
open Spec.ConfFile (same Trimmed Line SectName EntryName)

/-! ## Trimming -/

theorem dropWhile_split (t : Text) : ∃ a, t = a ++ t.dropWhile isspace ∧ ∀ c ∈ a, isspace c = true :=
  ⟨t.takeWhile isspace, List.takeWhile_append_dropWhile.symm, fun _ hc => by
    have := List.all_takeWhile (p := isspace) (l := t)
    rw [List.all_eq_true] at this; exact this _ hc⟩

theorem dropWhile_head (t : Text) : ∀ b, (t.dropWhile isspace).head? = some b → isspace b = false := by
  intro b hb
  induction t with
  | nil => cases hb
  | cons c t ih =>
    rw [List.dropWhile_cons] at hb
    split at hb
    · exact ih hb
    · next h => cases hb; simpa using h

theorem trim_split (t : Text) : ∃ a b, t = a ++ trimString t ++ b ∧ (∀ c ∈ a, isspace c = true) ∧ (∀ c ∈ b, isspace c = true) := by
  unfold trimString
  obtain ⟨b, h1, h2⟩ := dropWhile_split t.reverse
  obtain ⟨a, h3, h4⟩ := dropWhile_split (t.reverse.dropWhile isspace).reverse
  refine ⟨a, b.reverse, ?_, h4, fun c hc => h2 c (List.mem_reverse.mp hc)⟩
  have := congrArg List.reverse h1
  rw [List.reverse_reverse, List.reverse_append] at this
  rw [← h3]; exact this

theorem trim_trimmed (t : Text) : Trimmed (trimString t) := by
  refine ⟨fun b hb => ?_, fun b hb => ?_⟩
  · unfold trimString at hb; exact dropWhile_head _ b hb
  · unfold trimString at hb
    obtain ⟨a, h3, h4⟩ := dropWhile_split (t.reverse.dropWhile isspace).reverse
    generalize hx : (t.reverse.dropWhile isspace).reverse.dropWhile isspace = x at *
    have hxe : x ≠ [] := by intro e; rw [e] at hb; cases hb
    have hl : ((t.reverse.dropWhile isspace).reverse).getLast? = some b := by
      rw [h3, List.getLast?_append, hb]; rfl
    rw [List.getLast?_reverse] at hl
    exact dropWhile_head _ b hl

theorem trim_id {t : Text} (h : Trimmed t) : trimString t = t := by
  have := Http.trim_pad [] t [] h (by simp) (by simp)
  simpa using this

theorem trim_sub (t : Text) {b : Byte} (h : b ∈ trimString t) : b ∈ t := by
  obtain ⟨x, y, h1, _, _⟩ := trim_split t
  rw [h1]; simp [h]

/-! ## Parsing -/

theorem cut_none {b : Byte} {t : Text} (h : b ∉ t) : cut b t = none := by
  induction t with
  | nil => rfl
  | cons c t ih =>
    unfold cut
    rw [if_neg (fun e => h (by rw [e]; simp)), ih (fun hm => h (by simp [hm]))]; rfl

theorem cut_some {b : Byte} {a r : Text} (h : b ∉ a) : cut b (a ++ b :: r) = some (a, r) := by
  induction a with
  | nil => simp [cut]
  | cons c a ih =>
    rw [List.cons_append]
    unfold cut
    rw [if_neg (fun e => h (by rw [e]; simp)), ih (fun hm => h (by simp [hm]))]; rfl

theorem cut_inv {b : Byte} {t a r : Text} (h : cut b t = some (a, r)) : t = a ++ b :: r ∧ b ∉ a := by
  induction t generalizing a with
  | nil => cases h
  | cons c t ih =>
    unfold cut at h
    split at h
    · next e => cases h; exact ⟨by rw [e]; rfl, by simp⟩
    · next e =>
      obtain ⟨⟨x, y⟩, h1, h2⟩ := Option.map_eq_some_iff.mp h
      injection h2 with h3 h4
      subst h3; subst h4
      obtain ⟨h5, h6⟩ := ih h1
      refine ⟨by rw [h5]; rfl, fun hm => ?_⟩
      rcases List.mem_cons.mp hm with h | h
      · exact e h.symm
      · exact h6 h

theorem cut_none_inv {b : Byte} {t : Text} (h : cut b t = none) : b ∉ t := by
  intro hm
  obtain ⟨a, r, rfl, hn⟩ : ∃ a r, t = a ++ b :: r ∧ b ∉ a := by
    clear h
    induction t with
    | nil => cases hm
    | cons c t ih =>
      by_cases e : c = b
      · exact ⟨[], t, by rw [e]; rfl, by simp⟩
      · obtain ⟨a, r, h1, h2⟩ := ih ((List.mem_cons.mp hm).resolve_left (fun h => e h.symm))
        refine ⟨c :: a, r, by rw [h1]; rfl, fun h => ?_⟩
        rcases List.mem_cons.mp h with h | h
        · exact e h.symm
        · exact h2 h
  rw [cut_some hn] at h; cases h

/-- A line that is the start of a section. -/
theorem section_some {n : Text} (h : ch ']' ∉ n) : parseSection (ch '[' :: n ++ str [']']) = some (trimString n) := by
  show parseSection (ch '[' :: (n ++ str [']'])) = _
  unfold parseSection
  have : cut (ch ']') (n ++ str [']']) = some (n, []) := cut_some h
  dsimp only
  rw [this, if_neg (by simp)]

theorem section_inv {l p : Text} (h : parseSection l = some p) : ∃ n, l = ch '[' :: n ++ str [']'] ∧ ch ']' ∉ n ∧ p = trimString n := by
  unfold parseSection at h
  split at h
  · cases h
  · next c t =>
    split at h
    · cases h
    · next hc =>
      split at h
      · next n hcut =>
        obtain ⟨h1, h2⟩ := cut_inv hcut
        cases h
        refine ⟨n, ?_, h2, rfl⟩
        rw [h1, show c = ch '[' from Decidable.byContradiction hc]; rfl
      · cases h

/-- The line of an entry. -/
def entLine (e : Entry) : Text := if e.value ≠ [] then e.name ++ str [' ', '=', ' '] ++ e.value else e.name ++ str [' ', '=']

theorem dump_eq (es : List Entry) : dump es = es.flatMap fun e => entLine e ++ [10] := by
  unfold dump entLine
  congr 1
  funext e
  split <;> rfl

/-- An entry that can be saved. -/
structure EntOk (e : Entry) : Prop where
  name : Line e.name
  ne : e.name ≠ []
  eq : ch '=' ∉ e.name
  value : Line e.value
  sect : parseSection (entLine e) = none

theorem EntOk.line {e : Entry} (h : EntOk e) : (10 : Byte) ∉ entLine e ∧ trimString (entLine e) = entLine e := by
  have hn : ∀ b, e.name.head? = some b → isspace b = false := h.name.1.1
  obtain ⟨c, t, hc⟩ := List.exists_cons_of_ne_nil h.ne
  unfold entLine
  split
  · next hv =>
    refine ⟨?_, trim_id ⟨fun b hb => ?_, fun b hb => ?_⟩⟩
    · intro hm
      rcases List.mem_append.mp hm with hm | hm
      · rcases List.mem_append.mp hm with hm | hm
        · exact h.name.2 hm
        · revert hm; decide
      · exact h.value.2 hm
    · rw [hc] at hb hn; exact hn b hb
    · rw [List.getLast?_append] at hb
      cases hx : e.value.getLast? with
      | none => exact absurd (List.getLast?_eq_none_iff.mp hx) hv
      | some z => rw [hx] at hb; cases hb; exact h.value.1.2 _ hx
  · refine ⟨?_, trim_id ⟨fun b hb => ?_, fun b hb => ?_⟩⟩
    · intro hm
      rcases List.mem_append.mp hm with hm | hm
      · exact h.name.2 hm
      · revert hm; decide
    · rw [hc] at hb hn; exact hn b hb
    · rw [List.getLast?_append] at hb
      have : (str [' ', '=']).getLast? = some (ch '=') := by decide
      rw [this] at hb; cases hb; decide

theorem trim_right (x : Text) (h : Trimmed x) : trimString (x ++ str [' ']) = x := by
  have := Http.trim_pad [] x (str [' ']) h (by simp) (by decide)
  simpa using this

theorem trim_left (x : Text) (h : Trimmed x) : trimString (ch ' ' :: x) = x := by
  have := Http.trim_pad (str [' ']) x [] h (by decide) (by simp)
  rw [List.append_nil] at this
  exact this

theorem EntOk.parse {e : Entry} (h : EntOk e) : trimString (parseValue (entLine e)).1 = e.name ∧ (parseValue (entLine e)).2.getD [] = e.value := by
  have hne : ch '=' ∉ e.name ++ str [' '] := by
    intro hm
    rcases List.mem_append.mp hm with hm | hm
    · exact h.eq hm
    · revert hm; decide
  by_cases hv : e.value = []
  · have : entLine e = (e.name ++ str [' ']) ++ ch '=' :: [] := by unfold entLine; rw [if_neg (by simp [hv])]; simp [str]
    unfold parseValue
    rw [this, cut_some hne, hv]
    exact ⟨trim_right _ h.name.1, rfl⟩
  · have : entLine e = (e.name ++ str [' ']) ++ ch '=' :: (ch ' ' :: e.value) := by unfold entLine; rw [if_pos hv]; simp [str]
    unfold parseValue
    rw [this, cut_some hne]
    exact ⟨trim_right _ h.name.1, trim_left _ h.value.1⟩

theorem loadLine_entry {e : Entry} (h : EntOk e) (l : Load) : loadLine l (entLine e) =
    if l.quick then l.put fun es => quickSet es e.name e.value else l.put fun es => entSet es e.name e.value := by
  unfold loadLine
  dsimp only
  rw [h.line.2, h.sect]
  dsimp only
  rw [h.parse.1, h.parse.2, if_neg h.ne]

/-! ## Lines -/

theorem linesGo_eq (t : Text) : ∀ acc a, (10 : Byte) ∉ a → linesGo acc (a ++ 10 :: t) = (acc ++ a) :: lines t := by
  intro acc a
  induction a generalizing acc with
  | nil => intro _; simp [linesGo, lines]
  | cons c a ih =>
    intro h
    rw [List.cons_append, linesGo, if_neg (fun e => h (by rw [e]; simp)), ih _ (fun hm => h (by simp [hm]))]
    simp

theorem lines_cons (a t : Text) (h : (10 : Byte) ∉ a) : lines (a ++ 10 :: t) = a :: lines t := by
  unfold lines
  rw [linesGo_eq t [] a h]; rfl

theorem lines_dump (es : List Entry) (h : ∀ e ∈ es, EntOk e) (t : Text) : lines (dump es ++ t) = es.map entLine ++ lines t := by
  rw [dump_eq]
  induction es with
  | nil => rfl
  | cons e es ih =>
    rw [List.flatMap_cons, List.append_assoc, List.append_assoc]
    show lines (entLine e ++ 10 :: _) = _
    rw [lines_cons _ _ (h e (by simp)).line.1]
    show entLine e :: lines (es.flatMap (fun e => entLine e ++ [10]) ++ t) = _
    rw [ih (fun x hx => h x (by simp [hx]))]; rfl

theorem lines_clean (t : Text) : ∀ l ∈ lines t, (10 : Byte) ∉ l := by
  have : ∀ (t acc : Text), (10 : Byte) ∉ acc → ∀ l ∈ linesGo acc t, (10 : Byte) ∉ l := by
    intro t
    induction t with
    | nil =>
      intro acc ha l hl
      unfold linesGo at hl
      split at hl
      · cases hl
      · rw [List.mem_singleton.mp hl]; exact ha
    | cons c t ih =>
      intro acc ha l hl
      unfold linesGo at hl
      split at hl
      · rcases List.mem_cons.mp hl with h | h
        · rw [h]; exact ha
        · exact ih [] (by simp) l h
      · next hc =>
        refine ih (acc ++ [c]) (fun hm => ?_) l hl
        rcases List.mem_append.mp hm with h | h
        · exact ha h
        · exact hc (List.mem_singleton.mp h).symm
  exact this t [] (by simp)

/-! ## What can be saved is loaded again -/

/-- A configuration that can be saved. -/
structure Savable (ss : List Section) (g : List Entry) : Prop where
  global : ∀ e ∈ g, EntOk e ∧ e.value ≠ []
  gnames : g.Pairwise fun a b => low a.name ≠ low b.name
  sects : ∀ s ∈ ss, SectName s.name ∧ ∀ e ∈ s.entries, EntOk e
  names : ss.Pairwise fun a b => low a.name ≠ low b.name

theorem load_global (es : List Entry) (h : ∀ e ∈ es, EntOk e ∧ e.value ≠ []) : ∀ (ss : List Section) (g : List Entry),
    (g ++ es).Pairwise (fun a b => low a.name ≠ low b.name) →
    (es.map entLine).foldl loadLine ⟨ss, g, none, false⟩ = ⟨ss, g ++ es, none, false⟩ := by
  induction es with
  | nil => intro ss g _; simp
  | cons e es ih =>
    intro ss g hp
    have he := h e (by simp)
    rw [List.map_cons, List.foldl_cons, loadLine_entry he.1]
    have hset : entSet g e.name e.value = g ++ [e] := by
      unfold entSet
      rw [trim_id he.1.name.1]
      dsimp only
      rw [if_neg he.2, if_neg]
      rw [Bool.not_eq_true, List.any_eq_false]
      intro x hx
      rw [ci_eq, decide_eq_true_iff]
      rw [List.pairwise_append] at hp
      exact hp.2.2 x hx e (by simp)
    show (es.map entLine).foldl loadLine ⟨ss, entSet g e.name e.value, none, false⟩ = _
    rw [hset, ih (fun x hx => h x (by simp [hx])) ss (g ++ [e]) (by rw [List.append_assoc]; exact hp)]
    rw [List.append_assoc]; rfl

theorem modify_last {α : Type} (l : List α) (x : α) (f : α → α) : (l ++ [x]).modify l.length f = l ++ [f x] := by
  induction l with
  | nil => rfl
  | cons a l ih =>
    rw [List.cons_append, List.length_cons]
    show a :: (l ++ [x]).modify l.length f = _
    rw [ih]; rfl

theorem load_section (es : List Entry) (h : ∀ e ∈ es, EntOk e) : ∀ (ss : List Section) (g : List Entry) (n : Text) (es0 : List Entry),
    (es.map entLine).foldl loadLine ⟨ss ++ [⟨n, es0⟩], g, some ss.length, true⟩ = ⟨ss ++ [⟨n, es0 ++ es⟩], g, some ss.length, true⟩ := by
  induction es with
  | nil => intro ss g n es0; simp
  | cons e es ih =>
    intro ss g n es0
    have he := h e (by simp)
    rw [List.map_cons, List.foldl_cons, loadLine_entry he]
    have : (Load.put ⟨ss ++ [⟨n, es0⟩], g, some ss.length, true⟩ fun es => quickSet es e.name e.value)
        = ⟨ss ++ [⟨n, es0 ++ [e]⟩], g, some ss.length, true⟩ := by
      unfold Load.put
      dsimp only
      rw [modify_last]
      unfold quickSet
      rw [trim_id he.name.1]
    simp only [if_true]
    rw [this, ih (fun x hx => h x (by simp [hx]))]
    rw [List.append_assoc]; rfl

/-- The text of a section. -/
def sectText (s : Section) : Text := 10 :: ch '[' :: s.name ++ str [']'] ++ [10] ++ dump s.entries

theorem load_sects (todo : List Section) : ∀ (done : List Section) (g : List Entry) (cur : Option Nat) (quick : Bool),
    (∀ s ∈ todo, SectName s.name ∧ ∀ e ∈ s.entries, EntOk e) → (done ++ todo).Pairwise (fun a b => low a.name ≠ low b.name) →
    let l := (lines (todo.flatMap sectText)).foldl loadLine ⟨done, g, cur, quick⟩
    l.sections = done ++ todo ∧ l.global = g := by
  induction todo with
  | nil => intro done g cur quick _ _; simp [lines, linesGo]
  | cons s todo ih =>
    intro done g cur quick hs hp
    obtain ⟨hn, he⟩ := hs s (by simp)
    have hnl : (10 : Byte) ∉ ch '[' :: s.name ++ str [']'] := by
      intro hm
      rcases List.mem_append.mp hm with hm | hm
      · rcases List.mem_cons.mp hm with hm | hm
        · revert hm; decide
        · exact hn.1.2 hm
      · revert hm; decide
    have ht : (s :: todo).flatMap sectText = [] ++ 10 :: ((ch '[' :: s.name ++ str [']']) ++ 10 :: (dump s.entries ++ todo.flatMap sectText)) := by
      rw [List.flatMap_cons]; unfold sectText; simp
    rw [ht, lines_cons _ _ (by simp), lines_cons _ _ hnl, lines_dump _ he, List.foldl_cons, List.foldl_cons, List.foldl_append]
    have h1 : loadLine ⟨done, g, cur, quick⟩ [] = ⟨done, g, cur, quick⟩ := rfl
    have htrim : trimString (ch '[' :: s.name ++ str [']']) = ch '[' :: s.name ++ str [']'] := by
      refine trim_id ⟨fun b hb => ?_, fun b hb => ?_⟩
      · simp at hb; rw [← hb]; decide
      · have : (str [']']).getLast? = some (ch ']') := by decide
        rw [List.getLast?_append, this] at hb; cases hb; decide
    have hnone : (done.findIdx? fun x => ci x.name s.name) = none := by
      rw [List.findIdx?_eq_none_iff]
      intro x hx
      rw [List.pairwise_append] at hp
      rw [ci_eq, decide_eq_false_iff_not]
      exact hp.2.2 x hx s (by simp)
    have h2 : loadLine ⟨done, g, cur, quick⟩ (ch '[' :: s.name ++ str [']']) = ⟨done ++ [⟨s.name, []⟩], g, some done.length, true⟩ := by
      unfold loadLine
      dsimp only
      rw [htrim, section_some hn.2.2, trim_id hn.1.1]
      obtain ⟨c, t, hc⟩ := List.exists_cons_of_ne_nil hn.2.1
      rw [hc] at hnone ⊢
      dsimp only
      rw [hnone]
    rw [h1, h2, load_section s.entries he]
    have := ih (done ++ [⟨s.name, [] ++ s.entries⟩]) g (some done.length) true (fun x hx => hs x (by simp [hx])) (by
      rw [List.append_assoc]; exact hp)
    dsimp only at this
    rw [List.append_assoc] at this
    exact this

theorem saveText_eq (c : Conf) : saveText c = dump c.global ++ c.sections.flatMap sectText := rfl

/-- What is saved is loaded again. -/
theorem load_save {c : Conf} (h : Savable c.sections c.global) :
    (loadText [] [] (saveText c)).sections = c.sections ∧ (loadText [] [] (saveText c)).global = c.global := by
  unfold loadText
  rw [saveText_eq, lines_dump _ (fun e he => (h.global e he).1), List.foldl_append, load_global c.global h.global [] [] (by simpa using h.gnames)]
  have := load_sects c.sections [] ([] ++ c.global) none false h.sects (by simpa using h.names)
  simpa using this

/-! ## What is loaded, and what is set, can be saved -/

theorem spaces_no {a : Text} (h : ∀ c ∈ a, isspace c = true) {b : Byte} (hb : isspace b = false) : b ∉ a := fun hm => by
  rw [h b hm] at hb; cases hb

/-- When the line of an entry would be taken for a section. -/
theorem line_section {n v : Text} (hn : n ≠ []) (h : parseSection (entLine ⟨n, v⟩) ≠ none) :
    ∃ n1 v1, n = ch '[' :: n1 ∧ v = v1 ++ [ch ']'] ∧ ch ']' ∉ n1 ∧ ch ']' ∉ v1 := by
  cases hp : parseSection (entLine ⟨n, v⟩) with
  | none => exact absurd hp h
  | some p =>
    obtain ⟨m, h3, h4, _⟩ := section_inv hp
    have hr : (str [']']).getLast? = some (ch ']') := by decide
    unfold entLine at h3
    dsimp only at h3
    by_cases hv : v = []
    · rw [if_neg (by simp [hv])] at h3
      have h5 := congrArg List.getLast? h3
      have hl : (str [' ', '=']).getLast? = some (ch '=') := by decide
      rw [List.getLast?_append, hl, List.getLast?_append, hr] at h5
      simp only [Option.some_or] at h5
      exact absurd h5 (by decide)
    · rw [if_pos hv] at h3
      obtain ⟨c, n1, hc1⟩ := List.exists_cons_of_ne_nil hn
      have hcb : c = ch '[' := by
        have := congrArg List.head? h3
        rw [hc1] at this; simpa using this
      have hvl : v.getLast? = some (ch ']') := by
        have := congrArg List.getLast? h3
        rw [List.getLast?_append, List.getLast?_append (l := ch '[' :: m), hr] at this
        cases hx : v.getLast? with
        | none => exact absurd (List.getLast?_eq_none_iff.mp hx) hv
        | some z =>
          rw [hx] at this
          simpa using this
      obtain ⟨v1, hv1⟩ := List.getLast?_eq_some_iff.mp hvl
      have hn' : m = n1 ++ str [' ', '=', ' '] ++ v1 := by
        rw [hc1, hv1, hcb] at h3
        have h6 : n1 ++ str [' ', '=', ' '] ++ v1 ++ [ch ']'] = m ++ [ch ']'] := by
          have := List.cons.inj h3
          simpa [str] using this.2
        exact (List.append_inj_left' h6 rfl).symm
      rw [hn'] at h4
      exact ⟨n1, v1, by rw [hc1, hcb], hv1, fun h => h4 (by simp [h]), fun h => h4 (by simp [h])⟩

theorem section_line {n1 v1 : Text} (h1 : ch ']' ∉ n1) (h2 : ch ']' ∉ v1) : parseSection (entLine ⟨ch '[' :: n1, v1 ++ [ch ']']⟩) ≠ none := by
  have he : entLine ⟨ch '[' :: n1, v1 ++ [ch ']']⟩ = ch '[' :: (n1 ++ str [' ', '=', ' '] ++ v1) ++ str [']'] := by
    unfold entLine
    rw [if_pos (by simp)]
    simp [str]
  rw [he, section_some]
  · simp
  · intro hm
    rcases List.mem_append.mp hm with hm | hm
    · rcases List.mem_append.mp hm with hm | hm
      · exact h1 hm
      · revert hm; decide
    · exact h2 hm

/-- An entry that is read from a line can be saved. -/
theorem read_ok {t : Text} (ht : Trimmed t) (h10 : (10 : Byte) ∉ t) (hs : parseSection t = none)
    (hn : trimString (parseValue t).1 ≠ []) : EntOk ⟨trimString (parseValue t).1, (parseValue t).2.getD []⟩ := by
  unfold parseValue at hn ⊢
  cases hc : cut (ch '=') t with
  | none =>
    rw [hc] at hn
    dsimp only at hn ⊢
    refine ⟨⟨trim_trimmed t, fun hm => h10 (trim_sub t hm)⟩, hn, fun hm => cut_none_inv hc (trim_sub t hm), ⟨⟨by simp, by simp⟩, by simp⟩, ?_⟩
    apply Decidable.byContradiction
    intro hp
    obtain ⟨n1, v1, _, h2, _⟩ := line_section hn hp
    simp at h2
  | some r =>
    obtain ⟨a, b⟩ := r
    rw [hc] at hn
    dsimp only at hn ⊢
    obtain ⟨h1, h2⟩ := cut_inv hc
    have hna : (10 : Byte) ∉ a := fun hm => h10 (by rw [h1]; simp [hm])
    have hnb : (10 : Byte) ∉ b := fun hm => h10 (by rw [h1]; simp [hm])
    refine ⟨⟨trim_trimmed a, fun hm => hna (trim_sub a hm)⟩, hn, fun hm => h2 (trim_sub a hm),
      ⟨trim_trimmed b, fun hm => hnb (trim_sub b hm)⟩, ?_⟩
    apply Decidable.byContradiction
    intro hp
    obtain ⟨n1, v1, hc1, hv1, h41, h42⟩ := line_section hn hp
    simp only [Option.getD_some] at hv1
    -- so the line was a section
    obtain ⟨a1, a2, ha, ha1, ha2⟩ := trim_split a
    obtain ⟨b1, b2, hb, hb1, hb2⟩ := trim_split b
    have ha1e : a1 = [] := by
      cases a1 with
      | nil => rfl
      | cons z a1 =>
        have := ht.1 z (by rw [h1, ha]; rfl)
        rw [ha1 z (by simp)] at this; cases this
    have hb2e : b2 = [] := by
      rcases List.eq_nil_or_concat b2 with h | ⟨b3, z, h⟩
      · exact h
      · have := ht.2 z (by rw [h1, hb, h]; simp [List.getLast?_append, List.getLast?_cons])
        rw [hb2 z (by rw [h]; simp)] at this; cases this
    have hm : parseSection t = some (trimString (n1 ++ a2 ++ ch '=' :: (b1 ++ v1))) := by
      have he : t = ch '[' :: (n1 ++ a2 ++ ch '=' :: (b1 ++ v1)) ++ str [']'] := by
        rw [h1, ha, hb, ha1e, hb2e, hc1, hv1]; simp [str]
      rw [he]
      refine section_some (fun hm => ?_)
      have hsb : isspace (ch ']') = false := by decide
      rcases List.mem_append.mp hm with hm | hm
      · rcases List.mem_append.mp hm with hm | hm
        · exact h41 hm
        · exact spaces_no ha2 hsb hm
      · rcases List.mem_cons.mp hm with hm | hm
        · revert hm; decide
        · rcases List.mem_append.mp hm with hm | hm
          · exact spaces_no hb1 hsb hm
          · exact h42 hm
    rw [hm] at hs; cases hs

theorem tolower_open (b : Byte) : tolower b = tolower (ch '[') → b = ch '[' := by
  revert b; apply forall_byte; decide +kernel

theorem tolower_close (b : Byte) : tolower b = tolower (ch ']') → b = ch ']' := by
  revert b; apply forall_byte; decide +kernel

theorem low_close {a b : Text} (h : low a = low b) (hm : ch ']' ∈ a) : ch ']' ∈ b := by
  have h1 : tolower (ch ']') ∈ low b := by rw [← h]; exact List.mem_map_of_mem hm
  obtain ⟨c, h2, h3⟩ := List.mem_map.mp h1
  rw [← tolower_close c h3]; exact h2

/-- Names that differ in case only can be saved with the same values. -/
theorem EntOk.swap {x n v : Text} (hx : Line x) (hx0 : x ≠ []) (hxe : ch '=' ∉ x) (h : low x = low n) (hn : EntOk ⟨n, v⟩) : EntOk ⟨x, v⟩ := by
  refine ⟨hx, hx0, hxe, hn.value, ?_⟩
  apply Decidable.byContradiction
  intro hp
  obtain ⟨n1, v1, h1, h2, h3, h4⟩ := line_section hx0 hp
  subst h1; subst h2
  apply absurd hn.sect
  obtain ⟨c, n2, hc⟩ := List.exists_cons_of_ne_nil hn.ne
  dsimp only at hc
  subst hc
  have h5 : tolower (ch '[') = tolower c ∧ low n1 = low n2 := by
    have := h
    unfold low at this
    rw [List.map_cons, List.map_cons] at this
    exact ⟨(List.cons.inj this).1, (List.cons.inj this).2⟩
  rw [tolower_open c h5.1.symm]
  exact section_line (fun hm => h3 (low_close h5.2.symm hm)) h4

theorem replace_ok {es : List Entry} (h : ∀ e ∈ es, EntOk e) (n v : Text) (hn : EntOk ⟨n, v⟩) : ∀ e ∈ replace n v es, EntOk e := by
  induction es with
  | nil => intro e he; cases he
  | cons a es ih =>
    intro e he
    unfold replace at he
    split at he
    · next ha =>
      rcases List.mem_cons.mp he with he | he
      · rw [he]
        rw [ci_eq, decide_eq_true_iff] at ha
        have hok := h a (by simp)
        exact EntOk.swap hok.name hok.ne hok.eq ha hn
      · exact h e (by simp [he])
    · rcases List.mem_cons.mp he with he | he
      · rw [he]; exact h a (by simp)
      · exact ih (fun x hx => h x (by simp [hx])) e he

theorem entSet_ok {es : List Entry} (h : ∀ e ∈ es, EntOk e) (n v : Text) (hn : EntOk ⟨n, v⟩) : ∀ e ∈ entSet es n v, EntOk e := by
  intro e he
  unfold entSet at he
  rw [trim_id hn.name.1] at he
  dsimp only at he
  split at he
  · exact h e (List.eraseP_sublist.subset he)
  · next hv =>
    split at he
    · exact replace_ok h n v hn e he
    · rcases List.mem_append.mp he with he | he
      · exact h e he
      · rw [List.mem_singleton.mp he]; exact hn

theorem modify_mem {α : Type} (l : List α) (i : Nat) (f : α → α) {x : α} (h : x ∈ l.modify i f) : x ∈ l ∨ ∃ y ∈ l, x = f y := by
  induction l generalizing i with
  | nil => rw [List.modify_nil] at h; cases h
  | cons a l ih =>
    cases i with
    | zero =>
      rcases List.mem_cons.mp h with h | h
      · exact Or.inr ⟨a, by simp, h⟩
      · exact Or.inl (by simp [h])
    | succ i =>
      rcases List.mem_cons.mp h with h | h
      · exact Or.inl (by simp [h])
      · rcases ih i h with h | ⟨y, h1, h2⟩
        · exact Or.inl (by simp [h])
        · exact Or.inr ⟨y, by simp [h1], h2⟩

theorem modify_names (l : List Section) (i : Nat) (f : List Entry → List Entry) :
    (l.modify i fun s => { s with entries := f s.entries }).map (·.name) = l.map (·.name) := by
  induction l generalizing i with
  | nil => rw [List.modify_nil]
  | cons a l ih =>
    cases i with
    | zero => rfl
    | succ i =>
      show a.name :: (l.modify i _).map _ = _
      rw [ih]; rfl

/-- What is true after each line that is read. -/
structure LoadOk (l : Load) : Prop where
  ok : Savable l.sections l.global
  quick : l.quick = true → l.cur ≠ none

theorem loadLine_ok {l : Load} (h : LoadOk l) (line : Text) (h10 : (10 : Byte) ∉ line) : LoadOk (loadLine l line) := by
  unfold loadLine
  dsimp only
  have ht := trim_trimmed line
  have hno : (10 : Byte) ∉ trimString line := fun hm => h10 (trim_sub line hm)
  generalize trimString line = t at ht hno ⊢
  split
  · exact ⟨h.ok, fun h => by cases h⟩
  · next p hne hp =>
    split
    · exact ⟨h.ok, fun h => by cases h⟩
    · next hf =>
      obtain ⟨n, h1, h2, h3⟩ := section_inv hp
      have hname : SectName p := by
        refine ⟨⟨by rw [h3]; exact trim_trimmed n, fun hm => ?_⟩, fun e => hne (by rw [e]), fun hm => ?_⟩
        · rw [h3] at hm
          apply hno
          rw [h1]; simp [trim_sub n hm]
        · rw [h3] at hm; exact h2 (trim_sub n hm)
      refine ⟨⟨h.ok.global, h.ok.gnames, fun s hs => ?_, sects_snoc h.ok.names _ ?_⟩, fun _ => by simp⟩
      · rcases List.mem_append.mp hs with hs | hs
        · exact h.ok.sects s hs
        · rw [List.mem_singleton.mp hs]
          exact ⟨hname, by simp⟩
      · rw [List.findIdx?_eq_none_iff] at hf
        unfold findS
        rw [List.find?_eq_none]
        intro x hx
        rw [hf x hx]; simp
  · next hp =>
    split
    · exact h
    · next hn =>
      have hok := read_ok ht hno hp hn
      generalize trimString (parseValue t).1 = nm at hn hok ⊢
      generalize (parseValue t).2.getD [] = v at hok ⊢
      have hput : ∀ f : List Entry → List Entry, (∀ es, (∀ e ∈ es, EntOk e) → ∀ e ∈ f es, EntOk e) →
          (l.cur = none → TidyE (f l.global)) → LoadOk (l.put f) := by
        intro f hf hg
        unfold Load.put
        split
        · next hc =>
          refine ⟨⟨fun e he => ⟨hf _ (fun x hx => (h.ok.global x hx).1) e he, (hg hc).values e he⟩, (hg hc).names, h.ok.sects, h.ok.names⟩, h.quick⟩
        · next i hc =>
          refine ⟨⟨h.ok.global, h.ok.gnames, fun s hs => ?_, ?_⟩, h.quick⟩
          · rcases modify_mem _ _ _ hs with hs | ⟨y, h1, h2⟩
            · exact h.ok.sects s hs
            · rw [h2]
              exact ⟨(h.ok.sects y h1).1, hf _ (h.ok.sects y h1).2⟩
          · rw [pairwise_sects, modify_names, ← pairwise_sects]; exact h.ok.names
      split
      · next hq =>
        refine hput _ (fun es hes e he => ?_) (fun hc => absurd hc (h.quick hq))
        unfold quickSet at he
        rw [trim_id hok.name.1] at he
        rcases List.mem_append.mp he with he | he
        · exact hes e he
        · rw [List.mem_singleton.mp he]; exact hok
      · exact hput _ (fun es hes => entSet_ok hes nm v hok) (fun _ => entSet_tidy ⟨h.ok.gnames, fun e he => (h.ok.global e he).2⟩ nm v)

/-- What is loaded can be saved. -/
theorem load_ok (t : Text) : Savable (loadText [] [] t).sections (loadText [] [] t).global := by
  unfold loadText
  have : ∀ (ls : List Text) (l : Load), LoadOk l → (∀ x ∈ ls, (10 : Byte) ∉ x) → LoadOk (ls.foldl loadLine l) := by
    intro ls
    induction ls with
    | nil => intro l h _; exact h
    | cons x ls ih => intro l h hx; exact ih _ (loadLine_ok h x (hx x (by simp))) (fun y hy => hx y (by simp [hy]))
  exact (this (lines t) ⟨[], [], none, false⟩ ⟨⟨by simp, by simp, by simp, by simp⟩, fun h => by cases h⟩ (lines_clean t)).ok

/-- What is set can be saved. -/
theorem set_ok {c : Conf} (h : Savable c.sections c.global) (s e : Text) (v : Option Text) (hs : SectName s) (he : EntryName e)
    (hv : ∀ t, v = some t → Line t) : Savable (set c s e v).sections (set c s e v).global := by
  rcases set_eq c s e v with ⟨_, heq⟩ | ⟨_, heq⟩
  · rw [heq]; exact h
  · rw [heq]
    have hval : Line (v.getD []) := by
      cases v with
      | none => exact ⟨⟨by simp, by simp⟩, by simp⟩
      | some t => exact hv t rfl
    have hok : EntOk ⟨e, v.getD []⟩ := by
      refine ⟨he.1, he.2.1, he.2.2.1, hval, ?_⟩
      apply Decidable.byContradiction
      intro hp
      obtain ⟨n1, v1, h1, _⟩ := line_section he.2.1 hp
      exact he.2.2.2 (by rw [h1]; rfl)
    have hop : ∀ x ∈ opened c s, SectName x.name ∧ ∀ e ∈ x.entries, EntOk e := by
      intro x hx
      unfold opened at hx
      split at hx
      · rcases List.mem_append.mp hx with hx | hx
        · exact h.sects x hx
        · rw [List.mem_singleton.mp hx]; exact ⟨hs, by simp⟩
      · exact h.sects x hx
    have hnm : (opened c s).Pairwise fun a b => low a.name ≠ low b.name := by
      unfold opened
      split
      · next hf => exact sects_snoc h.names _ hf
      · exact h.names
    refine ⟨h.global, h.gnames, fun x hx => ?_, ?_⟩
    · obtain ⟨y, h1, h2, h3⟩ := mem_onSection hx
      rw [h2]
      refine ⟨(hop y h1).1, ?_⟩
      rcases h3 with h3 | h3
      · rw [h3]; exact (hop y h1).2
      · rw [h3]; exact entSet_ok (hop y h1).2 e _ hok
    · rw [pairwise_sects]
      dsimp only
      rw [onSection_names, ← pairwise_sects]; exact hnm

theorem delete_ok {c : Conf} (h : Savable c.sections c.global) (s : Text) : Savable (deleteSection c s).sections (deleteSection c s).global := by
  unfold deleteSection
  split
  · exact h
  · exact ⟨h.global, h.gnames, fun x hx => h.sects x (List.eraseP_sublist.subset hx), h.names.sublist List.eraseP_sublist⟩

/-- A text after another one, on a new line. -/
theorem lines_after (r : Text) (t : Text) : ∀ (acc : Text) (l : Load),
    (linesGo acc (t ++ 10 :: r)).foldl loadLine l = (lines r).foldl loadLine ((linesGo acc t).foldl loadLine l) := by
  have hnil : ∀ l : Load, loadLine l [] = l := fun l => rfl
  induction t with
  | nil =>
    intro acc l
    have h1 : linesGo acc ([] ++ 10 :: r) = acc :: lines r := by
      show linesGo acc (10 :: r) = _
      unfold linesGo
      rw [if_pos rfl]; rfl
    rw [h1, List.foldl_cons]
    by_cases ha : acc = []
    · rw [ha]; rfl
    · have h2 : linesGo acc [] = [acc] := by unfold linesGo; rw [if_neg ha]
      rw [h2]; rfl
  | cons c t ih =>
    intro acc l
    rw [List.cons_append]
    by_cases hc : c = 10
    · have h1 : ∀ x, linesGo acc (c :: x) = acc :: linesGo [] x := fun x => by rw [linesGo, if_pos hc]
      rw [h1, h1, List.foldl_cons, List.foldl_cons, ih]
    · have h1 : ∀ x, linesGo acc (c :: x) = linesGo (acc ++ [c]) x := fun x => by rw [linesGo, if_neg hc]
      rw [h1, h1, ih]

theorem modify_onSection (l : List Section) (s : Text) (f : List Entry → List Entry) : ∀ i, (l.findIdx? fun x => ci x.name s) = some i →
    (l.modify i fun x => { x with entries := f x.entries }) = onSection s f l := by
  induction l with
  | nil => intro i h; cases h
  | cons x l ih =>
    intro i h
    rw [List.findIdx?_cons] at h
    unfold onSection
    by_cases hx : ci x.name s = true
    · rw [if_pos hx] at h ⊢
      cases h; rfl
    · rw [if_neg hx] at h ⊢
      obtain ⟨j, hj, rfl⟩ := Option.map_eq_some_iff.mp h
      rw [← ih j hj]; rfl

/-- A section, which may be there already, with one entry, at the end of a text. -/
theorem load_append (l : Load) {s e v : Text} (hs : SectName s) (he : EntOk ⟨e, v⟩) (hv : v ≠ []) (s' e' : Text) :
    (findS ((lines (ch '[' :: s ++ str [']'] ++ 10 :: (entLine ⟨e, v⟩ ++ [10]))).foldl loadLine l).sections s').bind (fun x => entGet x.entries e')
      = if low s' = low s ∧ low e' = low e then some v else (findS l.sections s').bind fun x => entGet x.entries e' := by
  have hnl : (10 : Byte) ∉ ch '[' :: s ++ str [']'] := by
    intro hm
    rcases List.mem_append.mp hm with hm | hm
    · rcases List.mem_cons.mp hm with hm | hm
      · revert hm; decide
      · exact hs.1.2 hm
    · revert hm; decide
  rw [lines_cons _ _ hnl, lines_cons _ _ he.line.1]
  have hl0 : lines ([] : Text) = [] := rfl
  rw [hl0, List.foldl_cons, List.foldl_cons, List.foldl_nil, loadLine_entry he]
  have htrim : trimString (ch '[' :: s ++ str [']']) = ch '[' :: s ++ str [']'] := by
    refine trim_id ⟨fun b hb => ?_, fun b hb => ?_⟩
    · simp at hb; rw [← hb]; decide
    · have : (str [']']).getLast? = some (ch ']') := by decide
      rw [List.getLast?_append, this] at hb; cases hb; decide
  have hline : loadLine l (ch '[' :: s ++ str [']']) = (match l.sections.findIdx? fun x => ci x.name s with
      | some i => { l with cur := some i, quick := false }
      | none => { l with sections := l.sections ++ [⟨s, []⟩], cur := some l.sections.length, quick := true }) := by
    unfold loadLine
    dsimp only
    rw [htrim, section_some hs.2.2, trim_id hs.1.1]
    obtain ⟨c, t, hc⟩ := List.exists_cons_of_ne_nil hs.2.1
    rw [hc]
    rfl
  have hte : trimString e = e := trim_id he.name.1
  rw [hline]
  cases hf : l.sections.findIdx? fun x => ci x.name s with
  | some i =>
    dsimp only
    rw [if_neg (by decide)]
    unfold Load.put
    dsimp only
    rw [modify_onSection _ _ (fun es => entSet es e v) i hf, onSection_find]
    by_cases h1 : low s' = low s
    · rw [if_pos h1, findS_low _ h1]
      have hsome : ∃ x, findS l.sections s = some x := by
        rw [List.findIdx?_eq_some_iff_findIdx_eq] at hf
        have : (l.sections.find? fun x => ci x.name s).isSome = true := by
          rw [List.find?_isSome]
          have h2 := List.findIdx_lt_length.mp (by rw [hf.2]; exact hf.1)
          exact h2
        exact Option.isSome_iff_exists.mp this
      obtain ⟨x, hx⟩ := hsome
      rw [hx]
      show entGet (entSet x.entries e v) e' = _
      rw [entSet_get0 e v e' (fun h => absurd h hv) hte, if_neg hv]
      by_cases h2 : low e' = low e
      · rw [if_pos h2, if_pos ⟨h1, h2⟩]
      · rw [if_neg h2, if_neg (fun h => h2 h.2)]; rfl
    · rw [if_neg h1, if_neg (fun h => h1 h.1)]
  | none =>
    dsimp only
    rw [if_pos rfl]
    unfold Load.put
    dsimp only
    rw [modify_last]
    unfold quickSet
    rw [hte]
    rw [List.findIdx?_eq_none_iff] at hf
    have hnone : findS l.sections s = none := by
      unfold findS
      rw [List.find?_eq_none]
      intro x hx; rw [hf x hx]; decide
    show (findS (l.sections ++ [⟨s, [⟨e, v⟩]⟩]) s').bind _ = _
    by_cases h1 : low s' = low s
    · rw [findS_low _ h1, findS_low l.sections h1, hnone]
      have h3 : findS (l.sections ++ [⟨s, [⟨e, v⟩]⟩]) s = some ⟨s, [⟨e, v⟩]⟩ := by
        unfold findS at hnone ⊢
        rw [List.find?_append, hnone, List.find?_cons_of_pos (by rw [ci_eq]; simp)]; rfl
      rw [h3]
      show entGet [⟨e, v⟩] e' = _
      by_cases h2 : low e' = low e
      · rw [if_pos ⟨h1, h2⟩]
        unfold entGet
        rw [List.find?_cons_of_pos (by rw [ci_eq]; simpa using h2.symm)]; rfl
      · rw [if_neg (fun h => h2 h.2)]
        unfold entGet
        rw [List.find?_cons_of_neg (by rw [ci_eq]; simpa using fun h => h2 h.symm)]; rfl
    · rw [if_neg (fun h => h1 h.1)]
      have h3 : findS (l.sections ++ [⟨s, [⟨e, v⟩]⟩]) s' = findS l.sections s' := by
        unfold findS
        rw [List.find?_append, List.find?_cons_of_neg (by rw [ci_eq]; simpa using fun h => h1 h.symm)]
        simp
      rw [h3]

end Wv.ConfFile
