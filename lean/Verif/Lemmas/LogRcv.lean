import Verif.Model.LogRcv
import Verif.Lemmas.Basic
import Verif.Props.Split
namespace Wv.LogRcv
open Wv.Log Spec.Log Spec.LogRcv

/-- One character. -/
def charStep (r : Rcv) (c : Byte) : Rcv :=
  if lineEnd c then endLine r else { r with out := r.out ++ (if r.nl then r.prefix_ else []) ++ shown c, nl := false }

theorem begin_eq (r : Rcv) : beginLine r = { r with out := r.out ++ (if r.nl then r.prefix_ else []), nl := false } := by
  unfold beginLine midLine
  cases h : r.nl
  · cases r; simp_all
  · simp only [Bool.not_true, Bool.false_eq_true, if_false, if_true]
    split <;> simp

theorem mid_eq (r : Rcv) (t : Text) (h : t.getLast? ≠ some 10) : midLine r t = { r with out := r.out ++ t } := by
  unfold midLine
  simp only [h, if_false]

theorem lineEnd_iff (c : Byte) : lineEnd c = true ↔ c = 10 ∨ c = 13 := by simp [lineEnd]

theorem print_shown (c : Byte) : myIsprint c = true → shown c = [c] ∧ lineEnd c = false ∧ c ≠ 9 ∧ c ≠ 10 := by
  revert c; apply forall_byte; decide +kernel

theorem other_shown (c : Byte) : myIsprint c = false → c ≠ 9 →
    shown c = [ch '[', xdigit (c.toNat / 16), xdigit (c.toNat % 16), ch ']'] ∧ shown c ≠ [] ∧ (shown c).getLast? ≠ some 10 := by
  revert c; apply forall_byte; decide +kernel

theorem text_chars (t : Text) : ∀ (r : Rcv), r.nl = false → (∀ c ∈ t, myIsprint c = true) →
    t.foldl charStep r = { r with out := r.out ++ t } := by
  induction t with
  | nil => intro r _ _; simp
  | cons c t ih =>
    intro r hr h
    obtain ⟨h1, h2, -, -⟩ := print_shown c (h c (by simp))
    rw [List.foldl_cons, ih _ (by simp [charStep, h2]) (fun d hd => h d (by simp [hd]))]
    simp [charStep, h2, h1, hr]

theorem loop_eq (f : Nat) : ∀ (b : Text) (r : Rcv), b.length ≤ f → logLoop f r b = b.foldl charStep r := by
  induction f with
  | zero => intro b r h; cases b with
    | nil => rfl
    | cons c b => simp at h
  | succ f ih =>
    intro b r h
    cases b with
    | nil => rfl
    | cons c b =>
      have hb : b.length ≤ f := by simpa using h
      rw [logLoop, List.foldl_cons]
      by_cases h1 : c = 10 ∨ c = 13
      · rw [if_pos h1, ih _ _ hb, charStep, if_pos ((lineEnd_iff c).2 h1)]
      · have hne : lineEnd c = false := by
          cases hh : lineEnd c
          · rfl
          · exact absurd ((lineEnd_iff c).1 hh) h1
        rw [if_neg h1]
        dsimp only
        have hc : ∀ t, shown c = t → t.getLast? ≠ some 10 → charStep r c = midLine (beginLine r) t := by
          intro t ht hl
          rw [begin_eq, mid_eq _ _ hl, charStep, if_neg (by simp [hne]), ht]
        by_cases h2 : c = 9
        · rw [if_pos h2, ih _ _ hb, hc [32] (by subst h2; decide +kernel) (by decide)]
        · rw [if_neg h2]
          by_cases h3 : myIsprint c = true
          · rw [if_neg (by simp [h3])]
            have hlen := (List.dropWhile_suffix (l := b) fun c : Byte => !(c == 10 || !myIsprint c)).length_le
            rw [ih _ _ (by omega)]
            have hall : ∀ d ∈ b.takeWhile (fun c : Byte => !(c == 10 || !myIsprint c)), myIsprint d = true := by
              intro d hd
              have := List.all_takeWhile (l := b) (p := fun c : Byte => !(c == 10 || !myIsprint c))
              rw [List.all_eq_true] at this
              have := this d hd
              simp at this
              exact this.2
            have hsplit : b.foldl charStep (charStep r c) =
                (b.dropWhile (fun c : Byte => !(c == 10 || !myIsprint c))).foldl charStep
                  ((b.takeWhile (fun c : Byte => !(c == 10 || !myIsprint c))).foldl charStep (charStep r c)) := by
              rw [← List.foldl_append, List.takeWhile_append_dropWhile]
            rw [hsplit]
            congr 1
            obtain ⟨h4, -, -, -⟩ := print_shown c h3
            rw [text_chars _ _ (by simp [charStep, hne]) hall, mid_eq, begin_eq]
            · simp [charStep, hne, h4]
            · intro hl
              have := List.mem_of_getLast? hl
              rcases List.mem_cons.1 this with e | e
              · exact (print_shown c h3).2.2.2 e.symm
              · exact (print_shown _ (hall _ e)).2.2.2 rfl
          · have h3 : myIsprint c = false := by simpa using h3
            obtain ⟨h4, -, h6⟩ := other_shown c h3 h2
            rw [if_pos (by simp [h3]), ih _ _ hb, hc _ h4 (h4 ▸ h6)]

/-- What the pieces of a text print, the first of which goes on a line when `nl` is false. -/
def emit (m : Msg) : Bool → List Text → Text
  | _, [] => []
  | nl, [p] => if nl then line m p else p.flatMap shown
  | nl, p :: q :: ps => (if nl then line m p else p.flatMap shown) ++ (if nl ∧ p = [] then [] else [10]) ++ emit m true (q :: ps)

def emitNl : Bool → List Text → Bool
  | nl, [] => nl
  | nl, [p] => nl && p.isEmpty
  | _, _ :: q :: ps => emitNl true (q :: ps)

theorem pieces_form (t : Text) : ∃ p ps, Spec.Split.pieces lineEnd t = p :: ps := by
  cases h : Spec.Split.pieces lineEnd t with
  | nil => exact absurd h (Props.pieces_ne_nil _ _)
  | cons p ps => exact ⟨p, ps, rfl⟩

theorem chars_emit (m : Msg) (t : Text) : ∀ (r : Rcv), r.prefix_ = heading m →
    t.foldl charStep r = { r with
      out := r.out ++ emit m r.nl (Spec.Split.pieces lineEnd t)
      nl := emitNl r.nl (Spec.Split.pieces lineEnd t) } := by
  induction t with
  | nil =>
    intro r _
    cases hn : r.nl <;> simp [Props.pieces_nil, emit, emitNl, hn, line] <;> rw [← hn]
  | cons c t ih =>
    intro r hp
    obtain ⟨p, ps, e⟩ := pieces_form t
    rw [List.foldl_cons, Props.pieces_cons]
    cases hc : lineEnd c
    · have h1 := ih (charStep r c) (by simp [charStep, hc, hp])
      rw [h1, e]
      simp only [charStep, hc, Bool.false_eq_true, if_false, List.headD_cons, List.tail_cons]
      cases ps with
      | nil => cases hn : r.nl <;> simp [emit, emitNl, line, hp]
      | cons q ps => cases hn : r.nl <;> simp [emit, emitNl, line, hp]
    · have h1 := ih (charStep r c) (by simp only [charStep, hc, if_true]; unfold endLine; split <;> simp [hp])
      rw [h1, e]
      simp only [charStep, hc, if_true, emit, emitNl]
      unfold endLine
      cases hn : r.nl <;> simp [line, hn]

theorem emit_opened (m : Msg) (l : List Text) (h : l ≠ []) :
    emit m true l = l.dropLast.flatMap (fullLine m) ++ line m (l.getLast?.getD []) := by
  induction l with
  | nil => contradiction
  | cons p l ih =>
    cases l with
    | nil => simp [emit]
    | cons q l =>
      rw [emit, ih (by simp)]
      by_cases hp : p = [] <;> simp [fullLine, hp, line]

theorem emit_closed (m : Msg) (l : List Text) (h : l ≠ []) :
    emit m true l ++ (if emitNl true l then [] else [10]) = l.flatMap (fullLine m) := by
  induction l with
  | nil => contradiction
  | cons p l ih =>
    cases l with
    | nil => by_cases hp : p = [] <;> simp [emit, emitNl, fullLine, hp, line]
    | cons q l =>
      have := ih (by simp)
      rw [emit, emitNl, List.flatMap_cons, ← this]
      by_cases hp : p = [] <;> simp [fullLine, hp, line]

/-- Same rules. -/
theorem charStep_keeps (r : Rcv) (c : Byte) : (charStep r c).src = r.src ∧ (charStep r c).lvl = r.lvl ∧ (charStep r c).max = r.max ∧
    (charStep r c).custom = r.custom ∧ (charStep r c).force = r.force ∧ (charStep r c).prefix_ = r.prefix_ := by
  unfold charStep endLine
  split
  · split <;> simp
  · simp

theorem chars_keep (t : Text) : ∀ (r : Rcv), (t.foldl charStep r).src = r.src ∧ (t.foldl charStep r).lvl = r.lvl ∧
    (t.foldl charStep r).max = r.max ∧ (t.foldl charStep r).custom = r.custom ∧ (t.foldl charStep r).force = r.force ∧
    (t.foldl charStep r).prefix_ = r.prefix_ := by
  induction t with
  | nil => intro r; simp
  | cons c t ih =>
    intro r
    obtain ⟨a, b, c', d, e, f⟩ := ih (charStep r c)
    obtain ⟨a', b', c'', d', e', f'⟩ := charStep_keeps r c
    rw [List.foldl_cons]
    exact ⟨a.trans a', b.trans b', c'.trans c'', d.trans d', e.trans e', f.trans f'⟩

/-- The lines 301-321. -/
def enter (r : Rcv) (m : Msg) : Rcv :=
  if some m.src ≠ r.src ∨ m.lvl ≠ r.lvl ∨ r.force = true then makePrefix { endLine r with src := some m.src, lvl := m.lvl } else r

theorem endLine_keeps (r : Rcv) : (endLine r).src = r.src ∧ (endLine r).lvl = r.lvl ∧ (endLine r).max = r.max ∧
    (endLine r).custom = r.custom ∧ (endLine r).force = r.force ∧ (endLine r).prefix_ = r.prefix_ ∧ (endLine r).nl = true := by
  unfold endLine
  split
  · simp; assumption
  · simp

theorem log_eq (r : Rcv) (m : Msg) (h : m.lvl ≤ threshold r m.src) : log r m = m.text.foldl charStep (enter r m) := by
  unfold log
  rw [if_neg (by omega)]
  dsimp only
  rw [loop_eq _ _ _ (Nat.le_refl _)]
  rfl

theorem threshold_congr (r r' : Rcv) (h1 : r'.max = r.max) (h2 : r'.custom = r.custom) (src : Text) : threshold r' src = threshold r src := by
  unfold threshold; rw [h1, h2]

theorem enter_keeps (r : Rcv) (m : Msg) : (enter r m).src = some m.src ∧ (enter r m).lvl = m.lvl ∧ (enter r m).max = r.max ∧
    (enter r m).custom = r.custom ∧ (enter r m).force = r.force := by
  obtain ⟨-, -, c, d, e, -, -⟩ := endLine_keeps r
  unfold enter
  split
  · simp [makePrefix, c, d, e]
  · rename_i h
    simp only [not_or, Decidable.not_not] at h
    exact ⟨h.1.symm, h.2.1.symm, rfl, rfl, rfl⟩

theorem log_keeps (r : Rcv) (m : Msg) : (log r m).max = r.max ∧ (log r m).custom = r.custom ∧ (log r m).force = r.force ∧
    (m.lvl ≤ threshold r m.src → (log r m).src = some m.src ∧ (log r m).lvl = m.lvl) := by
  by_cases h : m.lvl ≤ threshold r m.src
  · rw [log_eq r m h]
    obtain ⟨a, b, c, d, e, -⟩ := chars_keep m.text (enter r m)
    obtain ⟨a', b', c', d', e'⟩ := enter_keeps r m
    exact ⟨c.trans c', d.trans d', e.trans e', fun _ => ⟨a.trans a', b.trans b'⟩⟩
  · have : log r m = r := by unfold log; rw [if_pos (by omega)]
    rw [this]
    exact ⟨rfl, rfl, rfl, fun h' => absurd h' h⟩

/-- Two messages with the same source and level. -/
theorem log_append (r : Rcv) (s : Text) (l : Nat) (t u : Text) (hf : r.force = false) :
    log (log r ⟨s, l, t⟩) ⟨s, l, u⟩ = log r ⟨s, l, t ++ u⟩ := by
  by_cases h : l ≤ threshold r s
  · obtain ⟨a, b, c, d⟩ := log_keeps r ⟨s, l, t⟩
    obtain ⟨d1, d2⟩ := d h
    have he : enter (log r ⟨s, l, t⟩) ⟨s, l, u⟩ = log r ⟨s, l, t⟩ := by
      rw [enter, if_neg (by rw [d1, d2, c, hf]; simp)]
    rw [log_eq (log r ⟨s, l, t⟩) _ (by rw [threshold_congr _ _ a b]; exact h), he, log_eq r ⟨s, l, t⟩ (show l ≤ _ from h),
      log_eq r ⟨s, l, t ++ u⟩ (show l ≤ _ from h), ← List.foldl_append]
    rfl
  · have : ∀ t, log r ⟨s, l, t⟩ = r := by intro t; unfold log; rw [if_pos (by dsimp only; omega)]
    rw [this, this, this]

theorem together_log (msgs : List Msg) : ∀ (r : Rcv), r.force = false → (together msgs).foldl log r = msgs.foldl log r := by
  induction msgs with
  | nil => intro r _; rfl
  | cons m l ih =>
    intro r hf
    have := ih (log r m) ((log_keeps r m).2.2.1.trans hf)
    rw [List.foldl_cons, ← this, together]
    cases h : together l with
    | nil => rfl
    | cons n l' =>
      dsimp only
      split
      · rename_i hh
        rw [List.foldl_cons, List.foldl_cons]
        congr 1
        rw [← log_append r m.src m.lvl m.text n.text hf]
        congr 1
        rw [← hh.1, ← hh.2]
      · rfl

/-- Neighbours differ. -/
def Apart : List Msg → Prop
  | m :: n :: l => (n.src ≠ m.src ∨ n.lvl ≠ m.lvl) ∧ Apart (n :: l)
  | _ => True

theorem together_apart (msgs : List Msg) : Apart (together msgs) := by
  induction msgs with
  | nil => trivial
  | cons m l ih =>
    rw [together]
    cases h : together l with
    | nil => trivial
    | cons n l' =>
      rw [h] at ih
      dsimp only
      split
      · rename_i hh
        cases l' with
        | nil => trivial
        | cons k l' =>
          refine ⟨?_, ih.2⟩
          rw [← hh.1, ← hh.2]
          exact ih.1
      · rename_i hh
        refine ⟨?_, ih⟩
        by_cases h1 : n.src = m.src
        · exact Or.inr fun h2 => hh ⟨h1, h2⟩
        · exact Or.inl h1

theorem together_mem (msgs : List Msg) : ∀ m ∈ together msgs, ∃ n ∈ msgs, n.src = m.src ∧ n.lvl = m.lvl := by
  induction msgs with
  | nil => intro m h; cases h
  | cons k l ih =>
    intro m h
    rw [together] at h
    cases e : together l with
    | nil =>
      rw [e] at h
      simp at h
      exact ⟨k, by simp, by rw [h], by rw [h]⟩
    | cons n l' =>
      rw [e] at h ih
      dsimp only at h
      split at h
      · rcases List.mem_cons.1 h with h | h
        · exact ⟨k, by simp, by rw [h], by rw [h]⟩
        · obtain ⟨x, hx, hh⟩ := ih m (by simp [h]); exact ⟨x, by simp [hx], hh⟩
      · rcases List.mem_cons.1 h with h | h
        · exact ⟨k, by simp, by rw [h], by rw [h]⟩
        · obtain ⟨x, hx, hh⟩ := ih m h; exact ⟨x, by simp [hx], hh⟩

theorem heading_eq (m : Msg) (h : m.lvl < 10) (r : Rcv) : (makePrefix { r with src := some m.src, lvl := m.lvl }).prefix_ = heading m := by
  have : ∀ n : Nat, n < 10 → loglevels[n]?.getD [] = levelName n := by decide +kernel
  simp [makePrefix, heading, this _ h]

/-- A message with a heading of its own. -/
theorem log_fresh (r : Rcv) (m : Msg) (h : m.lvl ≤ threshold r m.src) (hl : m.lvl < 10)
    (hf : some m.src ≠ r.src ∨ m.lvl ≠ r.lvl ∨ r.force = true) :
    (log r m).out = (endLine r).out ++ opened m ∧ (endLine (log r m)).out = (endLine r).out ++ closed m := by
  have h1 := log_eq r m h
  rw [enter, if_pos hf] at h1
  have hp := heading_eq m hl (endLine r)
  rw [chars_emit m m.text _ hp] at h1
  have hnl : (makePrefix { endLine r with src := some m.src, lvl := m.lvl }).nl = true := (endLine_keeps r).2.2.2.2.2.2
  have hout : (makePrefix { endLine r with src := some m.src, lvl := m.lvl }).out = (endLine r).out := rfl
  rw [hnl, hout] at h1
  constructor
  · rw [h1]
    show _ ++ _ = _ ++ _
    rw [emit_opened m _ (Props.pieces_ne_nil _ _)]; rfl
  · rw [h1, closed, ← emit_closed m _ (Props.pieces_ne_nil _ _)]
    unfold endLine
    dsimp only
    split
    · rename_i hh; simp
    · rename_i hh; simp

theorem logs_out (l : List Msg) : ∀ (r : Rcv), (∀ m ∈ l, m.lvl ≤ threshold r m.src ∧ m.lvl < 10) →
    (r.force = true ∨ (Apart l ∧ ∀ m, l.head? = some m → some m.src ≠ r.src ∨ m.lvl ≠ r.lvl)) →
    (l ≠ [] → (l.foldl log r).out = (endLine r).out ++ printed l) ∧
    (endLine (l.foldl log r)).out = (endLine r).out ++ l.flatMap closed := by
  induction l with
  | nil => intro r _ _; simp
  | cons m l ih =>
    intro r ha hf
    have hm := ha m (by simp)
    have hf1 : some m.src ≠ r.src ∨ m.lvl ≠ r.lvl ∨ r.force = true := by
      rcases hf with h | h
      · exact Or.inr (Or.inr h)
      · rcases h.2 m rfl with h | h
        · exact Or.inl h
        · exact Or.inr (Or.inl h)
    obtain ⟨h1, h2⟩ := log_fresh r m hm.1 hm.2 hf1
    obtain ⟨k1, k2, k3, k4⟩ := log_keeps r m
    obtain ⟨k4, k5⟩ := k4 hm.1
    obtain ⟨i1, i2⟩ := ih (log r m) (fun n hn => by
      rw [threshold_congr _ _ k1 k2]; exact ha n (by simp [hn])) (by
      rcases hf with h | h
      · exact Or.inl (k3.trans h)
      · refine Or.inr ?_
        cases l with
        | nil => exact ⟨trivial, fun _ h => by cases h⟩
        | cons n l =>
          refine ⟨h.1.2, fun x hx => ?_⟩
          simp at hx
          subst hx
          rw [k4, k5]
          rcases h.1.1 with h | h
          · exact Or.inl (by simpa using h)
          · exact Or.inr h)
    rw [List.foldl_cons]
    refine ⟨fun _ => ?_, by rw [i2, h2]; simp⟩
    cases l with
    | nil => simp [printed, h1]
    | cons n l =>
      rw [i1 (by simp), h2]
      simp [printed]

theorem log_filter (lim : Text → Nat) (l : List Msg) : ∀ (r : Rcv), (∀ s, threshold r s = lim s) →
    (l.filter fun m => decide (m.lvl ≤ lim m.src)).foldl log r = l.foldl log r := by
  induction l with
  | nil => intro r _; rfl
  | cons m l ih =>
    intro r h
    obtain ⟨k1, k2, -, -⟩ := log_keeps r m
    rw [List.foldl_cons, ← ih (log r m) (fun s => by rw [threshold_congr _ _ k1 k2]; exact h s), List.filter_cons]
    by_cases hm : m.lvl ≤ lim m.src
    · simp [hm]
    · have : log r m = r := by unfold log; rw [if_pos (by rw [h]; omega)]
      simp [hm, this]

theorem strstr_iff (p s : Text) : Http.strstr p s = true ↔ p <:+: s := by
  induction s with
  | nil => simp [Http.strstr, List.isEmpty_iff]
  | cons c s ih =>
    rw [Http.strstr, Bool.or_eq_true, ih, List.infix_cons_iff, List.isPrefixOf_iff_prefix]

theorem small_small (t : Text) : small (small t) = small t := by
  have : ∀ c : Byte, tolower (tolower c) = tolower c := by apply forall_byte; decide +kernel
  simp [small, this]

theorem threshold_limit (r : Rcv) (h : ∀ x ∈ r.custom, small x.name = x.name) (src : Text) :
    Limit r.max r.custom src (threshold r src) := by
  unfold threshold
  cases e : r.custom.find? (fun x => Http.strstr x.name (src.map tolower)) with
  | some x =>
    have hm := List.mem_of_find?_eq_some e
    refine Or.inl ⟨x, hm, ?_, rfl⟩
    unfold Rule.applies
    rw [h x hm]
    have := List.find?_some e
    exact (strstr_iff _ _).1 this
  | none =>
    refine Or.inr ⟨fun x hm ha => ?_, rfl⟩
    unfold Rule.applies at ha
    rw [h x hm] at ha
    have := List.find?_eq_none.1 e x hm
    exact this ((strstr_iff _ _).2 ha)

theorem levelsLoop_small (ws : List Text) : ∀ (src : Text) (acc : List Rule) (ok : Bool) (l : List Rule), small src = src →
    (∀ x ∈ acc, small x.name = x.name) → levelsLoop src acc ws = some (ok, l) → ∀ x ∈ l, small x.name = x.name := by
  induction ws with
  | nil =>
    intro src acc ok l _ ha h
    simp [levelsLoop] at h
    rw [← h.2]
    exact ha
  | cons w ws ih =>
    intro src acc ok l hs ha h
    rw [levelsLoop] at h
    split at h
    · cases e : Num.num w with
      | none => rw [e] at h; cases h
      | some n =>
        rw [e] at h
        simp only [Option.bind_some] at h
        split at h
        · refine ih [] _ ok l rfl ?_ h
          intro x hx
          rcases List.mem_append.1 hx with hx | hx
          · exact ha x hx
          · simp at hx; rw [hx]; exact hs
        · injection h with h
          injection h with h1 h2
          rw [← h2]
          exact ha
    · exact ih _ acc ok l (small_small (trimEnd w)) ha h

theorem levels_small (d : Text) (ok : Bool) (l : List Rule) (h : setCustomLevels d = some (ok, l)) : ∀ x ∈ l, small x.name = x.name := by
  unfold setCustomLevels at h
  dsimp only at h
  split at h
  · injection h with h
    injection h with h1 h2
    rw [← h2]
    intro x hx; cases hx
  · exact levelsLoop_small _ [] [] ok l rfl (by simp) h

theorem numeral_num (n : Nat) (h1 : 1 ≤ n) (h2 : n ≤ 10) : Num.num (numeral n) = some (n : Int) ∧ numeral n ≠ [] := by
  have : ∀ n : Nat, n < 11 → (1 ≤ n → Num.num (numeral n) = some (n : Int) ∧ numeral n ≠ []) := by decide +kernel
  exact this n (by omega) h1

theorem space_isspace (c : Byte) : isspace c = true ↔ space c := by
  revert c; apply forall_byte; decide +kernel

theorem trimEnd_plain (t : Text) (h : ∀ c ∈ t, ¬ space c) : trimEnd t = t := by
  unfold trimEnd
  cases e : t.reverse with
  | nil => simp at e; rw [e]; rfl
  | cons c u =>
    have : c ∈ t := by rw [← List.mem_reverse, e]; simp
    have hc : ¬ isspace c = true := fun hh => h c this ((space_isspace c).1 hh)
    rw [List.dropWhile_cons, if_neg hc, ← e, List.reverse_reverse]

theorem levelsLoop_empty (acc : List Rule) (ws : List Text) : levelsLoop [] acc ([] :: ws) = levelsLoop [] acc ws := by
  rw [levelsLoop]
  simp [trimEnd]

theorem levelsLoop_rules (l : List Rule) : ∀ (acc : List Rule) (rest : List Text), (∀ r ∈ l, r.plain) →
    levelsLoop [] acc (ruleWords l ++ rest) = levelsLoop [] (acc ++ l.map fun r => ⟨small r.name, r.level⟩) rest := by
  induction l with
  | nil => intro acc rest _; simp [ruleWords]
  | cons r l ih =>
    intro acc rest h
    obtain ⟨h1, h2, h3, h4⟩ := h r (by simp)
    have hw : ruleWords (r :: l) ++ rest = r.name :: numeral r.level :: (ruleWords l ++ rest) := by simp [ruleWords]
    rw [hw, levelsLoop, if_neg (by simp), trimEnd_plain _ (fun c hc => (h2 c hc).2.2), levelsLoop, if_pos (by simpa using h1),
      (numeral_num _ h3 h4).1]
    simp only [Option.bind_some]
    rw [if_pos (by omega), ih _ _ (fun x hx => h x (by simp [hx]))]
    simp [small]

theorem sep_eq : (str [',', '=', ' ']).contains = sep := by
  funext c
  revert c; apply forall_byte; decide +kernel

/-! The receivers. -/

/-- The static members belong to this world. -/
structure Sim (s : Reg) (w : World) : Prop where
  users : (s.list.getD []).filter (· ≠ Who.console) = w.rcvs.map .user
  con : .console ∈ s.list.getD [] ↔ s.dflt = true
  num : s.num = w.rcvs.length
  logs : s.logs = w.logs
  nodup : w.rcvs.Nodup

theorem new_sim : Sim Reg.new ⟨[], 0⟩ := by
  constructor <;> simp [Reg.new]

theorem dropDefault_sim (s : Reg) (w : World) (h : Sim s w) (hd : s.dflt = true) :
    ∃ s', s.dropDefault = some s' ∧ Sim s' w ∧ s'.dflt = false ∧ s'.list = (if w.rcvs = [] then none else some (w.rcvs.map .user)) := by
  have hc := h.con.2 hd
  unfold Reg.dropDefault Reg.delRcv
  cases e : s.list with
  | none => rw [e] at hc; simp at hc
  | some l =>
    have hu := h.users
    rw [e] at hu hc
    simp only [Option.getD_some] at hu hc
    dsimp only
    rw [hu]
    refine ⟨_, rfl, ⟨?_, ?_, ?_, h.logs, h.nodup⟩, rfl, ?_⟩
    · by_cases hr : w.rcvs = [] <;> simp [hr, List.filter_eq_self]
    · by_cases hr : w.rcvs = [] <;> simp [hr]
    · have := h.num
      dsimp only
      omega
    · by_cases hr : w.rcvs = [] <;> simp [hr]

theorem prepare_sim (s : Reg) (w : World) (h : Sim s w) : ∃ s', s.prepare = some (s', w.audience) ∧ Sim s' w ∧
    s'.prepare = some (s', w.audience) := by
  have hn := h.num
  unfold World.audience
  by_cases h0 : s.num = 0
  · have hr : w.rcvs = [] := by
      have : w.rcvs.length = 0 := by omega
      exact List.length_eq_zero_iff.1 this
    rw [if_pos hr]
    unfold Reg.prepare
    cases hd : s.dflt
    · simp only [h0, if_true, Bool.false_eq_true, if_false]
      refine ⟨_, rfl, ⟨?_, ?_, ?_, h.logs, h.nodup⟩, ?_⟩
      · have := h.users
        simp only [Reg.addRcv, Option.getD_some, List.filter_append, this]
        simp
      · simp [Reg.addRcv]
      · simp [Reg.addRcv, h0, hr]
      · simp [Reg.addRcv, h0]
    · simp only [h0, if_true]
      exact ⟨s, rfl, h, by simp [h0, hd]⟩
  · have hr : w.rcvs ≠ [] := by
      intro e
      rw [e] at hn
      simp at hn
      exact h0 hn
    rw [if_neg hr]
    cases hd : s.dflt
    · have hlist : s.list = some (w.rcvs.map .user) := by
        have hu := h.users
        have hc : ¬ Who.console ∈ s.list.getD [] := fun hh => by rw [h.con.1 hh] at hd; cases hd
        rw [List.filter_eq_self.2 (by
          intro a ha
          simp
          intro e
          exact hc (e ▸ ha))] at hu
        cases e : s.list with
        | none =>
          rw [e] at hu
          simp at hu
          exact absurd hu.symm (by simpa using hr)
        | some l => rw [e] at hu; simp at hu; rw [hu]
      refine ⟨s, ?_, h, ?_⟩ <;> simp [Reg.prepare, h0, hd, hlist]
    · obtain ⟨s', e, hs, hd', hl⟩ := dropDefault_sim s w h hd
      rw [if_neg hr] at hl
      have h0' : s'.num ≠ 0 := by rw [hs.num, ← hn]; exact h0
      refine ⟨s', ?_, hs, ?_⟩
      · simp [Reg.prepare, h0, hd, e, hl]
      · simp [Reg.prepare, h0', hd', hl]

theorem map_filter_user (l : List Nat) (n : Nat) : (l.map Who.user).filter (· ≠ .user n) = (l.filter (· ≠ n)).map .user := by
  induction l with
  | nil => rfl
  | cons a l ih =>
    rw [List.map_cons, List.filter_cons, List.filter_cons, ih]
    by_cases h : a = n <;> simp [h]

theorem nodup_filter_length (l : List Nat) (n : Nat) (hn : l.Nodup) (h : n ∈ l) : (l.filter (· ≠ n)).length + 1 = l.length := by
  induction l with
  | nil => cases h
  | cons a l ih =>
    rw [List.nodup_cons] at hn
    by_cases ha : a = n
    · subst ha
      have : l.filter (· ≠ a) = l := by
        rw [List.filter_eq_self]
        intro b hb
        simp
        intro e
        exact hn.1 (e ▸ hb)
      rw [List.filter_cons, if_neg (by simp), this, List.length_cons]
    · rw [List.filter_cons, if_pos (by simpa using ha), List.length_cons, List.length_cons,
        ih hn.2 (by rcases List.mem_cons.1 h with h | h; exact absurd h.symm ha; exact h)]

theorem step_sim (s : Reg) (w w' : World) (o : Op) (h : Sim s w) (ho : w.step o = some w') : ∃ s', s.step o = some s' ∧ Sim s' w' := by
  cases o with
  | newRcv n =>
    rw [World.step] at ho
    split at ho
    · cases ho
    · rename_i hn
      injection ho with ho
      subst ho
      refine ⟨_, rfl, ⟨?_, ?_, ?_, h.logs, ?_⟩⟩
      · have := h.users
        simp only [Reg.addRcv, Option.getD_some, List.filter_append, this]
        simp
      · simp only [Reg.addRcv, Option.getD_some, List.mem_append]
        rw [h.con]
        simp
      · simp [Reg.addRcv, h.num]
      · rw [List.nodup_append]
        refine ⟨h.nodup, by simp, ?_⟩
        intro a ha b hb
        simp at hb
        intro e
        exact hn (by rw [← hb, ← e]; exact ha)
  | delRcv n =>
    rw [World.step] at ho
    split at ho
    · rename_i hn
      injection ho with ho
      subst ho
      have hu := h.users
      have hc := h.con
      rw [Reg.step, Reg.delRcv]
      cases e : s.list with
      | none =>
        rw [e] at hu
        simp at hu
        rw [hu] at hn
        cases hn
      | some l =>
        rw [e] at hu hc
        simp only [Option.getD_some] at hu hc
        refine ⟨_, rfl, ⟨?_, ?_, ?_, h.logs, h.nodup.filter _⟩⟩
        · have hf : (l.filter (· ≠ Who.user n)).filter (· ≠ Who.console) = (w.rcvs.filter (· ≠ n)).map .user := by
            rw [← map_filter_user, ← hu, List.filter_filter, List.filter_filter]
            congr 1
            funext x
            rw [Bool.and_comm]
          by_cases hl : l.filter (· ≠ Who.user n) = []
          · rw [hl] at hf
            dsimp only
            rw [if_pos hl]
            exact hf
          · dsimp only
            rw [if_neg hl]
            exact hf
        · have : Who.console ∈ l.filter (· ≠ Who.user n) ↔ Who.console ∈ l := by simp
          dsimp only
          rw [← hc, ← this]
          by_cases hl : l.filter (· ≠ Who.user n) = []
          · rw [if_pos hl, hl]; simp
          · rw [if_neg hl]; simp
        · have := nodup_filter_length w.rcvs n h.nodup hn
          have := h.num
          dsimp only
          omega
    · cases ho
  | newLog =>
    rw [World.step] at ho
    injection ho with ho
    subst ho
    exact ⟨_, rfl, ⟨h.users, h.con, h.num, by simp [h.logs], h.nodup⟩⟩
  | delLog =>
    rw [World.step] at ho
    split at ho
    · cases ho
    · rename_i hl
      injection ho with ho
      subst ho
      have h' : Sim { s with logs := s.logs - 1 } { w with logs := w.logs - 1 } :=
        ⟨h.users, h.con, h.num, by have := h.logs; dsimp only; omega, h.nodup⟩
      rw [Reg.step, Reg.delLog]
      dsimp only
      split
      · rename_i hd
        obtain ⟨s', e, hs, -, -⟩ := dropDefault_sim _ _ h' hd.2
        exact ⟨s', e, hs⟩
      · exact ⟨_, rfl, h'⟩
  | write =>
    rw [World.step] at ho
    split at ho
    · cases ho
    · injection ho with ho
      subst ho
      obtain ⟨s', e, hs, -⟩ := prepare_sim s w h
      exact ⟨s', by rw [Reg.step, e]; rfl, hs⟩
  | fork =>
    rw [World.step] at ho
    injection ho with ho
    subst ho
    rw [Reg.step, Reg.fork]
    dsimp only
    cases hd : s.dflt
    · refine ⟨_, rfl, ⟨?_, ?_, by simp, h.logs, by simp⟩⟩ <;> cases s.list <;> simp
    · have hc := h.con.2 hd
      cases e : s.list with
      | none => rw [e] at hc; simp at hc
      | some l =>
        refine ⟨_, rfl, ⟨?_, ?_, by simp, h.logs, by simp⟩⟩ <;> simp

theorem run_sim (os : List Op) : ∀ (s : Reg) (w w' : World), Sim s w → w.run os = some w' → ∃ s', s.run os = some s' ∧ Sim s' w' := by
  induction os with
  | nil => intro s w w' h e; injection e with e; subst e; exact ⟨s, rfl, h⟩
  | cons o os ih =>
    intro s w w' h e
    rw [World.run] at e
    cases hs : w.step o with
    | none => rw [hs] at e; cases e
    | some w1 =>
      rw [hs] at e
      obtain ⟨s1, e1, h1⟩ := step_sim s w w1 o h hs
      obtain ⟨s', e', h'⟩ := ih s1 w1 w' h1 e
      exact ⟨s', by rw [Reg.run, e1]; exact e', h'⟩

theorem audience_nodup (w : World) (h : w.rcvs.Nodup) : w.audience.Nodup := by
  unfold World.audience
  split
  · simp
  · exact List.Pairwise.map _ (fun a b hab e => hab (by injection e)) h

/-! The calls. -/

/-- The calls when everything is as it should be. -/
def calls (aud : List Who) (react : Who → Msg → List Msg) : Nat → Nat → Msg → List Call
  | 0, _, _ => []
  | f + 1, c, m => aud.flatMap fun w =>
    match told c m with
    | none => []
    | some x => ⟨c, w, x⟩ :: (react w x).flatMap (calls aud react f (c + 1))

theorem told_none (c : Nat) (m : Msg) (h : 9 ≤ c) : told c m = none := by
  unfold told
  rw [if_neg (by omega), if_neg (by omega)]

theorem uwrite_calls (aud : List Who) (react : Who → Msg → List Msg) (s : Reg) (hs : s.prepare = some (s, aud)) (f : Nat) :
    ∀ (c : Nat) (m : Msg), c ≤ 9 → 10 ≤ c + f → uwrite react f c s m = some (s, calls aud react f c m) := by
  induction f with
  | zero => intro c m h1 h2; omega
  | succ f ih =>
    intro c m h1 h2
    rw [uwrite, hs, calls]
    simp only [Option.bind_some]
    have key : ∀ (ws : List Who) (tr : List Call),
        ws.foldl (fun st w => st.bind fun (p : Reg × List Call) =>
          match told c m with
          | none => some (p.1, p.2)
          | some x =>
            (react w x).foldl (fun st y => st.bind fun (q : Reg × List Call) =>
              (uwrite react f (c + 1) q.1 y).map fun (z : Reg × List Call) => (z.1, q.2 ++ z.2)) (some (p.1, p.2 ++ [⟨c, w, x⟩])))
          (some (s, tr)) = some (s, tr ++ ws.flatMap fun w =>
            match told c m with
            | none => []
            | some x => ⟨c, w, x⟩ :: (react w x).flatMap (calls aud react f (c + 1))) := by
      intro ws
      induction ws with
      | nil => intro tr; simp
      | cons w ws ihw =>
        intro tr
        rw [List.foldl_cons]
        simp only [Option.bind_some]
        cases e : told c m with
        | none =>
          have := ihw tr
          rw [e] at this
          rw [this]
          simp
        | some x =>
          have hc : c ≤ 8 := by
            rcases Nat.lt_or_ge 8 c with h | h
            · rw [told_none c m (by omega)] at e; cases e
            · exact h
          have inner : ∀ (ys : List Msg) (t : List Call),
              ys.foldl (fun st y => st.bind fun (q : Reg × List Call) =>
                (uwrite react f (c + 1) q.1 y).map fun (z : Reg × List Call) => (z.1, q.2 ++ z.2)) (some (s, t)) =
              some (s, t ++ ys.flatMap (calls aud react f (c + 1))) := by
            intro ys
            induction ys with
            | nil => intro t; simp
            | cons y ys ihy =>
              intro t
              rw [List.foldl_cons]
              simp only [Option.bind_some]
              rw [ih (c + 1) y (by omega) (by omega)]
              simp only [Option.map_some]
              rw [ihy]
              simp
          have := ihw (tr ++ [⟨c, w, x⟩] ++ (react w x).flatMap (calls aud react f (c + 1)))
          rw [e] at this
          dsimp only at this ⊢
          rw [inner, this]
          simp
    have := key aud []
    rw [List.nil_append] at this
    exact this

theorem calls_depth (aud : List Who) (react : Who → Msg → List Msg) (f : Nat) : ∀ (c : Nat) (m : Msg), ∀ x ∈ calls aud react f c m,
    c ≤ x.depth ∧ x.depth ≤ 8 ∧ x.who ∈ aud := by
  induction f with
  | zero => intro c m x h; cases h
  | succ f ih =>
    intro c m x h
    rw [calls, List.mem_flatMap] at h
    obtain ⟨w, hw, hx⟩ := h
    cases e : told c m with
    | none => rw [e] at hx; cases hx
    | some y =>
      have hc : c ≤ 8 := by
        rcases Nat.lt_or_ge 8 c with h | h
        · rw [told_none c m (by omega)] at e; cases e
        · exact h
      rw [e] at hx
      rcases List.mem_cons.1 hx with hx | hx
      · rw [hx]; exact ⟨Nat.le_refl _, hc, hw⟩
      · rw [List.mem_flatMap] at hx
        obtain ⟨z, -, hx⟩ := hx
        have := ih (c + 1) z x hx
        exact ⟨by omega, this.2⟩

theorem written_front (aud : List Who) (react : Who → Msg → List Msg) (n : Nat) : ∀ (m : Msg),
    written aud react m (n + 2) = aud.flatMap fun w => (react w m).flatMap fun y => written aud react y (n + 1) := by
  induction n with
  | zero => intro m; simp [written]
  | succ n ih =>
    intro m
    rw [written]
    · rw [ih]
      simp only [List.flatMap_assoc]
      rfl
    · omega

/-- What is said of a message at a depth. -/
def saying (k : Nat) (x : Msg) : Msg := if k < 8 then x else ⟨x.src, 2, recursionMsg⟩

theorem flatMap_single (aud : List Who) (hn : aud.Nodup) (w : Who) (f : Who → List Msg) :
    aud.flatMap (fun v => if v = w then f v else []) = if w ∈ aud then f w else [] := by
  induction aud with
  | nil => rfl
  | cons a l ih =>
    rw [List.nodup_cons] at hn
    rw [List.flatMap_cons, ih hn.2]
    by_cases h : a = w
    · subst h; simp [hn.1]
    · simp [h, Ne.symm h]

theorem calls_written (aud : List Who) (hn : aud.Nodup) (react : Who → Msg → List Msg) (w : Who) (k : Nat) (hk : k ≤ 8) (f : Nat) :
    ∀ (c : Nat) (m : Msg), c ≤ k → 10 ≤ c + f →
    ((calls aud react f c m).filter fun x => decide (x.depth = k ∧ x.who = w)).map (·.msg) =
      if w ∈ aud then (written aud react m (k - c + 1)).map (saying k) else [] := by
  induction f with
  | zero => intro c m h1 h2; omega
  | succ f ih =>
    intro c m h1 h2
    rw [calls]
    have ht : told c m = some (saying c m) := by
      unfold told saying
      by_cases h : c < 8
      · simp [h]
      · rw [if_neg h, if_pos (by omega), if_neg h]
    rw [ht]
    dsimp only
    rw [List.filter_flatMap, List.map_flatMap]
    by_cases hck : c = k
    · subst hck
      have : (fun v => (List.filter (fun x : Call => decide (x.depth = c ∧ x.who = w))
          (⟨c, v, saying c m⟩ :: (react v (saying c m)).flatMap (calls aud react f (c + 1)))).map (·.msg)) =
          fun v => if v = w then [saying c m] else [] := by
        funext v
        have hz : List.filter (fun x : Call => decide (x.depth = c ∧ x.who = w)) ((react v (saying c m)).flatMap (calls aud react f (c + 1))) = [] := by
          rw [List.filter_eq_nil_iff]
          intro x hx
          rw [List.mem_flatMap] at hx
          obtain ⟨z, -, hx⟩ := hx
          have := (calls_depth aud react f (c + 1) z x hx).1
          simp
          intro e
          omega
        rw [List.filter_cons, hz]
        by_cases hv : v = w <;> simp [hv]
      rw [this, flatMap_single aud hn w (fun _ => [saying c m])]
      simp [written]
    · have hlt : c < k := by omega
      have hs : saying c m = m := by unfold saying; rw [if_pos (by omega)]
      rw [hs]
      have : (fun v => (List.filter (fun x : Call => decide (x.depth = k ∧ x.who = w))
          (⟨c, v, m⟩ :: (react v m).flatMap (calls aud react f (c + 1)))).map (·.msg)) =
          fun v => (react v m).flatMap fun y => if w ∈ aud then (written aud react y (k - (c + 1) + 1)).map (saying k) else [] := by
        funext v
        rw [List.filter_cons, if_neg (by simp; intro e; omega), List.filter_flatMap, List.map_flatMap]
        congr 1
        funext y
        exact ih (c + 1) y hlt (by omega)
      rw [this]
      by_cases hw : w ∈ aud
      · simp only [if_pos hw]
        obtain ⟨j, hj⟩ : ∃ j, k - c + 1 = j + 2 := ⟨k - c - 1, by omega⟩
        rw [hj, written_front, show k - (c + 1) + 1 = j + 1 from by omega, List.map_flatMap]
        congr 1
        funext v
        rw [List.map_flatMap]
      · simp [hw]

end Wv.LogRcv
