import Verif.Model.Syslog
import Verif.Lemmas.LogRcv
import Verif.Props.LogRcv
/- C115: the system log. -/
namespace Props
open Wv Wv.Log Wv.LogRcv Spec.LogRcv Spec.Syslog
open Spec.Log (shown)

namespace SysP
open Wv.Syslog (Sys)

theorem level_eq (first lvl : Nat) : Wv.Syslog.level first lvl = match priority first lvl with | some p => (p : Int) | none => -1 := by
  match lvl with
  | 0 => simp [Wv.Syslog.level, Wv.Syslog.levmap, priority]
  | 1 => simp [Wv.Syslog.level, Wv.Syslog.levmap, priority]
  | 2 => simp [Wv.Syslog.level, Wv.Syslog.levmap, priority]
  | 3 => simp [Wv.Syslog.level, Wv.Syslog.levmap, priority]
  | 4 => simp [Wv.Syslog.level, Wv.Syslog.levmap, priority]
  | 5 =>
    simp only [Wv.Syslog.level, Wv.Syslog.levmap, priority]
    by_cases h : 5 < first
    · simp [h]
    · simp [h]
  | n + 6 =>
    have h : ∀ k, k ≤ 6 → n + 6 ≥ k := by intro k hk; omega
    simp [Wv.Syslog.level, Wv.Syslog.levmap, priority]

/-- What is sent when a line ends. -/
def put (s : Sys) (t : Text) : List (Nat × Text) := ((priority s.first s.rcv.lvl).map fun p => (p, t)).toList

theorem endLine_eq (s : Sys) : Wv.Syslog.endLine s = if s.rcv.nl then s else
    { s with rcv := { s.rcv with out := [], nl := true }
             sent := s.sent ++ put s (s.rcv.out ++ [10]) } := by
  unfold Wv.Syslog.endLine
  split
  · rfl
  · unfold Wv.Syslog.sendLine
    dsimp only
    rw [if_neg (by simp), level_eq]
    unfold put
    cases priority s.first s.rcv.lvl with
    | none => simp
    | some p => simp

/-- One character. -/
def charStep (s : Sys) (c : Byte) : Sys :=
  if lineEnd c then Wv.Syslog.endLine s
  else { s with rcv := { s.rcv with out := s.rcv.out ++ (if s.rcv.nl && s.app then s.rcv.prefix_ else []) ++ shown c, nl := false } }

theorem mid_eq (s : Sys) (t : Text) (h : t.getLast? ≠ some 10) : Wv.Syslog.midLine s t = { s with rcv := { s.rcv with out := s.rcv.out ++ t } } := by
  unfold Wv.Syslog.midLine
  rw [LogRcv.mid_eq _ _ h]

theorem begin_eq (s : Sys) : Wv.Syslog.beginLine s = { s with rcv := { s.rcv with out := s.rcv.out ++ (if s.rcv.nl && s.app then s.rcv.prefix_ else []), nl := false } } := by
  unfold Wv.Syslog.beginLine
  obtain ⟨r, f, a, t⟩ := s
  obtain ⟨r1, r2, nl, r4, r5, r6, r7, r8⟩ := r
  cases nl <;> cases a <;> simp

theorem text_chars (t : Text) : ∀ (s : Sys), s.rcv.nl = false → (∀ c ∈ t, myIsprint c = true) →
    t.foldl charStep s = { s with rcv := { s.rcv with out := s.rcv.out ++ t } } := by
  induction t with
  | nil => intro s _ _; simp
  | cons c t ih =>
    intro s hs h
    obtain ⟨h1, h2, -, -⟩ := print_shown c (h c (by simp))
    rw [List.foldl_cons, ih _ (by simp [charStep, h2]) (fun d hd => h d (by simp [hd]))]
    simp [charStep, h2, h1, hs]

theorem loop_eq (f : Nat) : ∀ (b : Text) (s : Sys), b.length ≤ f → Wv.Syslog.logLoop f s b = b.foldl charStep s := by
  induction f with
  | zero => intro b s h; cases b with
    | nil => rfl
    | cons c b => simp at h
  | succ f ih =>
    intro b s h
    cases b with
    | nil => rfl
    | cons c b =>
      have hb : b.length ≤ f := by simpa using h
      rw [Wv.Syslog.logLoop, List.foldl_cons]
      by_cases h1 : c = 10 ∨ c = 13
      · rw [if_pos h1, ih _ _ hb, charStep, if_pos ((lineEnd_iff c).2 h1)]
      · have hne : lineEnd c = false := by
          cases hh : lineEnd c
          · rfl
          · exact absurd ((lineEnd_iff c).1 hh) h1
        rw [if_neg h1]
        dsimp only
        by_cases h2 : c = 9
        · rw [if_pos h2, ih _ _ hb, mid_eq _ _ (by simp), begin_eq]
          congr 1
          simp [charStep, hne, h2, shown]
          intro hh
          rw [h2] at hne
          exact absurd hh (by rw [hne]; simp)
        · rw [if_neg h2]
          cases h3 : myIsprint c with
          | false =>
            obtain ⟨k1, k2, k3⟩ := other_shown c h3 h2
            rw [if_pos (by simp), ih _ _ hb, mid_eq _ _ (by rw [← k1]; exact k3), begin_eq]
            congr 1
            simp [charStep, hne, k1]
          | true =>
            obtain ⟨k1, _, _, _⟩ := print_shown c h3
            rw [if_neg (by simp)]
            obtain ⟨p, hp⟩ : ∃ p : Byte → Bool, p = fun c => !(c == 10 || !myIsprint c) := ⟨_, rfl⟩
            rw [← hp]
            have hall : ∀ d ∈ b.takeWhile p, myIsprint d = true := by
              intro d hd
              have := List.all_eq_true.1 (List.all_takeWhile (p := p) (l := b)) d hd
              rw [hp] at this
              simp at this
              exact this.2
            have hlast : (c :: b.takeWhile p).getLast? ≠ some 10 := by
              intro e
              have := List.mem_of_getLast? e
              have h10 : myIsprint 10 = true := by
                rcases List.mem_cons.1 this with e' | e'
                · rw [e']; exact h3
                · exact hall 10 e'
              exact absurd h10 (by decide +kernel)
            rw [mid_eq _ _ hlast, begin_eq]
            have hd : (b.dropWhile p).length ≤ f := by
              have : (b.takeWhile p ++ b.dropWhile p).length = b.length := by rw [List.takeWhile_append_dropWhile]
              rw [List.length_append] at this
              omega
            rw [ih _ _ hd]
            conv => rhs; rw [← List.takeWhile_append_dropWhile (p := p) (l := b), List.foldl_append]
            congr 1
            rw [text_chars _ _ (by simp [charStep, hne]) hall]
            simp [charStep, hne, k1]

/-- The line that is being written: `q` of it is there. -/
structure Rep (m : Msg) (q : Text) (s : Sys) : Prop where
  pre : s.rcv.prefix_ = heading m
  lvl : s.rcv.lvl = m.lvl
  src : s.rcv.src = some m.src
  nl : s.rcv.nl = true ↔ q = []
  out : s.rcv.out = if q = [] then [] else (if s.app then heading m else []) ++ q.flatMap shown

theorem shown_ne (c : Byte) : shown c ≠ [] := by revert c; apply forall_byte; decide +kernel

/-- What does not change. -/
def Same (a b : Sys) : Prop := b.first = a.first ∧ b.app = a.app ∧ b.rcv.max = a.rcv.max ∧ b.rcv.custom = a.rcv.custom ∧ b.rcv.force = a.rcv.force

theorem Same.trans {a b c : Sys} (h1 : Same a b) (h2 : Same b c) : Same a c :=
  ⟨h2.1.trans h1.1, h2.2.1.trans h1.2.1, h2.2.2.1.trans h1.2.2.1, h2.2.2.2.1.trans h1.2.2.2.1, h2.2.2.2.2.trans h1.2.2.2.2⟩

theorem end_rep {m : Msg} {q : Text} {s : Sys} (h : Rep m q s) : Rep m [] (Wv.Syslog.endLine s) ∧ Same s (Wv.Syslog.endLine s) ∧
    (Wv.Syslog.endLine s).sent = s.sent ++ ([q].filter (· ≠ [])).filterMap (entry s.first s.app m) := by
  rw [endLine_eq]
  by_cases hq : q = []
  · rw [if_pos (h.nl.2 hq)]
    subst hq
    exact ⟨h, ⟨rfl, rfl, rfl, rfl, rfl⟩, by simp⟩
  · have hn : ¬ s.rcv.nl = true := fun e => hq (h.nl.1 e)
    rw [if_neg hn]
    refine ⟨⟨h.pre, h.lvl, h.src, by simp, by simp⟩, ⟨rfl, rfl, rfl, rfl, rfl⟩, ?_⟩
    dsimp only
    rw [List.filter_cons_of_pos (by simpa using hq), h.out, if_neg hq]
    unfold put entry
    rw [h.lvl]
    cases hp : priority s.first m.lvl with
    | none => simp [hp]
    | some p => simp [hp]

theorem pieces_cons (c : Byte) (t : Text) : Spec.Split.pieces lineEnd (c :: t) =
    if lineEnd c then [] :: Spec.Split.pieces lineEnd t else (c :: (Spec.Split.pieces lineEnd t).headD []) :: (Spec.Split.pieces lineEnd t).tail := rfl

/-- The pieces of a text, with something in front. -/
def front (q : Text) (l : List Text) : List Text := (q ++ l.headD []) :: l.tail

theorem chars_rep {m : Msg} (t : Text) : ∀ {q : Text} {s : Sys}, Rep m q s →
    ∃ z, (front q (Spec.Split.pieces lineEnd t)).getLast? = some z ∧ Rep m z (t.foldl charStep s) ∧ Same s (t.foldl charStep s) ∧
      (t.foldl charStep s).sent = s.sent ++ ((front q (Spec.Split.pieces lineEnd t)).dropLast.filter (· ≠ [])).filterMap (entry s.first s.app m) := by
  induction t with
  | nil =>
    intro q s h
    refine ⟨q, by simp [front, Spec.Split.pieces], h, ⟨rfl, rfl, rfl, rfl, rfl⟩, by simp [front, Spec.Split.pieces]⟩
  | cons c t ih =>
    intro q s h
    rw [List.foldl_cons, pieces_cons]
    obtain ⟨p, ps, hp⟩ := pieces_form t
    cases hc : lineEnd c with
    | true =>
      obtain ⟨e1, e2, e3⟩ := end_rep h
      have hs : charStep s c = Wv.Syslog.endLine s := by unfold charStep; rw [if_pos hc]
      rw [hs]
      obtain ⟨z, z1, z2, z3, z4⟩ := ih e1
      rw [hp] at z1 z4
      have hf : front [] (p :: ps) = p :: ps := by simp [front]
      rw [hf] at z1 z4
      refine ⟨z, ?_, z2, e2.trans z3, ?_⟩
      · rw [if_pos rfl, hp]
        simpa [front] using z1
      · rw [z4, e3, e2.1, e2.2.1, if_pos rfl, hp]
        simp only [front, List.headD_cons, List.append_nil, List.tail_cons, List.dropLast_cons₂]
        rw [List.append_assoc, ← List.filterMap_append, ← List.filter_append]
        rfl
    | false =>
      have hr : Rep m (q ++ [c]) (charStep s c) := by
        unfold charStep
        rw [if_neg (by simp [hc])]
        refine ⟨h.pre, h.lvl, h.src, by simp, ?_⟩
        dsimp only
        rw [if_neg (show q ++ [c] ≠ [] by simp), h.out, h.pre]
        by_cases hq : q = []
        · rw [if_pos hq, h.nl.2 hq, hq]; simp
        · have hn : s.rcv.nl = false := by cases hn : s.rcv.nl with
            | true => exact absurd (h.nl.1 hn) hq
            | false => rfl
          rw [if_neg hq, hn]; simp
      have hsame : Same s (charStep s c) := by
        unfold charStep
        rw [if_neg (by simp [hc])]
        exact ⟨rfl, rfl, rfl, rfl, rfl⟩
      have hsent : (charStep s c).sent = s.sent := by
        unfold charStep
        rw [if_neg (by simp [hc])]
      obtain ⟨z, z1, z2, z3, z4⟩ := ih hr
      have hfr : front (q ++ [c]) (Spec.Split.pieces lineEnd t) = front q ((c :: (Spec.Split.pieces lineEnd t).headD []) :: (Spec.Split.pieces lineEnd t).tail) := by
        simp [front]
      rw [hfr] at z1 z4
      refine ⟨z, ?_, z2, hsame.trans z3, ?_⟩
      · rw [if_neg (by simp)]; exact z1
      · rw [z4, hsent, hsame.1, hsame.2.1, if_neg (by simp)]

def enter (s : Sys) (m : Msg) : Sys :=
  if some m.src ≠ s.rcv.src ∨ m.lvl ≠ s.rcv.lvl ∨ s.rcv.force = true then
    { Wv.Syslog.endLine s with rcv := makePrefix { (Wv.Syslog.endLine s).rcv with src := some m.src, lvl := m.lvl } }
  else s

theorem log_eq (s : Sys) (m : Msg) (h : m.lvl ≤ threshold s.rcv m.src) : Wv.Syslog.log s m = m.text.foldl charStep (enter s m) := by
  unfold Wv.Syslog.log
  rw [if_neg (by omega)]
  dsimp only
  rw [loop_eq _ _ _ (Nat.le_refl _)]
  rfl

/-- Some message was the last. -/
def Good (s : Sys) : Prop := (s.rcv.nl = true ∧ s.rcv.out = [] ∧ s.rcv.src = none) ∨ ∃ m q, Rep m q s

theorem enter_new {s : Sys} (hg : Good s) (m : Msg) (hl : m.lvl < 10) (hf : some m.src ≠ s.rcv.src ∨ m.lvl ≠ s.rcv.lvl ∨ s.rcv.force = true) :
    Rep m [] (enter s m) ∧ Same s (enter s m) ∧ (enter s m).sent = (Wv.Syslog.endLine s).sent := by
  unfold enter
  rw [if_pos hf]
  have hp := heading_eq m hl (Wv.Syslog.endLine s).rcv
  rcases hg with ⟨h1, h2, h3⟩ | ⟨n, q, h⟩
  · have : Wv.Syslog.endLine s = s := by rw [endLine_eq, if_pos h1]
    rw [this] at hp ⊢
    refine ⟨⟨hp, rfl, rfl, ?_, ?_⟩, ⟨rfl, rfl, rfl, rfl, rfl⟩, rfl⟩
    · show s.rcv.nl = true ↔ _
      simp [h1]
    · show s.rcv.out = _
      simp [h2]
  · obtain ⟨e1, e2, e3⟩ := end_rep h
    refine ⟨⟨hp, rfl, rfl, ?_, ?_⟩, e2, rfl⟩
    · show (Wv.Syslog.endLine s).rcv.nl = true ↔ _
      exact e1.nl
    · show (Wv.Syslog.endLine s).rcv.out = _
      rw [e1.out]; simp

theorem threshold_congr' (s s' : Sys) (h : Same s s') (src : Text) : threshold s'.rcv src = threshold s.rcv src :=
  threshold_congr _ _ h.2.2.1 h.2.2.2.1 src

theorem filter_split (f : Nat) (a : Bool) (m : Msg) (l : List Text) (z : Text) (h : l.getLast? = some z) :
    (l.dropLast.filter (· ≠ [])).filterMap (entry f a m) ++ ([z].filter (· ≠ [])).filterMap (entry f a m) = (l.filter (· ≠ [])).filterMap (entry f a m) := by
  have : l = l.dropLast ++ [z] := by
    obtain ⟨ys, hys⟩ := List.getLast?_eq_some_iff.1 h
    rw [hys]; simp
  conv => rhs; rw [this]
  rw [List.filter_append, List.filterMap_append]

/-- A message with a heading of its own. -/
theorem log_fresh {s : Sys} (hg : Good s) (m : Msg) (h : m.lvl ≤ threshold s.rcv m.src) (hl : m.lvl < 10)
    (hf : some m.src ≠ s.rcv.src ∨ m.lvl ≠ s.rcv.lvl ∨ s.rcv.force = true) :
    Good (Wv.Syslog.log s m) ∧ Same s (Wv.Syslog.log s m) ∧ (Wv.Syslog.log s m).rcv.src = some m.src ∧ (Wv.Syslog.log s m).rcv.lvl = m.lvl ∧
    (Wv.Syslog.log s m).sent = (Wv.Syslog.endLine s).sent ++ ended s.first s.app m ∧
    (Wv.Syslog.endLine (Wv.Syslog.log s m)).sent = (Wv.Syslog.endLine s).sent ++ entries s.first s.app m := by
  rw [log_eq s m h]
  obtain ⟨h1, h2, h3⟩ := enter_new hg m hl hf
  obtain ⟨z, z1, z2, z3, z4⟩ := chars_rep m.text h1
  obtain ⟨p, ps, hp⟩ := pieces_form m.text
  have hfr : front [] (Spec.Split.pieces lineEnd m.text) = Spec.Split.pieces lineEnd m.text := by rw [hp]; simp [front]
  rw [hfr] at z1 z4
  have hs := h2.trans z3
  refine ⟨Or.inr ⟨m, z, z2⟩, hs, z2.src, z2.lvl, ?_, ?_⟩
  · rw [z4, h3, h2.1, h2.2.1]; rfl
  · rw [(end_rep z2).2.2, z4, h3, h2.1, h2.2.1, hs.1, hs.2.1, List.append_assoc, filter_split _ _ _ _ _ z1]; rfl

theorem logs_out (l : List Msg) : ∀ (s : Sys), Good s → (∀ m ∈ l, m.lvl ≤ threshold s.rcv m.src ∧ m.lvl < 10) →
    (s.rcv.force = true ∨ (Apart l ∧ ∀ m, l.head? = some m → some m.src ≠ s.rcv.src ∨ m.lvl ≠ s.rcv.lvl)) →
    (l ≠ [] → (l.foldl Wv.Syslog.log s).sent = (Wv.Syslog.endLine s).sent ++ Spec.Syslog.sent s.first s.app l) ∧
    (Wv.Syslog.endLine (l.foldl Wv.Syslog.log s)).sent = (Wv.Syslog.endLine s).sent ++ l.flatMap (entries s.first s.app) := by
  induction l with
  | nil => intro s _ _ _; simp
  | cons m l ih =>
    intro s hg ha hf
    have hm := ha m (by simp)
    have hf1 : some m.src ≠ s.rcv.src ∨ m.lvl ≠ s.rcv.lvl ∨ s.rcv.force = true := by
      rcases hf with h | h
      · exact Or.inr (Or.inr h)
      · rcases h.2 m rfl with h | h
        · exact Or.inl h
        · exact Or.inr (Or.inl h)
    obtain ⟨g1, g2, k4, k5, h1, h2⟩ := log_fresh hg m hm.1 hm.2 hf1
    obtain ⟨i1, i2⟩ := ih (Wv.Syslog.log s m) g1 (fun n hn => by
      rw [threshold_congr' _ _ g2]; exact ha n (by simp [hn])) (by
      rcases hf with h | h
      · exact Or.inl (g2.2.2.2.2.trans h)
      · refine Or.inr ?_
        cases l with
        | nil => exact ⟨trivial, fun _ h => by cases h⟩
        | cons n l =>
          refine ⟨h.1.2, fun x hx => ?_⟩
          simp at hx
          subst hx
          rw [k4, k5]
          rcases h.1.1 with h | h
          · exact Or.inl (by simpa using h)
          · exact Or.inr h)
    rw [g2.1, g2.2.1] at i1 i2
    rw [List.foldl_cons]
    refine ⟨fun _ => ?_, by rw [i2, h2]; simp⟩
    cases l with
    | nil => simp [Spec.Syslog.sent, h1]
    | cons n l =>
      rw [i1 (by simp), h2]
      simp [Spec.Syslog.sent]

theorem endLine_same (s : Sys) : Same s (Wv.Syslog.endLine s) ∧ (Wv.Syslog.endLine s).rcv.src = s.rcv.src ∧ (Wv.Syslog.endLine s).rcv.lvl = s.rcv.lvl := by
  rw [endLine_eq]
  split
  · exact ⟨⟨rfl, rfl, rfl, rfl, rfl⟩, rfl, rfl⟩
  · exact ⟨⟨rfl, rfl, rfl, rfl, rfl⟩, rfl, rfl⟩

theorem charStep_same (s : Sys) (c : Byte) : Same s (charStep s c) ∧ (charStep s c).rcv.src = s.rcv.src ∧ (charStep s c).rcv.lvl = s.rcv.lvl := by
  unfold charStep
  split
  · exact endLine_same s
  · exact ⟨⟨rfl, rfl, rfl, rfl, rfl⟩, rfl, rfl⟩

theorem chars_same (t : Text) : ∀ s, Same s (t.foldl charStep s) ∧ (t.foldl charStep s).rcv.src = s.rcv.src ∧ (t.foldl charStep s).rcv.lvl = s.rcv.lvl := by
  induction t with
  | nil => intro s; exact ⟨⟨rfl, rfl, rfl, rfl, rfl⟩, rfl, rfl⟩
  | cons c t ih =>
    intro s
    obtain ⟨a1, a2, a3⟩ := charStep_same s c
    obtain ⟨b1, b2, b3⟩ := ih (charStep s c)
    exact ⟨a1.trans b1, b2.trans a2, b3.trans a3⟩

theorem log_same (s : Sys) (m : Msg) : Same s (Wv.Syslog.log s m) ∧
    (m.lvl ≤ threshold s.rcv m.src → (Wv.Syslog.log s m).rcv.src = some m.src ∧ (Wv.Syslog.log s m).rcv.lvl = m.lvl) := by
  by_cases h : m.lvl ≤ threshold s.rcv m.src
  · rw [log_eq s m h]
    obtain ⟨b1, b2, b3⟩ := chars_same m.text (enter s m)
    have he : Same s (enter s m) ∧ (enter s m).rcv.src = some m.src ∧ (enter s m).rcv.lvl = m.lvl := by
      unfold enter
      split
      · exact ⟨(endLine_same s).1, rfl, rfl⟩
      · rename_i hc
        refine ⟨⟨rfl, rfl, rfl, rfl, rfl⟩, ?_, ?_⟩
        · by_cases e : some m.src = s.rcv.src
          · exact e.symm
          · exact absurd (Or.inl e) hc
        · by_cases e : m.lvl = s.rcv.lvl
          · exact e.symm
          · exact absurd (Or.inr (Or.inl e)) hc
    exact ⟨he.1.trans b1, fun _ => ⟨b2.trans he.2.1, b3.trans he.2.2⟩⟩
  · have : Wv.Syslog.log s m = s := by unfold Wv.Syslog.log; rw [if_pos (by omega)]
    rw [this]
    exact ⟨⟨rfl, rfl, rfl, rfl, rfl⟩, fun x => absurd x h⟩

theorem log_append (r : Sys) (s : Text) (l : Nat) (t u : Text) (hf : r.rcv.force = false) :
    Wv.Syslog.log (Wv.Syslog.log r ⟨s, l, t⟩) ⟨s, l, u⟩ = Wv.Syslog.log r ⟨s, l, t ++ u⟩ := by
  by_cases h : l ≤ threshold r.rcv s
  · obtain ⟨a, d⟩ := log_same r ⟨s, l, t⟩
    obtain ⟨d1, d2⟩ := d h
    have he : enter (Wv.Syslog.log r ⟨s, l, t⟩) ⟨s, l, u⟩ = Wv.Syslog.log r ⟨s, l, t⟩ := by
      rw [enter, if_neg (by rw [d1, d2, a.2.2.2.2, hf]; simp)]
    rw [log_eq (Wv.Syslog.log r ⟨s, l, t⟩) _ (by rw [threshold_congr' _ _ a]; exact h), he, log_eq r ⟨s, l, t⟩ (show l ≤ _ from h),
      log_eq r ⟨s, l, t ++ u⟩ (show l ≤ _ from h), ← List.foldl_append]
    rfl
  · have : ∀ t, Wv.Syslog.log r ⟨s, l, t⟩ = r := by intro t; unfold Wv.Syslog.log; rw [if_pos (by dsimp only; omega)]
    rw [this, this, this]

theorem together_log (msgs : List Msg) : ∀ (r : Sys), r.rcv.force = false → (together msgs).foldl Wv.Syslog.log r = msgs.foldl Wv.Syslog.log r := by
  induction msgs with
  | nil => intro r _; rfl
  | cons m l ih =>
    intro r hf
    have := ih (Wv.Syslog.log r m) ((log_same r m).1.2.2.2.2.trans hf)
    rw [List.foldl_cons, ← this, together]
    cases h : together l with
    | nil => rfl
    | cons n l' =>
      dsimp only
      split
      · rename_i hh
        rw [List.foldl_cons, List.foldl_cons]
        congr 1
        rw [← log_append r m.src m.lvl m.text n.text hf]
        congr 1
        rw [← hh.1, ← hh.2]
      · rfl

theorem log_filter (lim : Text → Nat) (l : List Msg) : ∀ (r : Sys), (∀ s, threshold r.rcv s = lim s) →
    (l.filter fun m => decide (m.lvl ≤ lim m.src)).foldl Wv.Syslog.log r = l.foldl Wv.Syslog.log r := by
  induction l with
  | nil => intro r _; rfl
  | cons m l ih =>
    intro r h
    have hk := ih (Wv.Syslog.log r m) (fun s => by rw [threshold_congr' _ _ (log_same r m).1]; exact h s)
    by_cases hm : m.lvl ≤ lim m.src
    · rw [List.filter_cons_of_pos (by simpa using hm), List.foldl_cons, List.foldl_cons, hk]
    · have : Wv.Syslog.log r m = r := by unfold Wv.Syslog.log; rw [if_pos (by rw [h]; omega)]
      rw [List.filter_cons_of_neg (by simpa using hm), List.foldl_cons, this]
      rw [this] at hk
      exact hk

end SysP

/-- C115: every line of every message up to the level of its source is sent to the system log, once, in order, when it ends (or in the end), with the priority of
    its level, if that has one; empty lines are left out, and messages that go on a line of the same source and level are joined. -/
theorem C115_sent (descr : List Byte) (ok : Bool) (rules custom : List Rule) (max first : Nat) (app : Bool) (msgs : List Msg)
    (h : setCustomLevels descr = some (ok, rules)) (hp : custom.Perm rules) (hl : ∀ m ∈ msgs, m.lvl < 10) :
    ∃ limit : List Byte → Nat, (∀ src, Limit max rules src (limit src)) ∧
      (msgs.foldl Wv.Syslog.log (Wv.Syslog.new max custom false first app)).sent = Spec.Syslog.sent first app (together (msgs.filter fun m => decide (m.lvl ≤ limit m.src))) ∧
      (Wv.Syslog.destroy (msgs.foldl Wv.Syslog.log (Wv.Syslog.new max custom false first app))).sent =
        (together (msgs.filter fun m => decide (m.lvl ≤ limit m.src))).flatMap (entries first app) := by
  refine ⟨threshold (LogRcv.new max custom false), Lr.limits descr ok rules custom max false h hp, ?_⟩
  rw [← SysP.log_filter (threshold (LogRcv.new max custom false)) msgs _ (fun _ => rfl)]
  generalize hms : (msgs.filter fun m => decide (m.lvl ≤ threshold (LogRcv.new max custom false) m.src)) = ms
  have ha : ∀ m ∈ ms, m.lvl ≤ threshold (LogRcv.new max custom false) m.src ∧ m.lvl < 10 := by
    intro m hm
    rw [← hms, List.mem_filter] at hm
    exact ⟨by simpa using hm.2, hl m hm.1⟩
  rw [← SysP.together_log ms _ rfl]
  have := SysP.logs_out (together ms) (Wv.Syslog.new max custom false first app) (Or.inl ⟨rfl, rfl, rfl⟩) (fun m hm => by
    obtain ⟨n, hn, e1, e2⟩ := together_mem ms m hm
    rw [← e1, ← e2]; exact ha n hn) (Or.inr ⟨together_apart ms, fun m _ => Or.inl (by simp [Wv.Syslog.new, LogRcv.new])⟩)
  have e0 : (Wv.Syslog.endLine (Wv.Syslog.new max custom false first app)).sent = [] := rfl
  rw [e0] at this
  refine ⟨?_, this.2⟩
  by_cases hn : together ms = []
  · rw [hn]; rfl
  · exact this.1 hn

/-- C115: when each message begins a new line. -/
theorem C115_force (descr : List Byte) (ok : Bool) (rules custom : List Rule) (max first : Nat) (app : Bool) (msgs : List Msg)
    (h : setCustomLevels descr = some (ok, rules)) (hp : custom.Perm rules) (hl : ∀ m ∈ msgs, m.lvl < 10) :
    ∃ limit : List Byte → Nat, (∀ src, Limit max rules src (limit src)) ∧
      (msgs.foldl Wv.Syslog.log (Wv.Syslog.new max custom true first app)).sent = Spec.Syslog.sent first app (msgs.filter fun m => decide (m.lvl ≤ limit m.src)) ∧
      (Wv.Syslog.destroy (msgs.foldl Wv.Syslog.log (Wv.Syslog.new max custom true first app))).sent =
        (msgs.filter fun m => decide (m.lvl ≤ limit m.src)).flatMap (entries first app) := by
  refine ⟨threshold (LogRcv.new max custom true), Lr.limits descr ok rules custom max true h hp, ?_⟩
  rw [← SysP.log_filter (threshold (LogRcv.new max custom true)) msgs _ (fun _ => rfl)]
  generalize hms : (msgs.filter fun m => decide (m.lvl ≤ threshold (LogRcv.new max custom true) m.src)) = ms
  have ha : ∀ m ∈ ms, m.lvl ≤ threshold (LogRcv.new max custom true) m.src ∧ m.lvl < 10 := by
    intro m hm
    rw [← hms, List.mem_filter] at hm
    exact ⟨by simpa using hm.2, hl m hm.1⟩
  have := SysP.logs_out ms (Wv.Syslog.new max custom true first app) (Or.inl ⟨rfl, rfl, rfl⟩) ha (Or.inl rfl)
  have e0 : (Wv.Syslog.endLine (Wv.Syslog.new max custom true first app)).sent = [] := rfl
  rw [e0] at this
  refine ⟨?_, this.2⟩
  by_cases hn : ms = []
  · rw [hn]; rfl
  · exact this.1 hn

/-- A case: two parts of a line, a second line, a debug message that is not sent and one that is not finished. -/
example : ((Wv.Syslog.new 9 [] false 6 true |> fun s => [(⟨str ['a'], 3, str ['x', '\t']⟩ : Msg), ⟨str ['a'], 3, str ['y', '\n', '\n', 'z']⟩, ⟨str ['b'], 6, str ['q', '\n']⟩,
      ⟨str ['b'], 5, str ['u']⟩].foldl Wv.Syslog.log s) |> fun s => (s.sent, (Wv.Syslog.destroy s).sent.drop s.sent.length)) =
    ([(5, str ['a', '<', 'N', 'o', 't', 'i', 'c', 'e', '>', ':', ' ', 'x', ' ', 'y', '\n']), (5, str ['a', '<', 'N', 'o', 't', 'i', 'c', 'e', '>', ':', ' ', 'z', '\n'])],
      [(6, str ['b', '<', '*', '1', '>', ':', ' ', 'u', '\n'])]) := by decide +kernel

/-- C115 fails: with a receiver that shows debug messages of all levels, those above the first are not sent, whatever `first` is. -/
theorem C115_debug_fails : ¬ ∀ (first : Nat) (m : Msg), m.lvl < 10 → m.lvl < first → m.text = str ['x', '\n'] →
    (Wv.Syslog.log (Wv.Syslog.new 10 [] false first true) m).sent ≠ [] := by
  intro h
  exact absurd (h 9 ⟨str ['a'], 6, str ['x', '\n']⟩ (by decide) (by decide) rfl) (by decide +kernel)

end Props
