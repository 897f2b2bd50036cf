import Verif.Model.ColorLog
import Verif.Spec.ColorLog
import Verif.Lemmas.LogRcv
namespace Props
open Wv Wv.ColorLog Spec.ColorLog
open Wv.Log (myIsprint xdigit)
open Wv.LogRcv (Text Msg Rcv makePrefix threshold)
open Spec.LogRcv (Rule)

namespace ClP

theorem screen_append (a b : List Byte) : screen (a ++ b) = b.foldl Term.byte (screen a) := List.foldl_append

theorem feed_start (l : Look) (k : List Mark) (lvl : Nat) : (startSeq lvl).foldl Term.byte ⟨.ground, l, k⟩ = ⟨.ground, look lvl, k⟩ := by
  obtain ⟨bg, fg, br⟩ := l
  unfold startSeq
  match lvl with
  | 0 => rfl
  | 1 => rfl
  | 2 => rfl
  | n + 3 => rw [if_neg (by omega), if_neg (by omega)]; rfl

theorem feed_clear (l : Look) (k : List Mark) : clearSeq.foldl Term.byte ⟨.ground, l, k⟩ = ⟨.ground, l, k ++ [.clear l]⟩ := rfl

theorem feed_end (l : Look) (k : List Mark) : endSeq.foldl Term.byte ⟨.ground, l, k⟩ = ⟨.ground, normal, k⟩ := rfl

theorem feed_text (l : Look) (b : List Byte) : ∀ (k : List Mark), 27 ∉ b →
    b.foldl Term.byte ⟨.ground, l, k⟩ = ⟨.ground, l, k ++ b.map (.char · l)⟩ := by
  induction b with
  | nil => intro k _; simp
  | cons c b ih =>
    intro k hb
    simp only [List.mem_cons, not_or] at hb
    have h1 : Term.byte ⟨.ground, l, k⟩ c = ⟨.ground, l, k ++ [.char c l]⟩ := by
      unfold Term.byte
      simp only
      rw [if_neg (fun e => hb.1 e.symm)]
    rw [List.foldl_cons, h1, ih _ hb.2]
    simp

theorem restored_screen {a : List Byte} (h : Restored a) : screen a = ⟨.ground, normal, (screen a).marks⟩ := by
  obtain ⟨h1, h2⟩ := h
  generalize screen a = t at h1 h2 ⊢
  obtain ⟨m, l, k⟩ := t
  simp only at h1 h2
  rw [h1, h2]

theorem shown_text (b : List Byte) (l : Look) : (b.map (Mark.char · l)).filterMap Mark.shown = b.map (·, l) := by
  induction b with
  | nil => rfl
  | cons c b ih => simp [Mark.shown] at ih ⊢; exact ih

/-- What a step adds: the same text to both consoles, in the colour of the level. -/
structure Adds (p c p' c' : Rcv) : Prop where
  same : c' = { p' with out := c'.out }
  lvl : p'.lvl = p.lvl
  pre : p'.prefix_ = p.prefix_
  rest : Restored c'.out
  ext : ∃ t, p'.out = p.out ++ t ∧ chars c'.out = chars c.out ++ t.map (·, look p.lvl)

theorem Adds.trans {p c p' c' p'' c'' : Rcv} (h : Adds p c p' c') (g : Adds p' c' p'' c'') : Adds p c p'' c'' := by
  obtain ⟨t, a, b⟩ := h.ext
  obtain ⟨u, a', b'⟩ := g.ext
  exact ⟨g.same, g.lvl.trans h.lvl, g.pre.trans h.pre, g.rest, t ++ u, (by rw [a', a, List.append_assoc]),
    (by rw [b', b, h.lvl]; simp)⟩

theorem Adds.refl {p c : Rcv} (h : c = { p with out := c.out }) (hr : Restored c.out) : Adds p c p c :=
  ⟨h, rfl, rfl, hr, [], (by simp), (by simp)⟩

/-- A text between the sequences. -/
theorem wrapped (a : List Byte) (lvl : Nat) (t : Text) (h : Restored a) (ht : 27 ∉ t) :
    Restored (a ++ startSeq lvl ++ t ++ clearSeq ++ endSeq) ∧
    chars (a ++ startSeq lvl ++ t ++ clearSeq ++ endSeq) = chars a ++ t.map (·, look lvl) := by
  have e : screen (a ++ startSeq lvl ++ t ++ clearSeq ++ endSeq) =
      ⟨.ground, normal, (screen a).marks ++ t.map (.char · (look lvl)) ++ [.clear (look lvl)]⟩ := by
    rw [screen_append, screen_append, screen_append, screen_append, restored_screen h, feed_start, feed_text _ t _ ht,
      feed_clear, feed_end]
  unfold Restored chars
  rw [e]
  refine ⟨⟨rfl, rfl⟩, ?_⟩
  simp only [List.filterMap_append, shown_text]
  simp [Mark.shown]

/-- The sequences inside the sequences. -/
theorem wrapped2 (a : List Byte) (lvl : Nat) (t : Text) (h : Restored a) (ht : 27 ∉ t) :
    Restored (a ++ startSeq lvl ++ startSeq lvl ++ t ++ clearSeq ++ endSeq ++ clearSeq ++ endSeq) ∧
    chars (a ++ startSeq lvl ++ startSeq lvl ++ t ++ clearSeq ++ endSeq ++ clearSeq ++ endSeq) = chars a ++ t.map (·, look lvl) := by
  have e : screen (a ++ startSeq lvl ++ startSeq lvl ++ t ++ clearSeq ++ endSeq ++ clearSeq ++ endSeq) =
      ⟨.ground, normal, (screen a).marks ++ t.map (.char · (look lvl)) ++ [.clear (look lvl)] ++ [.clear normal]⟩ := by
    rw [screen_append, screen_append, screen_append, screen_append, screen_append, screen_append, screen_append,
      restored_screen h, feed_start, feed_start, feed_text _ t _ ht, feed_clear, feed_end, feed_clear, feed_end]
  unfold Restored chars
  rw [e]
  refine ⟨⟨rfl, rfl⟩, ?_⟩
  simp only [List.filterMap_append, shown_text]
  simp [Mark.shown]

theorem mid_adds (p c : Rcv) (t : Text) (h : c = { p with out := c.out }) (hr : Restored c.out) (ht : 27 ∉ t) :
    Adds p c (LogRcv.midLine p t) (midLine true c t) := by
  have hl : c.lvl = p.lvl := by rw [h]
  have e : vmid true c t = { c with out := c.out ++ startSeq c.lvl ++ t ++ clearSeq ++ endSeq } := rfl
  obtain ⟨w1, w2⟩ := wrapped c.out c.lvl t hr ht
  unfold LogRcv.midLine midLine
  dsimp only
  rw [e]
  split
  · exact ⟨(by rw [h]), rfl, rfl, w1, t, rfl, (by rw [← hl]; exact w2)⟩
  · exact ⟨(by rw [h]), rfl, rfl, w1, t, rfl, (by rw [← hl]; exact w2)⟩

theorem begin_adds (p c : Rcv) (h : c = { p with out := c.out }) (hr : Restored c.out) (ht : 27 ∉ p.prefix_) :
    Adds p c (LogRcv.beginLine p) (beginLine true c) := by
  have hn : c.nl = p.nl := by rw [h]
  have hl : c.lvl = p.lvl := by rw [h]
  have hp : c.prefix_ = p.prefix_ := by rw [h]
  rw [LogRcv.begin_eq]
  unfold beginLine
  rw [hn]
  cases hc : p.nl
  · have : ({ p with out := p.out ++ (if false = true then p.prefix_ else []), nl := false } : Rcv) = p := by
      obtain ⟨a1, a2, a3, a4, a5, a6, a7, a8⟩ := p
      simp at hc ⊢
      exact hc
    rw [this]
    exact Adds.refl h hr
  · obtain ⟨w1, w2⟩ := wrapped2 c.out c.lvl c.prefix_ hr (by rw [hp]; exact ht)
    have e : ({ vbegin true c with nl := false } : Rcv) =
        { c with out := c.out ++ startSeq c.lvl ++ startSeq c.lvl ++ c.prefix_ ++ clearSeq ++ endSeq ++ clearSeq ++ endSeq,
                 nl := false } := by
      unfold vbegin midLine vmid raw
      simp only [if_true]
      split <;> rfl
    simp only [Bool.not_true, Bool.false_eq_true, if_false, if_true]
    rw [e]
    exact ⟨(by rw [h]), rfl, rfl, w1, p.prefix_, rfl, (by rw [← hl, ← hp]; exact w2)⟩

theorem end_adds (p c : Rcv) (h : c = { p with out := c.out }) (hr : Restored c.out) :
    Adds p c (LogRcv.endLine p) (endLine true c) := by
  have hn : c.nl = p.nl := by rw [h]
  have hl : c.lvl = p.lvl := by rw [h]
  unfold LogRcv.endLine endLine
  rw [hn]
  cases hc : p.nl
  · obtain ⟨w1, w2⟩ := wrapped c.out c.lvl [10] hr (by decide)
    obtain ⟨v1, v2⟩ := wrapped _ c.lvl [] w1 (by simp)
    have e : ({ vend true (vmid true c [10]) with nl := true } : Rcv) =
        { c with out := c.out ++ startSeq c.lvl ++ [10] ++ clearSeq ++ endSeq ++ startSeq c.lvl ++ [] ++ clearSeq ++ endSeq,
                 nl := true } := by
      unfold vend vmid raw
      simp only [if_true, List.append_nil]
    simp only [Bool.false_eq_true, if_false]
    rw [e]
    exact ⟨(by rw [h]), rfl, rfl, v1, [10], rfl, (by rw [← hl]; rw [v2, w2]; simp)⟩
  · simp only [if_true]
    exact Adds.refl h hr

theorem print_esc (c : Byte) : myIsprint c = true → c ≠ 27 := by revert c; apply forall_byte; decide +kernel
theorem hex_esc (c : Byte) : 27 ∉ [ch '[', xdigit (c.toNat / 16), xdigit (c.toNat % 16), ch ']'] := by
  revert c; apply forall_byte; decide +kernel

theorem loop_adds (f : Nat) : ∀ (b : Text) (p c : Rcv), c = { p with out := c.out } → Restored c.out → 27 ∉ p.prefix_ →
    Adds p c (LogRcv.logLoop f p b) (logLoop true f c b) := by
  induction f with
  | zero => intro b p c h hr _; exact Adds.refl h hr
  | succ f ih =>
    intro b p c h hr hp
    cases b with
    | nil => exact Adds.refl h hr
    | cons x b =>
      rw [LogRcv.logLoop, logLoop]
      by_cases h1 : x = 10 ∨ x = 13
      · rw [if_pos h1, if_pos h1]
        have e := end_adds p c h hr
        exact e.trans (ih b _ _ e.same e.rest (by rw [e.pre]; exact hp))
      · rw [if_neg h1, if_neg h1]
        dsimp only
        have e := begin_adds p c h hr hp
        have go : ∀ t u, 27 ∉ t → Adds p c (LogRcv.logLoop f (LogRcv.midLine (LogRcv.beginLine p) t) u)
            (logLoop true f (midLine true (beginLine true c) t) u) := by
          intro t u ht
          have g := mid_adds _ _ t e.same e.rest ht
          exact (e.trans g).trans (ih u _ _ g.same g.rest (by rw [g.pre, e.pre]; exact hp))
        by_cases h2 : x = 9
        · rw [if_pos h2, if_pos h2]
          exact go _ _ (by decide)
        · rw [if_neg h2, if_neg h2]
          by_cases h3 : myIsprint x = true
          · rw [if_neg (by simp [h3]), if_neg (by simp [h3])]
            refine go _ _ ?_
            intro hm
            rcases List.mem_cons.1 hm with e | e
            · exact print_esc x h3 e.symm
            · have := List.all_takeWhile (l := b) (p := fun c : Byte => !(c == 10 || !myIsprint c))
              rw [List.all_eq_true] at this
              have := this 27 e
              simp at this
              exact print_esc 27 this rfl
          · have h3 : myIsprint x = false := by simpa using h3
            rw [if_pos (by simp [h3]), if_pos (by simp [h3])]
            exact go _ _ (hex_esc x)

theorem levels_esc (n : Nat) : 27 ∉ (LogRcv.loglevels[n]?.getD []) := by
  match n with
  | 0 | 1 | 2 | 3 | 4 | 5 | 6 | 7 | 8 | 9 => decide +kernel
  | n + 10 => simp [LogRcv.loglevels]

/-- Both consoles are in the same state, apart from what they have written. -/
structure Twin (p c : Rcv) : Prop where
  same : c = { p with out := c.out }
  rest : Restored c.out
  pre : 27 ∉ p.prefix_
  text : (chars c.out).map (·.1) = p.out

theorem map_pair (t : List Byte) (l : Look) : (t.map (·, l)).map (·.1) = t := by
  induction t with
  | nil => rfl
  | cons x t ih => simp only [List.map_cons, ih]

theorem adds_text {p c p' c' : Rcv} (h : Adds p c p' c') (ht : (chars c.out).map (·.1) = p.out) : (chars c'.out).map (·.1) = p'.out := by
  obtain ⟨t, a, b⟩ := h.ext
  rw [a, b, List.map_append, ht, map_pair]

/-- One message. -/
theorem log_twin (p c : Rcv) (m : Msg) (h : Twin p c) (hm : 27 ∉ m.src) :
    Twin (LogRcv.log p m) (log true c m) ∧
    (m.lvl ≤ threshold p m.src → (LogRcv.log p m).lvl = m.lvl) ∧
    (¬ m.lvl ≤ threshold p m.src → LogRcv.log p m = p) ∧
    ∃ e t, (e = [] ∨ (e = [10] ∧ p.nl = false)) ∧ (LogRcv.log p m).out = p.out ++ e ++ t ∧
      chars (log true c m).out = chars c.out ++ e.map (·, look p.lvl) ++ t.map (·, look m.lvl) := by
  have hth : threshold c m.src = threshold p m.src := LogRcv.threshold_congr _ _ (by rw [h.same]) (by rw [h.same]) _
  have hk := LogRcv.log_keeps p m
  by_cases hl : m.lvl > threshold p m.src
  · have e1 : LogRcv.log p m = p := by unfold LogRcv.log; rw [if_pos hl]
    have e2 : log true c m = c := by unfold log; rw [if_pos (by rw [hth]; exact hl)]
    rw [e1, e2]
    exact ⟨h, fun h' => absurd h' (by omega), fun _ => rfl, [], [], Or.inl rfl, (by simp), (by simp)⟩
  · refine ⟨?_, fun h' => (hk.2.2.2 h').2, fun h' => absurd h' (by omega), ?_⟩
    all_goals
      have hs : c.src = p.src := by rw [h.same]
      have hv : c.lvl = p.lvl := by rw [h.same]
      have hf : c.force = p.force := by rw [h.same]
      have ep : LogRcv.log p m = LogRcv.logLoop m.text.length (if some m.src ≠ p.src ∨ m.lvl ≠ p.lvl ∨ p.force = true then
          makePrefix { LogRcv.endLine p with src := some m.src, lvl := m.lvl } else p) m.text := by
        unfold LogRcv.log; rw [if_neg hl]
      have ec : log true c m = logLoop true m.text.length (if some m.src ≠ p.src ∨ m.lvl ≠ p.lvl ∨ p.force = true then
          makePrefix { endLine true c with src := some m.src, lvl := m.lvl } else c) m.text := by
        unfold log; rw [if_neg (by rw [hth]; exact hl), hs, hv, hf]
      rw [ep, ec]
    all_goals by_cases hd : some m.src ≠ p.src ∨ m.lvl ≠ p.lvl ∨ p.force = true
    · rw [if_pos hd, if_pos hd]
      have e := end_adds p c h.same h.rest
      have hp : 27 ∉ (makePrefix { LogRcv.endLine p with src := some m.src, lvl := m.lvl }).prefix_ := by
        simp only [makePrefix, Option.getD_some, List.mem_append, not_or]
        exact ⟨⟨⟨hm, (by decide)⟩, levels_esc _⟩, (by decide)⟩
      have g := loop_adds m.text.length m.text (makePrefix { LogRcv.endLine p with src := some m.src, lvl := m.lvl })
        (makePrefix { endLine true c with src := some m.src, lvl := m.lvl }) (by rw [e.same]; rfl) e.rest hp
      exact ⟨g.same, g.rest, (by rw [g.pre]; exact hp), adds_text g (show (chars (endLine true c).out).map (·.1) = (LogRcv.endLine p).out from adds_text e h.text)⟩
    · rw [if_neg hd, if_neg hd]
      have g := loop_adds m.text.length m.text p c h.same h.rest h.pre
      exact ⟨g.same, g.rest, (by rw [g.pre]; exact h.pre), adds_text g h.text⟩
    · rw [if_pos hd, if_pos hd]
      have e := end_adds p c h.same h.rest
      have hp : 27 ∉ (makePrefix { LogRcv.endLine p with src := some m.src, lvl := m.lvl }).prefix_ := by
        simp only [makePrefix, Option.getD_some, List.mem_append, not_or]
        exact ⟨⟨⟨hm, (by decide)⟩, levels_esc _⟩, (by decide)⟩
      have g := loop_adds m.text.length m.text (makePrefix { LogRcv.endLine p with src := some m.src, lvl := m.lvl })
        (makePrefix { endLine true c with src := some m.src, lvl := m.lvl }) (by rw [e.same]; rfl) e.rest hp
      obtain ⟨t, a, b⟩ := g.ext
      obtain ⟨u, a', b'⟩ := e.ext
      have hu : u = [] ∨ (u = [10] ∧ p.nl = false) := by
        unfold LogRcv.endLine at a'
        split at a'
        · left
          exact List.self_eq_append_right.1 a'
        · rename_i hnl
          right
          exact ⟨(List.append_cancel_left a').symm, (by simpa using hnl)⟩
      exact ⟨u, t, hu, (by rw [a, ← a']; rfl), (by rw [b, ← b']; rfl)⟩
    · rw [if_neg hd, if_neg hd]
      have g := loop_adds m.text.length m.text p c h.same h.rest h.pre
      obtain ⟨t, a, b⟩ := g.ext
      simp only [not_or, Decidable.not_not] at hd
      exact ⟨[], t, Or.inl rfl, (by rw [a]; simp), (by rw [b, hd.2.1]; simp)⟩

theorem new_twin (max : Nat) (custom : List Rule) (force : Bool) : Twin (LogRcv.new max custom force) (LogRcv.new max custom force) :=
  ⟨rfl, ⟨rfl, rfl⟩, (by simp [LogRcv.new]), rfl⟩

theorem logs_twin (msgs : List Msg) : ∀ (p c : Rcv), Twin p c → (∀ m ∈ msgs, 27 ∉ m.src) →
    Twin (msgs.foldl LogRcv.log p) (msgs.foldl (log true) c) := by
  induction msgs with
  | nil => intro p c h _; exact h
  | cons m l ih =>
    intro p c h hs
    rw [List.foldl_cons, List.foldl_cons]
    exact ih _ _ (log_twin p c m h (hs m (by simp))).1 (fun x hx => hs x (by simp [hx]))

/-- Without colours. -/
theorem plain_loop (f : Nat) : ∀ (r : Rcv) (b : Text), logLoop false f r b = LogRcv.logLoop f r b := by
  induction f with
  | zero => intro r b; rfl
  | succ f ih =>
    intro r b
    cases b with
    | nil => rfl
    | cons c b => simp only [logLoop, LogRcv.logLoop, ih]; rfl

theorem plain_log (r : Rcv) (m : Msg) : log false r m = LogRcv.log r m := by
  unfold log LogRcv.log
  simp only [plain_loop]
  rfl

theorem plain_logs (msgs : List Msg) (r : Rcv) : msgs.foldl (log false) r = msgs.foldl LogRcv.log r := by
  have : log false = LogRcv.log := funext fun r => funext fun m => plain_log r m
  rw [this]

theorem can_iff (tty : Bool) (term : Option Text) : canColorize tty term = true ↔ tty = true ∧ ∃ t ∈ colourTerms, term = some t := by
  unfold canColorize colourTerms
  cases term with
  | none => simp
  | some t => simp; intro _; constructor <;> intro h <;> simpa [or_assoc] using h

end ClP

/-- C131. A console that colours its lines shows the same characters as one that does not, whatever the messages are: text in a
    message cannot change the colours, or be taken for a sequence. Afterwards nothing is left over, and characters look as usual. The
    names of the sources must not have ESC in them. `C74_console` says which characters these are. -/
theorem C131_text_partial (tty : Bool) (term : Option (List Byte)) (max : Nat) (custom : List Rule) (force : Bool)
    (msgs : List Spec.Log.Msg) (hs : ∀ m ∈ msgs, 27 ∉ m.src) (hc : tty = true ∧ ∃ t ∈ colourTerms, term = some t) :
    (chars (console tty term max custom force msgs).out).map (·.1) = (msgs.foldl LogRcv.log (LogRcv.new max custom force)).out ∧
    Restored (console tty term max custom force msgs).out ∧
    (chars (destroy (console tty term max custom force msgs)).out).map (·.1) =
      (LogRcv.destroy (msgs.foldl LogRcv.log (LogRcv.new max custom force))).out := by
  have e : console tty term max custom force msgs = msgs.foldl (log true) (LogRcv.new max custom force) := by
    unfold console; rw [(ClP.can_iff tty term).2 hc]
  rw [e]
  have h := ClP.logs_twin msgs _ _ (ClP.new_twin max custom force) hs
  generalize msgs.foldl (log true) (LogRcv.new max custom force) = c at h ⊢
  generalize msgs.foldl LogRcv.log (LogRcv.new max custom force) = p at h ⊢
  refine ⟨h.text, h.rest, ?_⟩
  have hn : c.nl = p.nl := by rw [h.same]
  unfold destroy LogRcv.destroy LogRcv.endLine
  rw [hn]
  split
  · exact h.text
  · have : chars (c.out ++ [10]) = chars c.out ++ [(10, (screen c.out).look)] := by
      unfold chars
      rw [ClP.screen_append, ClP.restored_screen h.rest, ClP.feed_text _ _ _ (by decide)]
      simp [Mark.shown]
    simp only [this, List.map_append, h.text, List.map_cons, List.map_nil]

/-- C131. Each message is shown in the colours of its level. Only the end of the line before it may come first, which has the colours of
    the level of that line. -/
theorem C131_colours_partial (tty : Bool) (term : Option (List Byte)) (max : Nat) (custom : List Rule) (force : Bool)
    (msgs : List Spec.Log.Msg) (m : Spec.Log.Msg) (hs : ∀ n ∈ msgs ++ [m], 27 ∉ n.src)
    (hc : tty = true ∧ ∃ t ∈ colourTerms, term = some t) :
    ∃ e t, (e = [] ∨ ∃ n ∈ msgs, e = [(10, look n.lvl)]) ∧
      chars (console tty term max custom force (msgs ++ [m])).out =
        chars (console tty term max custom force msgs).out ++ e ++ t.map (·, look m.lvl) ∧
      ((msgs ++ [m]).foldl LogRcv.log (LogRcv.new max custom force)).out =
        (msgs.foldl LogRcv.log (LogRcv.new max custom force)).out ++ e.map (·.1) ++ t := by
  have e : ∀ l, console tty term max custom force l = l.foldl (log true) (LogRcv.new max custom force) := by
    intro l; unfold console; rw [(ClP.can_iff tty term).2 hc]
  rw [e, e, List.foldl_append, List.foldl_append]
  simp only [List.foldl_cons, List.foldl_nil]
  have hs' : ∀ n ∈ msgs, 27 ∉ n.src := fun n hn => hs n (by simp [hn])
  have h := ClP.logs_twin msgs _ _ (ClP.new_twin max custom force) hs'
  -- the level is that of a message, or nothing has been written
  have hv : (msgs.foldl LogRcv.log (LogRcv.new max custom force)).nl = true ∨
      ∃ n ∈ msgs, n.lvl = (msgs.foldl LogRcv.log (LogRcv.new max custom force)).lvl := by
    have : ∀ (l : List Msg) (p c : Rcv), ClP.Twin p c → (∀ n ∈ l, 27 ∉ n.src) → (p.nl = true ∨ ∃ n ∈ msgs, n.lvl = p.lvl) → (∀ n ∈ l, n ∈ msgs) →
        ((l.foldl LogRcv.log p).nl = true ∨ ∃ n ∈ msgs, n.lvl = (l.foldl LogRcv.log p).lvl) := by
      intro l
      induction l with
      | nil => intro p c _ _ h _; exact h
      | cons x l ih =>
        intro p c ht hx hp hm
        rw [List.foldl_cons]
        obtain ⟨g1, g2, g3, -⟩ := ClP.log_twin p c x ht (hx x (by simp))
        refine ih _ _ g1 (fun n hn => hx n (by simp [hn])) ?_ (fun n hn => hm n (by simp [hn]))
        by_cases hl : x.lvl ≤ threshold p x.src
        · exact Or.inr ⟨x, hm x (by simp), (g2 hl).symm⟩
        · rw [g3 hl]; exact hp
    exact this msgs _ _ (ClP.new_twin max custom force) hs' (Or.inl rfl) (fun _ h => h)
  obtain ⟨-, -, -, u, t, hu, a, b⟩ := ClP.log_twin _ _ m h (hs m (by simp))
  generalize hp : msgs.foldl LogRcv.log (LogRcv.new max custom force) = p at *
  generalize hcc : msgs.foldl (log true) (LogRcv.new max custom force) = c at *
  refine ⟨u.map (·, look p.lvl), t, ?_, b, (by rw [a, ClP.map_pair])⟩
  rcases hu with rfl | ⟨rfl, hnl⟩
  · exact Or.inl rfl
  · rcases hv with hv | ⟨n, hn, hl⟩
    · rw [hv] at hnl; exact absurd hnl (by decide)
    · exact Or.inr ⟨n, hn, (by rw [hl]; rfl)⟩

/-- Both are not met by accident: an error and a note, with a text that tries to change the colours. -/
example :
    let msgs : List Spec.Log.Msg := [⟨str ['A'], 1, str ['x'] ++ [27] ++ str ['[', '0', 'm']⟩, ⟨str ['B'], 4, str ['y']⟩]
    (∀ m ∈ msgs, 27 ∉ m.src) ∧ str ['x', 't', 'e', 'r', 'm'] ∈ colourTerms ∧
    chars (console true (some (str ['x', 't', 'e', 'r', 'm'])) 10 [] false msgs).out =
      (str ['A', '<', 'E', 'r', 'r', '>', ':', ' ', 'x', '[', '1', 'b', ']', '[', '0', 'm', '\n']).map (·, ⟨some 1, some 7, true⟩) ++
      (str ['B', '<', 'I', 'n', 'f', 'o', '>', ':', ' ', 'y']).map (·, ⟨some 0, some 7, true⟩) := by decide +kernel

/-- C131. On anything else than a terminal that is known to have colours, what is written is what a console without colours writes. -/
theorem C131_plain (tty : Bool) (term : Option (List Byte)) (max : Nat) (custom : List Rule) (force : Bool)
    (msgs : List Spec.Log.Msg) (hc : ¬ (tty = true ∧ ∃ t ∈ colourTerms, term = some t)) :
    (console tty term max custom force msgs).out = (msgs.foldl LogRcv.log (LogRcv.new max custom force)).out ∧
    (destroy (console tty term max custom force msgs)).out =
      (LogRcv.destroy (msgs.foldl LogRcv.log (LogRcv.new max custom force))).out := by
  have : canColorize tty term = false := by
    cases h : canColorize tty term
    · rfl
    · exact absurd ((ClP.can_iff tty term).1 h) hc
  unfold console destroy LogRcv.destroy
  rw [this, ClP.plain_logs]
  exact ⟨rfl, rfl⟩

example : ¬ (true = true ∧ ∃ t ∈ colourTerms, some (str ['d', 'u', 'm', 'b']) = some t) := by decide +kernel

/-- C131. Something written on a terminal with colours does have them: a line of an error is not written like one without. -/
theorem C131_marked (term : List Byte) (ht : term ∈ colourTerms) (max : Nat) (custom : List Rule) (force : Bool)
    (msgs : List Spec.Log.Msg) (hs : ∀ m ∈ msgs, 27 ∉ m.src) (c : Byte) (l : Look)
    (h : (c, l) ∈ chars (console true (some term) max custom force msgs).out) : l ≠ normal ∧ ∃ m ∈ msgs, l = look m.lvl := by
  have hn : ∀ n, look n ≠ normal := by
    intro n
    match n with
    | 0 | 1 | 2 => decide
    | n + 3 => show (⟨some 0, some 7, true⟩ : Look) ≠ normal; decide
  have key : ∀ k, ∀ ms : List Spec.Log.Msg, ms.length = k → (∀ m ∈ ms, 27 ∉ m.src) →
      (c, l) ∈ chars (console true (some term) max custom force ms).out → ∃ m ∈ ms, l = look m.lvl := by
    intro k
    induction k with
    | zero =>
      intro ms hk _ hm
      obtain rfl : ms = [] := List.length_eq_zero_iff.1 hk
      have : chars (console true (some term) max custom force []).out = [] := rfl
      rw [this] at hm
      exact absurd hm (by simp)
    | succ k ih =>
      intro ms hk hs hm
      have hne : ms ≠ [] := by intro e; rw [e] at hk; simp at hk
      obtain ⟨ini, last, rfl⟩ : ∃ a b, ms = a ++ [b] := ⟨_, _, (List.dropLast_concat_getLast hne).symm⟩
      obtain ⟨e, t, he, h1, -⟩ := C131_colours_partial true (some term) max custom force ini last hs ⟨rfl, term, ht, rfl⟩
      rw [h1, List.mem_append, List.mem_append] at hm
      rcases hm with (hm | hm) | hm
      · obtain ⟨n, hn, e⟩ := ih ini (by simpa using hk) (fun x hx => hs x (by simp [hx])) hm
        exact ⟨n, (by simp [hn]), e⟩
      · rcases he with rfl | ⟨n, hn, rfl⟩
        · simp at hm
        · simp only [List.mem_singleton, Prod.mk.injEq] at hm
          exact ⟨n, (by simp [hn]), hm.2⟩
      · obtain ⟨x, -, hx⟩ := List.mem_map.1 hm
        simp only [Prod.mk.injEq] at hx
        exact ⟨last, (by simp), hx.2.symm⟩
  obtain ⟨m, hm, e⟩ := key _ msgs rfl hs h
  exact ⟨e ▸ hn m.lvl, m, hm, e⟩

example : (65, ⟨some 3, some 7, true⟩) ∈
    chars (console true (some (str ['a', 'n', 's', 'i'])) 10 [] false [⟨str ['A'], 2, str ['x']⟩]).out := by decide +kernel

/-- C131 is false of a source whose name has ESC in it: the name is written as it is, so the characters of the terminal are not those
    the other console has written, and its colours are those the name says. -/
theorem C131_source_fails : ∃ m : Spec.Log.Msg,
    (chars (console true (some (str ['x', 't', 'e', 'r', 'm'])) 10 [] false [m]).out).map (·.1) ≠ (LogRcv.log (LogRcv.new 10 [] false) m).out ∧
    (65, ⟨some 2, some 7, true⟩) ∈ chars (console true (some (str ['x', 't', 'e', 'r', 'm'])) 10 [] false [m]).out :=
  ⟨⟨[27] ++ str ['[', '4', '2', 'm', 'A'], 1, str ['x']⟩, by decide +kernel⟩

/-- C131. The colours do not stay on the line: when the line of an error has ended, the line below is cleared in red although nothing is
    on it. -/
theorem C131_below_fails : ∃ m : Spec.Log.Msg,
    lastLine (screen (console true (some (str ['x', 't', 'e', 'r', 'm'])) 10 [] false [m]).out).marks =
      [.clear (look m.lvl), .clear (look m.lvl)] ∧ look m.lvl ≠ normal :=
  ⟨⟨str ['A'], 1, str ['x', '\n']⟩, by decide +kernel⟩

/-- C131. The end of the last line has no colours if the destructor writes it. -/
theorem C131_destroy_fails : ∃ m : Spec.Log.Msg,
    (chars (destroy (console true (some (str ['x', 't', 'e', 'r', 'm'])) 10 [] false [m])).out).getLast? = some (10, normal) :=
  ⟨⟨str ['A'], 1, str ['x']⟩, by decide +kernel⟩

end Props
