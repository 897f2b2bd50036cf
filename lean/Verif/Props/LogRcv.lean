import Verif.Lemmas.LogRcv
/- C74: the way of a log message. -/
namespace Props
open Wv Wv.LogRcv Spec.Log Spec.LogRcv

namespace Lr

theorem limits (descr : List Byte) (ok : Bool) (rules custom : List Rule) (max : Nat) (force : Bool) (h : setCustomLevels descr = some (ok, rules))
    (hp : custom.Perm rules) (src : List Byte) : Limit max rules src (threshold (LogRcv.new max custom force) src) := by
  have := threshold_limit (LogRcv.new max custom force) (fun x hx => levels_small descr ok rules h x (hp.mem_iff.1 hx)) src
  unfold Limit at this ⊢
  simpa [LogRcv.new, hp.mem_iff] using this

theorem first_calls (aud : List Who) (react : Who → Spec.Log.Msg → List Spec.Log.Msg) (m : Spec.Log.Msg) (f c : Nat) (hc : c < 8) :
    (calls aud react (f + 1) c m).filter (fun x => decide (x.depth = c)) = aud.map fun w => ⟨c, w, m⟩ := by
  rw [calls]
  have ht : told c m = some m := by unfold told; rw [if_pos hc]
  rw [ht]
  dsimp only
  have hz : ∀ w, ((react w m).flatMap (calls aud react f (c + 1))).filter (fun x => decide (x.depth = c)) = [] := by
    intro w
    rw [List.filter_eq_nil_iff]
    intro x hx
    rw [List.mem_flatMap] at hx
    obtain ⟨z, -, hx⟩ := hx
    have := (calls_depth aud react f (c + 1) z x hx).1
    simp
    omega
  rw [List.filter_flatMap]
  have : (fun w => List.filter (fun x : Call => decide (x.depth = c)) (⟨c, w, m⟩ :: (react w m).flatMap (calls aud react f (c + 1)))) =
      fun w => [(⟨c, w, m⟩ : Call)] := by
    funext w
    rw [List.filter_cons, hz w, if_pos (by simp)]
  rw [this]
  exact List.map_eq_flatMap.symm

end Lr

/-- C74. What a console shows, for any list of rules and any messages. `custom` is the order in which the table of rules is looked
    through. There is a level for each source, given by a rule that applies to it, or the common level if none does. The messages up
    to their level are shown and no others. Messages that follow each other with the same source and level are put together; each
    line that is not empty has its heading; and a line ends when it is said to end or when another source or level comes. When the
    console is destroyed, all lines have their ends. -/
theorem C74_console (descr : List Byte) (ok : Bool) (rules custom : List Rule) (max : Nat) (msgs : List Spec.Log.Msg)
    (h : setCustomLevels descr = some (ok, rules)) (hp : custom.Perm rules) (hl : ∀ m ∈ msgs, m.lvl < 10) :
    ∃ limit : List Byte → Nat, (∀ src, Limit max rules src (limit src)) ∧
      (msgs.foldl log (LogRcv.new max custom false)).out = printed (together (msgs.filter fun m => decide (m.lvl ≤ limit m.src))) ∧
      (destroy (msgs.foldl log (LogRcv.new max custom false))).out =
        (together (msgs.filter fun m => decide (m.lvl ≤ limit m.src))).flatMap closed := by
  refine ⟨threshold (LogRcv.new max custom false), Lr.limits descr ok rules custom max false h hp, ?_⟩
  rw [← log_filter (threshold (LogRcv.new max custom false)) msgs _ (fun _ => rfl)]
  generalize hms : (msgs.filter fun m => decide (m.lvl ≤ threshold (LogRcv.new max custom false) m.src)) = ms
  have ha : ∀ m ∈ ms, m.lvl ≤ threshold (LogRcv.new max custom false) m.src ∧ m.lvl < 10 := by
    intro m hm
    rw [← hms, List.mem_filter] at hm
    exact ⟨by simpa using hm.2, hl m hm.1⟩
  rw [← together_log ms _ rfl]
  have := logs_out (together ms) (LogRcv.new max custom false) (fun m hm => by
    obtain ⟨n, hn, e1, e2⟩ := together_mem ms m hm
    rw [← e1, ← e2]
    exact ha n hn) (Or.inr ⟨together_apart ms, fun m _ => Or.inl (by simp [LogRcv.new])⟩)
  refine ⟨?_, this.2⟩
  by_cases hne : together ms = []
  · rw [hne]; rfl
  · exact this.1 hne

example : ∃ rules, setCustomLevels (str ['s', 'q', 'l', '=', '9']) = some (true, rules) ∧
    (List.foldl log (LogRcv.new 4 rules false) [⟨str ['A'], 3, str ['h', 'i']⟩, ⟨str ['A'], 3, str ['!', '\n', 'x']⟩, ⟨str ['B'], 5, str ['n', 'o']⟩,
      ⟨str ['m', 'y', 'S', 'q', 'l'], 5, str ['y']⟩]).out =
    str ['A', '<', 'N', 'o', 't', 'i', 'c', 'e', '>', ':', ' ', 'h', 'i', '!', '\n', 'A', '<', 'N', 'o', 't', 'i', 'c', 'e', '>', ':', ' ', 'x', '\n',
      'm', 'y', 'S', 'q', 'l', '<', '*', '1', '>', ':', ' ', 'y'] := ⟨_, rfl, by decide +kernel⟩

/-- C74. The same for a receiver that is told to begin a new line with every message: none are put together. -/
theorem C74_force (descr : List Byte) (ok : Bool) (rules custom : List Rule) (max : Nat) (msgs : List Spec.Log.Msg)
    (h : setCustomLevels descr = some (ok, rules)) (hp : custom.Perm rules) (hl : ∀ m ∈ msgs, m.lvl < 10) :
    ∃ limit : List Byte → Nat, (∀ src, Limit max rules src (limit src)) ∧
      (msgs.foldl log (LogRcv.new max custom true)).out = printed (msgs.filter fun m => decide (m.lvl ≤ limit m.src)) ∧
      (destroy (msgs.foldl log (LogRcv.new max custom true))).out =
        (msgs.filter fun m => decide (m.lvl ≤ limit m.src)).flatMap closed := by
  refine ⟨threshold (LogRcv.new max custom true), Lr.limits descr ok rules custom max true h hp, ?_⟩
  rw [← log_filter (threshold (LogRcv.new max custom true)) msgs _ (fun _ => rfl)]
  generalize hms : (msgs.filter fun m => decide (m.lvl ≤ threshold (LogRcv.new max custom true) m.src)) = ms
  have ha : ∀ m ∈ ms, m.lvl ≤ threshold (LogRcv.new max custom true) m.src ∧ m.lvl < 10 := by
    intro m hm
    rw [← hms, List.mem_filter] at hm
    exact ⟨by simpa using hm.2, hl m hm.1⟩
  have := logs_out ms (LogRcv.new max custom true) ha (Or.inl rfl)
  refine ⟨?_, this.2⟩
  by_cases hne : ms = []
  · rw [hne]; rfl
  · exact this.1 hne

example : (destroy (List.foldl log (LogRcv.new 10 [] true) [⟨str ['A'], 3, str ['h', 'i']⟩, ⟨str ['A'], 3, str ['!']⟩])).out =
    str ['A', '<', 'N', 'o', 't', 'i', 'c', 'e', '>', ':', ' ', 'h', 'i', '\n', 'A', '<', 'N', 'o', 't', 'i', 'c', 'e', '>', ':', ' ', '!', '\n'] := by
  decide +kernel

/-- C74. A list of rules is read as it is written: the words between the separators are names and levels in turn. The names are kept
    in small letters. -/
theorem C74_rules (l : List Rule) (descr : List Byte) (hl : ∀ r ∈ l, r.plain) (hw : Spec.Split.words sep descr = ruleWords l) :
    setCustomLevels descr = some (true, l.map fun r => ⟨small r.name, r.level⟩) := by
  unfold setCustomLevels
  dsimp only
  rw [C35_split_words, sep_eq, hw]
  generalize hA : (if descr.head?.all sep then [[]] else ([] : List (List Byte))) = A
  generalize hB : (if descr.getLast?.any sep then [[]] else ([] : List (List Byte))) = B
  have hA' : A = [] ∨ A = [[]] := by rw [← hA]; split <;> simp
  have hB' : B = [] ∨ B = [[]] := by rw [← hB]; split <;> simp
  have hb : levelsLoop [] (l.map fun r => (⟨small r.name, r.level⟩ : Rule)) B = some (true, l.map fun r => ⟨small r.name, r.level⟩) := by
    rcases hB' with e | e <;> subst e
    · rfl
    · rw [levelsLoop_empty]; rfl
  have hr := levelsLoop_rules l [] B hl
  rw [List.nil_append, hb] at hr
  split
  · rename_i hnil
    have : ruleWords l = [] := by
      simp only [List.append_eq_nil_iff] at hnil
      exact hnil.1.2
    cases l with
    | nil => rfl
    | cons r l => simp [ruleWords] at this
  · rcases hA' with e | e <;> subst e
    · rw [List.nil_append, hr]
    · rw [List.append_assoc, List.cons_append, List.nil_append, levelsLoop_empty, hr]

example : setCustomLevels (str ['M', 'y', 'S', 'Q', 'L', '=', '9', ',', ' ', 'x', '=', '1', '0']) =
    some (true, [⟨str ['m', 'y', 's', 'q', 'l'], 9⟩, ⟨str ['x'], 10⟩]) :=
  C74_rules [⟨str ['M', 'y', 'S', 'Q', 'L'], 9⟩, ⟨str ['x'], 10⟩] _ (by
    intro r hr
    simp only [List.mem_cons, List.not_mem_nil, or_false] at hr
    rcases hr with rfl | rfl
    · exact ⟨by decide, by decide +kernel, by decide, by decide⟩
    · exact ⟨by decide, by decide +kernel, by decide, by decide⟩) (by decide +kernel)

/-- C74. If a name has no level, or one that is not from 1 to 10, this is told; the rules before it are in force. -/
theorem C74_bad_rules (l : List Rule) (name : List Byte) (rest : List (List Byte)) (descr : List Byte) (hl : ∀ r ∈ l, r.plain)
    (hn : ∃ c ∈ name, ¬ space c) (hr : rest = [] ∨ ∃ w ws n, rest = w :: ws ∧ Num.num w = some n ∧ ¬ (1 ≤ n ∧ n ≤ 10))
    (hw : Spec.Split.words sep descr = ruleWords l ++ name :: rest) :
    setCustomLevels descr = some (false, l.map fun r => ⟨small r.name, r.level⟩) := by
  unfold setCustomLevels
  dsimp only
  rw [C35_split_words, sep_eq, hw]
  generalize hA : (if descr.head?.all sep then [[]] else ([] : List (List Byte))) = A
  generalize hB : (if descr.getLast?.any sep then [[]] else ([] : List (List Byte))) = B
  have hA' : A = [] ∨ A = [[]] := by rw [← hA]; split <;> simp
  have hB' : B = [] ∨ B = [[]] := by rw [← hB]; split <;> simp
  have hname : List.map tolower (trimEnd name) ≠ [] := by
    obtain ⟨c, hc, hs⟩ := hn
    intro e
    simp [trimEnd] at e
    have hall : ∀ (l : List Byte), l.dropWhile isspace = [] → ∀ x ∈ l, isspace x = true := by
      intro l
      induction l with
      | nil => intro _ x hx; cases hx
      | cons a l ih =>
        intro h x hx
        rw [List.dropWhile_cons] at h
        split at h
        · rename_i ha
          rcases List.mem_cons.1 hx with hx | hx
          · rw [hx]; exact ha
          · exact ih h x hx
        · cases h
    exact hs ((space_isspace c).1 (hall _ e c (by simpa using hc)))
  have hb : levelsLoop [] (l.map fun r => (⟨small r.name, r.level⟩ : Rule)) (name :: (rest ++ B)) =
      some (false, l.map fun r => ⟨small r.name, r.level⟩) := by
    rw [levelsLoop, if_neg (by simp)]
    rcases hr with e | ⟨w, ws, n, e, h1, h2⟩ <;> subst e
    · rcases hB' with e | e <;> subst e
      · simp only [List.append_nil, levelsLoop, hname, decide_false]
      · rw [List.nil_append, levelsLoop, if_pos hname]
        have : Num.num [] = some 0 := by decide +kernel
        rw [this]
        rfl
    · rw [List.cons_append, levelsLoop, if_pos hname, h1]
      simp only [Option.bind_some]
      rw [if_neg (by omega)]
  have hr := levelsLoop_rules l [] (name :: (rest ++ B)) hl
  rw [List.nil_append, hb] at hr
  have hh : (ruleWords l ++ name :: rest) ++ B = ruleWords l ++ name :: (rest ++ B) := by simp
  rw [List.append_assoc, hh]
  split
  · rename_i hnil
    simp at hnil
  · rcases hA' with e | e <;> subst e
    · rw [List.nil_append, hr]
    · rw [List.cons_append, List.nil_append, levelsLoop_empty, hr]

example : setCustomLevels (str ['a', '=', '9', ',', 'b', '=', '1', '1', ',', 'c', '=', '3']) = some (false, [⟨str ['a'], 9⟩]) := by decide +kernel

/-- C74 is false for names with a space, of which the documentation gives an example: `mysql=9,Service Manager=9` is refused, and the
    source `Service Manager` keeps the common level. -/
theorem C74_space_fails :
    ∃ rules, setCustomLevels (str ['m', 'y', 's', 'q', 'l', '=', '9', ',', 'S', 'e', 'r', 'v', 'i', 'c', 'e', ' ', 'M', 'a', 'n', 'a', 'g', 'e', 'r',
      '=', '9']) = some (false, rules) ∧ ∀ max, max < 9 → (log (LogRcv.new max rules false)
        ⟨str ['S', 'e', 'r', 'v', 'i', 'c', 'e', ' ', 'M', 'a', 'n', 'a', 'g', 'e', 'r'], 9, str ['x']⟩).out = [] := by
  refine ⟨[⟨str ['m', 'y', 's', 'q', 'l'], 9⟩], by decide +kernel, ?_⟩
  intro max hm
  have : threshold (LogRcv.new max [⟨str ['m', 'y', 's', 'q', 'l'], 9⟩] false)
      (str ['S', 'e', 'r', 'v', 'i', 'c', 'e', ' ', 'M', 'a', 'n', 'a', 'g', 'e', 'r']) = max := by
    unfold threshold
    have : (LogRcv.new max [⟨str ['m', 'y', 's', 'q', 'l'], 9⟩] false).custom.find?
      (fun x => Http.strstr x.name ((str ['S', 'e', 'r', 'v', 'i', 'c', 'e', ' ', 'M', 'a', 'n', 'a', 'g', 'e', 'r']).map tolower)) = none := by
      show List.find? _ [_] = none
      decide +kernel
    rw [this]
    rfl
  unfold log
  rw [if_pos (by rw [this]; exact hm)]
  rfl

/-- C74. When two rules with different levels apply to a source, the order in which the table is looked through decides. -/
theorem C74_overlap_fails :
    ¬ ∀ (descr : List Byte) (rules c1 c2 : List Rule) (max : Nat) (m : Spec.Log.Msg), setCustomLevels descr = some (true, rules) →
      c1.Perm rules → c2.Perm rules → (log (LogRcv.new max c1 false) m).out = (log (LogRcv.new max c2 false) m).out := by
  intro h
  have := h (str ['a', '=', '1', ',', 'a', 'b', '=', '9']) [⟨str ['a'], 1⟩, ⟨str ['a', 'b'], 9⟩] [⟨str ['a'], 1⟩, ⟨str ['a', 'b'], 9⟩]
    [⟨str ['a', 'b'], 9⟩, ⟨str ['a'], 1⟩] 4 ⟨str ['a', 'b'], 5, str ['x']⟩ (by decide +kernel) (List.Perm.refl _) (List.Perm.swap _ _ _)
  exact absurd this (by decide +kernel)

/-- C74. Who hears what is written, after any history in which receivers and logs are destroyed in the process that made them. If
    somebody made receivers, the message goes to these, in the order they were made, and to nobody else; if there are none, to the
    console. `react` is what receivers write into the log when they hear something. Then each receiver hears each of these messages
    once, and those written because of them, up to the seventh message of such a chain; for each message that is the eighth it hears
    a warning; there is no ninth. -/
theorem C74_heard (os : List Op) (w : World) (hw : World.run ⟨[], 0⟩ os = some w) (react : Who → Spec.Log.Msg → List Spec.Log.Msg)
    (m : Spec.Log.Msg) :
    ∃ s s' tr, Reg.run Reg.new os = some s ∧ write react s m = some (s', tr) ∧ s.step .write = some s' ∧
      tr.filter (fun x => decide (x.depth = 1)) = w.audience.map (fun v => ⟨1, v, m⟩) ∧
      (∀ x ∈ tr, 1 ≤ x.depth ∧ x.depth ≤ 8 ∧ x.who ∈ w.audience) ∧
      (∀ v ∈ w.audience, ∀ k, 1 ≤ k → k < 8 →
        (tr.filter fun x => decide (x.depth = k ∧ x.who = v)).map (·.msg) = written w.audience react m k) ∧
      (∀ v ∈ w.audience, (tr.filter fun x => decide (x.depth = 8 ∧ x.who = v)).map (·.msg) =
        (written w.audience react m 8).map fun x => ⟨x.src, 2, tooMany⟩) := by
  obtain ⟨s, e, hs⟩ := run_sim os _ _ _ new_sim hw
  obtain ⟨s', e', hs', hst⟩ := prepare_sim s w hs
  have hwr : write react s m = some (s', calls w.audience react 9 1 m) := by
    have h1 := uwrite_calls w.audience react s' hst 9 1 m (by omega) (by omega)
    unfold write
    rw [← h1, uwrite, uwrite, e', hst]
  have hn := audience_nodup w hs.nodup
  refine ⟨s, s', _, e, hwr, by rw [Reg.step, e']; rfl, Lr.first_calls _ _ _ _ _ (by omega), ?_, ?_, ?_⟩
  · exact calls_depth _ _ _ _ _
  · intro v hv k h1 h2
    rw [calls_written _ hn react v k (by omega) 9 1 m h1 (by omega), if_pos hv, show k - 1 + 1 = k from by omega]
    have : saying k = id := by funext x; unfold saying; rw [if_pos h2]; rfl
    rw [this, List.map_id]
  · intro v hv
    rw [calls_written _ hn react v 8 (by omega) 9 1 m (by omega) (by omega), if_pos hv]
    rfl

example : World.run ⟨[], 0⟩ [.newLog, .write, .newRcv 1, .newRcv 2, .write, .delRcv 1, .fork, .newRcv 3, .write] = some ⟨[3], 1⟩ := by decide +kernel

/-- C74 is false when a receiver that was made before a fork is destroyed in the child. If the process wrote to the console before it
    had receivers, the destructor itself fails an assertion; if not, the next message does. -/
theorem C74_fork_fails :
    (∃ s, Reg.run Reg.new [.newLog, .newRcv 1, .write, .fork, .delRcv 1] = some s ∧ ∀ react m, write react s m = none) ∧
    Reg.run Reg.new [.newLog, .write, .newRcv 1, .fork, .delRcv 1] = none := by
  refine ⟨⟨⟨none, -1, 1, false⟩, by decide +kernel, ?_⟩, by decide +kernel⟩
  intro react m
  unfold write
  rw [uwrite]
  rfl

end Props
