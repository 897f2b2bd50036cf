import Verif.Spec.ProcIter
import Verif.Model.ProcIter
import Verif.Lemmas.ConfText
import Verif.Props.Split
import Verif.Props.Addr
import Verif.Props.TextUtil
/- C134: the running processes, and sending a signal to those that run a program. -/
namespace Props
open Wv Wv.ProcIter
open Spec.ProcIter (Proc Proper line program base)

namespace ProcP

theorem strtol_pid (n : Nat) (hn : n < 2 ^ 31) : Addr.strtol (Num.dec n) = n := by
  have hg := Num.dec_isdigit n
  have hne := Num.dec_ne_nil n
  have hd := Num.digits_dec n []
  rw [List.append_nil] at hd
  unfold Addr.strtol
  cases hl : Num.dec n with
  | nil => exact absurd hl hne
  | cons c l =>
    have hc := hg c (by rw [hl]; simp)
    have hs : isspace c = false := by
      have : ∀ c : Byte, isdigit c = true → isspace c = false := by
        intro c; revert c; exact forall_byte (by decide +kernel)
      exact this c hc.1
    have hp : (c == ch '+') = false := by
      have : ∀ c : Byte, isdigit c = true → (c == ch '+') = false := by
        intro c; revert c; exact forall_byte (by decide +kernel)
      exact this c hc.1
    have hm : (c == ch '-') = false := by simpa using hc.2
    rw [hl] at hd
    simp only [List.dropWhile_cons, hs, Bool.false_eq_true, if_false, hp, hm, hd, Num.digits]
    omega

theorem toInt_pid (n : Nat) (hn : n < 2 ^ 31) : IntText.toInt n = n := by
  unfold IntText.toInt; omega

theorem digit_facts (n : Nat) : ∀ c ∈ Num.dec n, isspace c = false ∧ c ≠ 32 := by
  intro c hc
  have h := (Num.dec_isdigit n c hc).1
  have : ∀ c : Byte, isdigit c = true → isspace c = false ∧ c ≠ 32 := by
    intro c; revert c; exact forall_byte (by decide +kernel)
  exact this c h

theorem space_printed : ∀ c : Byte, 32 ≤ c → (isspace c = true ↔ c = 32) ∧ blanks.contains c = (c == 32) := by
  intro c; revert c; exact forall_byte (by decide +kernel)

/-- Blanks at the end do not change the words. -/
theorem pieces_snoc (sep : Byte → Bool) (c : Byte) (hc : sep c = true) : ∀ s : List Byte,
    Spec.Split.pieces sep (s ++ [c]) = Spec.Split.pieces sep s ++ [[]] := by
  intro s
  induction s with
  | nil => rw [List.nil_append, pieces_cons, hc, pieces_nil]; rfl
  | cons x s ih =>
    rw [List.cons_append, pieces_cons, pieces_cons, ih]
    have hne := pieces_ne_nil sep s
    cases hp : Spec.Split.pieces sep s with
    | nil => exact absurd hp hne
    | cons a l => cases sep x <;> simp

theorem words_blanks (sep : Byte → Bool) : ∀ (n : Nat) (t s : List Byte), t.length = n → (∀ c ∈ t, sep c = true) →
    Spec.Split.words sep (s ++ t) = Spec.Split.words sep s := by
  intro n
  induction n with
  | zero => intro t s hn _; rw [List.length_eq_zero_iff.1 hn, List.append_nil]
  | succ n ih =>
    intro t s hn ht
    cases t with
    | nil => cases hn
    | cons c t =>
      have e : s ++ c :: t = (s ++ [c]) ++ t := by simp
      rw [e, ih t _ (by simpa using hn) (fun d hd => ht d (by simp [hd]))]
      unfold Spec.Split.words
      rw [pieces_snoc sep c (ht c (by simp))]
      simp

theorem pieces_congr (f g : Byte → Bool) : ∀ s : List Byte, (∀ c ∈ s, f c = g c) → Spec.Split.pieces f s = Spec.Split.pieces g s := by
  intro s
  induction s with
  | nil => intro _; rfl
  | cons c s ih => intro h; rw [pieces_cons, pieces_cons, ih (fun d hd => h d (by simp [hd])), h c (by simp)]

theorem words_congr (f g : Byte → Bool) (s : List Byte) (h : ∀ c ∈ s, f c = g c) : Spec.Split.words f s = Spec.Split.words g s := by
  unfold Spec.Split.words; rw [pieces_congr f g s h]

/-- The two parts of a line. -/
theorem split_line (d b : List Byte) (hd : ∀ c ∈ d, c ≠ 32) (hd0 : d ≠ []) (c : Byte) (r : List Byte) (hb : b = c :: r) (hc : c ≠ 32) :
    Split.split [32] 2 (d ++ 32 :: b) = [d, b] := by
  have hs : d ++ 32 :: b ≠ [] := by simp
  have h1 : (d ++ 32 :: b).takeWhile (fun c => !([32] : List Byte).contains c) = d := by
    rw [List.takeWhile_append_of_pos (fun c hc => by simpa using hd c hc)]; simp
  have h2 : (d ++ 32 :: b).dropWhile (fun c => !([32] : List Byte).contains c) = 32 :: b := by
    rw [List.dropWhile_append_of_pos (fun c hc => by simpa using hd c hc)]; simp
  have h3 : Split.skip [32] (32 :: b) = b := by
    unfold Split.skip
    subst hb
    simp [List.dropWhile_cons, hc]
  unfold Split.split
  rw [if_neg hs, Split.splitLoop, if_neg hs]
  simp only [if_true]
  rw [if_pos (by decide)]
  unfold Split.upto
  simp only [h1, h2]
  rw [Split.splitLoop, if_neg (by simp)]
  simp only [Bool.false_eq_true, if_false, h3]
  rw [if_neg (by decide), splitLoop_nil]

/-- The entry of a process. -/
def ent (p : Proc) : Ent := ⟨p.pid, program p, Spec.ProcIter.words p⟩

theorem words_program (p : Proc) (h : Proper p) : ∃ l, Spec.ProcIter.words p = program p :: l := by
  obtain ⟨_, _, _, c, r, hc, hn⟩ := h
  have e : (fun x : Byte => x == 32) = ([32] : List Byte).contains := by
    funext x; simp only [List.contains_cons, List.contains_nil, Bool.or_false]
  have e2 : (Split.upto [32] p.command).1 = program p := by
    unfold Split.upto program
    dsimp only
    congr 1; funext x; simp
  have hne : (Split.upto [32] p.command).1 ≠ [] := by
    rw [e2]; unfold program; rw [hc]; simp [List.takeWhile_cons, hn]
  refine ⟨Spec.Split.words ([32] : List Byte).contains (Split.upto [32] p.command).2, ?_⟩
  unfold Spec.ProcIter.words
  rw [e, words_upto [32] p.command hne, e2]

theorem parse_line (pad : Nat) (p : Proc) (h : Proper p) : parse (line pad p) = some (ent p) := by
  obtain ⟨l, hl⟩ := words_program p h
  obtain ⟨h0, h1, h2, c, r, hc, hn⟩ := h
  obtain ⟨a, t, e1, ha, ht⟩ := ConfFile.trim_split p.command
  have htr := ConfFile.trim_trimmed p.command
  generalize hb : trimString p.command = b at *
  have hcs : isspace c = false := by
    have := (space_printed c (h2 c (by rw [hc]; simp))).1
    cases hx : isspace c
    · rfl
    · exact absurd (this.1 hx) hn
  have ha0 : a = [] := by
    cases a with
    | nil => rfl
    | cons x a =>
      rw [hc] at e1
      have : c = x := by simpa using congrArg List.head? e1
      rw [this, ha x (by simp)] at hcs; cases hcs
  subst ha0
  rw [List.nil_append] at e1
  have hbc : ∃ r', b = c :: r' := by
    cases b with
    | nil =>
      rw [List.nil_append] at e1
      have := ht c (by rw [← e1, hc]; simp)
      rw [this] at hcs; cases hcs
    | cons x b' =>
      rw [hc] at e1
      have : c = x := by simpa using congrArg List.head? e1
      exact ⟨b', by rw [this]⟩
  obtain ⟨r', hr'⟩ := hbc
  have hpb : ∀ x ∈ b, (32 : Byte) ≤ x := fun x hx => h2 x (by rw [e1]; simp [hx])
  have hline : trimString (line pad p) = Num.dec p.pid ++ 32 :: b := by
    have : line pad p = List.replicate pad 32 ++ (Num.dec p.pid ++ 32 :: b) ++ t := by
      unfold line; rw [e1]; simp [Num.dec, ch]
    rw [this]
    refine Http.trim_pad _ _ _ ⟨?_, ?_⟩ ?_ ht
    · intro x hx
      cases hd : Num.dec p.pid with
      | nil => exact absurd hd (Num.dec_ne_nil _)
      | cons y l' =>
        rw [hd] at hx
        have : y = x := by simpa using hx
        exact (digit_facts p.pid x (by rw [hd, ← this]; simp)).1
    · intro x hx
      refine htr.2 x ?_
      have hg : (Num.dec p.pid ++ 32 :: b).getLast? = b.getLast? := by
        rw [hr', List.getLast?_append, List.getLast?_cons_cons, List.getLast?_cons]; rfl
      rw [← hg]; exact hx
    · intro x hx; rw [(List.mem_replicate.1 hx).2]; decide
  have hsp := split_line (Num.dec p.pid) b (fun x hx => (digit_facts p.pid x hx).2) (Num.dec_ne_nil _) c r' hr' hn
  have hbl : blanks.contains c = false := by rw [(space_printed c (h2 c (by rw [hc]; simp))).2]; simpa using hn
  have hcmd : Split.split blanks 0 b = Spec.ProcIter.words p := by
    rw [C35_split_words]
    have g1 : b.head?.all blanks.contains = false := by rw [hr']; simpa using hbl
    have g2 : b.getLast?.any blanks.contains = false := by
      cases hg : b.getLast? with
      | none => rfl
      | some x =>
        have hx := htr.2 x hg
        have hm : x ∈ b := List.mem_of_getLast? hg
        have hs := space_printed x (hpb x hm)
        rw [Option.any_some, hs.2]
        cases hq : (x == 32)
        · rfl
        · have := hs.1.2 (by simpa using hq)
          rw [this] at hx; cases hx
    rw [g1, g2]
    simp only [Bool.false_eq_true, if_false, List.nil_append, List.append_nil]
    unfold Spec.ProcIter.words
    rw [e1, words_blanks (· == 32) t.length t b rfl (fun x hx => by
      have := (space_printed x (h2 x (by rw [e1]; simp [hx]))).1.1 (ht x hx)
      simpa using this)]
    exact words_congr _ _ _ (fun x hx => (space_printed x (hpb x hx)).2)
  unfold parse
  dsimp only
  rw [hline, hsp]
  dsimp only
  rw [strtol_pid _ h1, toInt_pid _ h1, if_pos (by omega), hcmd, hl]
  unfold ent
  rw [hl]

theorem base_split (d f : List Byte) (k : Nat) (hf : f ≠ []) (hn : ch '/' ∉ f) (hd : d = [] ∨ ∃ d', d = d' ++ [ch '/']) :
    base (d ++ f ++ List.replicate k (ch '/')) = f := by
  have hs : ch '/' = (47 : Byte) := by decide
  rw [hs] at hn hd ⊢
  unfold base
  rw [List.reverse_append, List.reverse_append, List.reverse_replicate, List.dropWhile_append_of_pos (fun c hc => by
    simpa using (List.mem_replicate.1 hc).2)]
  have h1 : (f.reverse ++ d.reverse).dropWhile (fun x => decide (x = (47 : Byte))) = f.reverse ++ d.reverse := by
    cases hr : f.reverse with
    | nil => simp at hr; exact absurd hr hf
    | cons x l =>
      have : x ≠ 47 := fun e => hn (by rw [← List.mem_reverse, hr, e]; simp)
      simp [List.dropWhile_cons, this]
  rw [h1, List.takeWhile_append_of_pos (fun c hc => by
    have : c ≠ 47 := fun e => hn (by rw [← e]; simpa using hc)
    simpa using this)]
  have h2 : d.reverse.takeWhile (fun x => decide (x ≠ (47 : Byte))) = [] := by
    rcases hd with rfl | ⟨d', rfl⟩
    · rfl
    · simp
  rw [h2]; simp

theorem getfilename_base (s : List Byte) : TextUtil.getfilename s = base s := by
  by_cases h : ∃ c ∈ s, c ≠ ch '/'
  · obtain ⟨d, f, k, h1, h2, h3, h4, h5⟩ := C76_path s h
    rw [h4]
    have := base_split d f k h2 h3 (by
      rcases h5 with ⟨h5, _⟩ | ⟨d', h5, _⟩
      · exact .inl h5
      · exact .inr ⟨d', h5⟩)
    rw [← h1] at this
    exact this.symm
  · have he : s = List.replicate s.length (ch '/') := by
      refine List.eq_replicate_iff.2 ⟨rfl, fun c hc => ?_⟩
      exact Decidable.byContradiction fun hn => h ⟨c, hc, hn⟩
    rw [he, (C76_path_root_fails _).2]
    unfold base
    rw [List.reverse_replicate, List.dropWhile_replicate]
    simp [show ch '/' = (47 : Byte) from rfl]

end ProcP

/-- Calling `next` some times; the entries it found, or none if it stopped the program. -/
def procsOf : Nat → St → Option (List Ent)
  | 0, _ => some []
  | n + 1, s => match next s with
    | none => none
    | some (false, _) => some []
    | some (true, s) => match s.ent with
      | none => none
      | some e => (procsOf n s).map (e :: ·)

/-- C134: an iterator visits each of the processes that `ps` lists once, in its order, and shows its number, its program and the words
    of its command, whatever it was used for before. (Processes whose command starts with a blank are not covered: see below.) -/
theorem C134_lists_partial (s : St) (heading : Text) (ps : List (Nat × Proc)) (h : ∀ x ∈ ps, Proper x.2) (n : Nat) (hn : ps.length < n) :
    procsOf n (rewind s (heading :: ps.map fun x => line x.1 x.2)) =
      some (ps.map fun x => ⟨x.2.pid, program x.2, Spec.ProcIter.words x.2⟩) := by
  show procsOf n { s with p := some (ps.map fun x => line x.1 x.2) } = _
  induction ps generalizing s n with
  | nil =>
    cases n with
    | zero => cases hn
    | succ n => rfl
  | cons x ps ih =>
    cases n with
    | zero => cases hn
    | succ n =>
      unfold procsOf next
      simp only [List.map_cons, ProcP.parse_line x.1 x.2 (h x (by simp))]
      have := ih ⟨none, some (ProcP.ent x.2)⟩ (fun y hy => h y (by simp [hy])) n (by simpa using hn)
      dsimp only at this ⊢
      rw [this]; rfl

/-- Process 17 runs "/bin/sleep 600 ". -/
def sampleProc : Proc := ⟨17, str ['/', 'b', 'i', 'n', '/', 's', 'l', 'e', 'e', 'p', ' ', '6', '0', '0', ' ']⟩
theorem sampleProc_proper : Proper sampleProc :=
  ⟨by decide, by decide, by decide, _, _, rfl, by decide⟩

example : procsOf 2 (rewind new [str ['P', 'I', 'D'], line 3 sampleProc]) =
    some [⟨17, str ['/', 'b', 'i', 'n', '/', 's', 'l', 'e', 'e', 'p'],
      [str ['/', 'b', 'i', 'n', '/', 's', 'l', 'e', 'e', 'p'], str ['6', '0', '0']]⟩] := by decide +kernel

/-- C134: `wvkillall` sends the signal once to each process that runs a program of the name, in whatever directory, and to no other, and
    says whether there was one. -/
theorem C134_killall_partial (name : Text) (sig : Int) (kill : Int → Bool) (heading : Text) (ps : List (Nat × Proc))
    (h : ∀ x ∈ ps, Proper x.2) :
    (killall name sig kill (heading :: ps.map fun x => line x.1 x.2)).1.map (fun k => (k.1, k.2.1)) =
        (ps.filter fun x => base (program x.2) = name).map (fun x => ((x.2.pid : Int), sig)) ∧
      (killall name sig kill (heading :: ps.map fun x => line x.1 x.2)).2 =
        some (decide (∃ x ∈ ps, base (program x.2) = name)) := by
  unfold killall
  have key : ∀ (ps : List (Nat × Proc)) (s : St) (n : Nat) (found : Bool), (∀ x ∈ ps, Proper x.2) → ps.length < n →
      s.p = some (ps.map fun x => line x.1 x.2) →
      (killLoop name sig kill n s found).1.map (fun k => (k.1, k.2.1)) =
          (ps.filter fun x => base (program x.2) = name).map (fun x => ((x.2.pid : Int), sig)) ∧
        (killLoop name sig kill n s found).2 = some (found || decide (∃ x ∈ ps, base (program x.2) = name)) := by
    intro ps
    induction ps with
    | nil =>
      intro s n found _ hn hs
      cases n with
      | zero => cases hn
      | succ n => unfold killLoop next; rw [hs]; simp
    | cons x ps ih =>
      intro s n found h hn hs
      have hx := h x (by simp)
      obtain ⟨l, hl⟩ := ProcP.words_program x.2 hx
      cases n with
      | zero => cases hn
      | succ n =>
        have hpar := ProcP.parse_line x.1 x.2 hx
        have hne : (program x.2).isEmpty = false := by
          obtain ⟨_, _, _, c, r, hc, hn⟩ := hx
          unfold program; rw [hc]; simp [List.takeWhile_cons, hn]
        have hpid : (0 : Int) < x.2.pid := by have := hx.1; omega
        unfold killLoop next
        rw [hs]
        simp only [List.map_cons, hpar, ProcP.ent, hl, hne, Bool.not_false, Bool.true_and, ProcP.getfilename_base, hpid, decide_true,
          Bool.and_true]
        by_cases hb : base (program x.2) = name
        · rw [if_pos (by simpa using hb)]
          obtain ⟨i1, i2⟩ := ih ⟨some (ps.map fun x => line x.1 x.2), some ⟨x.2.pid, program x.2, program x.2 :: l⟩⟩ n true
            (fun y hy => h y (by simp [hy])) (by simpa using hn) rfl
          refine ⟨?_, ?_⟩
          · simp only [List.map_cons]
            rw [i1, List.filter_cons_of_pos (by simpa using hb)]; rfl
          · rw [i2]; simp [hb]
        · rw [if_neg (by simpa using hb)]
          obtain ⟨i1, i2⟩ := ih ⟨some (ps.map fun x => line x.1 x.2), some ⟨x.2.pid, program x.2, program x.2 :: l⟩⟩ n found
            (fun y hy => h y (by simp [hy])) (by simpa using hn) rfl
          refine ⟨?_, ?_⟩
          · rw [i1, List.filter_cons_of_neg (by simpa using hb)]
          · rw [i2]
            have : (∃ y, y ∈ x :: ps ∧ base (program y.2) = name) ↔ ∃ y, y ∈ ps ∧ base (program y.2) = name := by
              refine ⟨fun ⟨y, hy, e⟩ => ?_, fun ⟨y, hy, e⟩ => ⟨y, by simp [hy], e⟩⟩
              rcases List.mem_cons.1 hy with rfl | hy
              · exact absurd e hb
              · exact ⟨y, hy, e⟩
            simp only [this]
  have := key ps (rewind new (heading :: ps.map fun x => line x.1 x.2)) ((heading :: ps.map fun x => line x.1 x.2).length + 1) false h
    (by simp; omega) rfl
  simpa using this

example : killall (str ['s', 'l', 'e', 'e', 'p']) 15 (fun _ => true) [str ['P', 'I', 'D'], line 3 sampleProc, line 4 ⟨5, str ['s', 'h']⟩] =
    ([(17, 15, true)], some true) := by decide +kernel
example : ∀ x ∈ [(3, sampleProc)], Proper x.2 := by
  intro x hx; simp at hx; rw [hx]; exact sampleProc_proper

/-- C134 fails: a process that any user of the machine has started with a blank as its only argument stops the program that calls
    `wvkillall`, by an assertion. -/
theorem C134_blank_fails (name : Text) (sig : Int) (kill : Int → Bool) (heading : Text) (pad pid : Nat) (rest : List Text) :
    (killall name sig kill (heading :: line pad ⟨pid, [32]⟩ :: rest)).2 = none := by
  have ht : trimString (line pad ⟨pid, [32]⟩) = Num.dec pid := by
    have : line pad ⟨pid, [32]⟩ = List.replicate pad 32 ++ Num.dec pid ++ [32, 32] := by unfold line; simp [Num.dec, ch]
    rw [this]
    refine Http.trim_pad _ _ _ ⟨?_, ?_⟩ ?_ (by decide)
    · intro x hx; exact (ProcP.digit_facts pid x (List.mem_of_head? hx)).1
    · intro x hx; exact (ProcP.digit_facts pid x (List.mem_of_getLast? hx)).1
    · intro x hx; rw [(List.mem_replicate.1 hx).2]; decide
  have hs : Split.split [32] 2 (Num.dec pid) = [Num.dec pid] := by
    have h1 : (Num.dec pid).takeWhile (fun c => !([32] : List Byte).contains c) = Num.dec pid := by
      have := List.takeWhile_append_of_pos (l₂ := []) (fun c hc => (by simpa using (ProcP.digit_facts pid c hc).2 :
        (fun c => !([32] : List Byte).contains c) c = true)) (l₁ := Num.dec pid)
      simpa using this
    have h2 : (Num.dec pid).dropWhile (fun c => !([32] : List Byte).contains c) = [] := by
      have := List.takeWhile_append_dropWhile (p := fun c => !([32] : List Byte).contains c) (l := Num.dec pid)
      rw [h1] at this; simpa using this
    unfold Split.split
    rw [if_neg (Num.dec_ne_nil pid), Split.splitLoop, if_neg (Num.dec_ne_nil pid)]
    simp only [if_true]
    rw [if_pos (by decide)]
    unfold Split.upto
    simp only [h1, h2, splitLoop_nil]
  have hp : parse (line pad ⟨pid, [32]⟩) = none := by unfold parse; dsimp only; rw [ht, hs]
  unfold killall
  rw [killLoop]
  simp only [next, rewind, List.tail_cons, hp]

/-- C134 fails: the name of a program may have blanks, and then another name is looked for. -/
theorem C134_name_fails : killall (str ['a', ' ', 'b']) 9 (fun _ => true) [[], line 0 ⟨7, str ['a', ' ', 'b']⟩] = ([], some false) ∧
    killall (str ['a']) 9 (fun _ => true) [[], line 0 ⟨7, str ['a', ' ', 'b']⟩] = ([(7, 9, true)], some true) := by
  decide +kernel

/-- C134 fails: the answer is true also when no process took the signal. -/
theorem C134_taken_fails : ¬ ∀ (name : Text) (sig : Int) (kill : Int → Bool) (out : List Text),
    (killall name sig kill out).2 = some true → ∃ k ∈ (killall name sig kill out).1, k.2.2 = true := by
  intro h
  have := h (str ['a']) 9 (fun _ => false) [[], line 0 ⟨7, str ['a']⟩] (by decide +kernel)
  revert this; decide +kernel

end Props
