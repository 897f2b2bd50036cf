import Verif.Spec.ConfFile
import Verif.Model.ConfFile
import Verif.Lemmas.ConfGet
import Verif.Lemmas.ConfText
/-!
C72: a configuration file holds what was set, also after it was saved and loaded.
-/
namespace Props
open Wv Wv.ConfFile
open Spec.ConfFile (same Values Op Finds Lacks Trimmed apply)

namespace Conf72

/-- What a user does. -/
def step (c : Conf) : Op → Conf
  | .set s e v => set c s e v
  | .delete s => deleteSection c s

/-- What a user does, and when it is saved. -/
inductive Act where
  | op (o : Op)
  | flush
  | save

def act (r : Conf × File) : Act → Conf × File
  | .op o => (step r.1 o, r.2)
  | .flush => flush r.1 r.2
  | .save => save r.1 r.2

def run (r : Conf × File) (l : List Act) : Conf × File := l.foldl act r

/-- The history of a configuration: the file is loaded, and then used. -/
def use (f : File) (l : List Act) : Conf × File := run (new f, f) l

def bytes (s : String) : Text := s.toList.map ch

/-- Everything is as in the file. -/
def InFile (c : Conf) (f : File) : Prop := (new f).error = false ∧ (new f).sections = c.sections ∧ (new f).global = c.global

theorem new_there (t : Text) : (new (.there false t)).error = false ∧ (new (.there false t)).sections = (loadText [] [] t).sections
    ∧ (new (.there false t)).global = (loadText [] [] t).global ∧ (new (.there false t)).dirty = false := ⟨rfl, rfl, rfl, rfl⟩

/-- What is true all the time. -/
structure Inv (r : Conf × File) : Prop where
  ok : Savable r.1.sections r.1.global
  readable : r.1.error = false → r.2 = .missing ∨ ∃ t, r.2 = .there false t
  clean : r.1.error = false → r.1.dirty = false → InFile r.1 r.2

theorem inv_new (f : File) (hn : f ≠ .nodir) : Inv (new f, f) := by
  have he : Savable [] [] := ⟨by simp, by simp, by simp, by simp⟩
  cases f with
  | nodir => exact absurd rfl hn
  | missing => exact ⟨he, fun _ => Or.inl rfl, fun _ _ => ⟨rfl, rfl, rfl⟩⟩
  | unreadable => exact ⟨he, (fun h => by cases h), fun h => by cases h⟩
  | there st t =>
    cases st with
    | true => exact ⟨he, (fun h => by cases h), fun h => by cases h⟩
    | false => exact ⟨load_ok t, fun _ => Or.inr ⟨t, rfl⟩, fun _ _ => ⟨rfl, rfl, rfl⟩⟩

theorem save_last (c : Conf) (f : File) : (saveSteps c f).getLast? = some (.there (match f with
    | .there sticky _ => sticky
    | _ => false) (saveText c)) := by
  unfold saveSteps
  dsimp only
  rw [List.getLast?_append]; rfl

theorem inv_save {r : Conf × File} (h : Inv r) (he : r.1.error = false) : (save r.1 r.2).1 = r.1 ∧ InFile r.1 (save r.1 r.2).2
    ∧ ∃ t, (save r.1 r.2).2 = .there false t := by
  have key : save r.1 r.2 = (r.1, .there false (saveText r.1)) := by
    unfold save
    rw [if_neg (by rw [he]; decide)]
    rcases h.readable he with hf | ⟨t, hf⟩
    · rw [hf]; dsimp only; rw [save_last]; rfl
    · rw [hf]; dsimp only; rw [save_last]; rfl
  rw [key]
  obtain ⟨h1, h2⟩ := load_save h.ok
  exact ⟨rfl, ⟨rfl, h1, h2⟩, saveText r.1, rfl⟩

theorem set_error (c : Conf) (s e : Text) (v : Option Text) : (set c s e v).error = c.error ∧ (set c s e v).global = c.global
    ∧ (set c s e v = c ∨ (set c s e v).dirty = true) := by
  rcases set_eq c s e v with ⟨_, heq⟩ | ⟨_, heq⟩
  · rw [heq]; exact ⟨rfl, rfl, Or.inl rfl⟩
  · rw [heq]; exact ⟨rfl, rfl, Or.inr rfl⟩

theorem step_error (c : Conf) (o : Op) : (step c o).error = c.error ∧ (step c o = c ∨ (step c o).dirty = true) := by
  cases o with
  | set s e v => exact ⟨(set_error c s e v).1, (set_error c s e v).2.2⟩
  | delete s =>
    unfold step deleteSection
    dsimp only
    split
    · exact ⟨rfl, Or.inl rfl⟩
    · exact ⟨rfl, Or.inr rfl⟩

/-- Only names and values that can be saved. -/
def Plain (l : List Act) : Prop := ∀ o, Act.op o ∈ l → o.Plain

theorem inv_act {r : Conf × File} (h : Inv r) (a : Act) (hp : ∀ o, a = .op o → o.Plain) : Inv (act r a) := by
  cases a with
  | op o =>
    have hpl := hp o rfl
    obtain ⟨h1, h2⟩ := step_error r.1 o
    refine ⟨?_, fun he => h.readable (h1.symm.trans he), fun he hd => ?_⟩
    · cases o with
      | set s e v => exact set_ok h.ok s e v hpl.1 hpl.2.1 hpl.2.2
      | delete s => exact delete_ok h.ok s
    · rcases h2 with h2 | h2
      · show InFile (step r.1 o) r.2
        have hd' : r.1.dirty = false := by rw [← h2]; exact hd
        rw [h2]; exact h.clean (h1.symm.trans he) hd'
      · have : (step r.1 o).dirty = false := hd
        rw [h2] at this; cases this
  | flush =>
    show Inv (flush r.1 r.2)
    unfold flush
    by_cases hc : (!r.1.dirty || r.1.error) = true
    · rw [if_pos hc]; exact h
    · rw [if_neg hc]
      have he : r.1.error = false := by
        cases hx : r.1.error with
        | false => rfl
        | true => rw [hx] at hc; simp at hc
      obtain ⟨h1, h2, t, h3⟩ := inv_save h he
      dsimp only
      refine ⟨?_, fun _ => Or.inr ⟨t, h3⟩, fun _ _ => ?_⟩
      · rw [h1]; exact h.ok
      · rw [h1]; exact h2
  | save =>
    show Inv (save r.1 r.2)
    by_cases he : r.1.error = false
    · obtain ⟨h1, h2, t, h3⟩ := inv_save h he
      refine ⟨by rw [h1]; exact h.ok, fun _ => Or.inr ⟨t, h3⟩, fun _ _ => by rw [h1]; exact h2⟩
    · have : save r.1 r.2 = (r.1, r.2) := by unfold save; rw [if_pos (by simpa using he)]
      rw [this]; exact h

theorem inv_run {r : Conf × File} (h : Inv r) (l : List Act) (hp : Plain l) : Inv (run r l) := by
  induction l generalizing r with
  | nil => exact h
  | cons a l ih => exact ih (inv_act h a (fun o ho => hp o (by simp [ho]))) (fun o ho => hp o (by simp [ho]))

theorem flush_clean {r : Conf × File} (h : Inv r) (he : r.1.error = false) : (flush r.1 r.2).1.error = false ∧ (flush r.1 r.2).1.dirty = false := by
  unfold flush
  by_cases hc : (!r.1.dirty || r.1.error) = true
  · rw [if_pos hc]
    refine ⟨he, ?_⟩
    rw [he] at hc
    simpa using hc
  · rw [if_neg hc]
    dsimp only
    rw [(inv_save h he).1]
    exact ⟨he, rfl⟩

theorem get_same {c d : Conf} (h1 : c.sections = d.sections) (h2 : c.global = d.global) (s e : Text) (x : Option Text) : get c s e x = get d s e x := by
  have hf : find c = find d := by funext s; unfold find; rw [h1]
  have hn : next c = next d := by funext x; unfold next; rw [hf]
  have hl : ∀ n cache cur, getLoop c e n cache cur = getLoop d e n cache cur := by
    intro n
    induction n with
    | zero => intro cache cur; rfl
    | succ n ih =>
      intro cache cur
      cases cur with
      | none => rfl
      | some s =>
        unfold getLoop
        split
        · rfl
        · cases entGet s.entries e with
          | some v => rfl
          | none => dsimp only; rw [ih, hn]
  unfold ConfFile.get
  rw [hl, h1, h2, hf]

theorem there_full (c : Conf) (st : Bool) (h : Savable c.sections c.global) :
    (new (.there st (saveText c))).error = true ∨ ((new (.there st (saveText c))).sections = c.sections
      ∧ ∀ s e d, ConfFile.get (new (.there st (saveText c))) s e d = ConfFile.get c s e d) := by
  cases st with
  | true => exact Or.inl rfl
  | false =>
    obtain ⟨h1, h2⟩ := load_save h
    exact Or.inr ⟨h1, fun s e d => get_same h1 h2 s e d⟩

theorem trimmed_id {t : Text} (h : Trimmed t) : trimString t = t := trim_id h

end Conf72
open Conf72

/-- C72 (values): for every configuration in which no two names are the same and no value is empty, such as a new one, and every history
    of settings and deletions of sections with entries that are named without white space around them: every entry of every section has
    the value that it was last set to, unless that was NULL or empty or the section was deleted since; case does not matter.
    Missing: white space around names (`C72_trim_fails`), files with empty values (`C72_empty_fails`) or entries that are there twice
    (`C72_twice_fails`). -/
theorem C72_values_partial (c : Conf) (h : Tidy c) (l : List Op) (ht : ∀ s e v, Op.set s e v ∈ l → Trimmed e) (s e : Text) :
    val (l.foldl step c) s e = l.foldl apply (val c) s e := by
  have key : ∀ (l : List Op) (c : Conf), Tidy c → (∀ s e v, Op.set s e v ∈ l → Trimmed e) → val (l.foldl step c) = l.foldl apply (val c) := by
    intro l
    induction l with
    | nil => intro c _ _; rfl
    | cons o l ih =>
      intro c h ht
      rw [List.foldl_cons, List.foldl_cons]
      have hstep : val (step c o) = apply (val c) o ∧ Tidy (step c o) := by
        cases o with
        | set s e v =>
          refine ⟨?_, set_tidy h s e v⟩
          funext s' e'
          exact set_val h s e v (trimmed_id (ht s e v (by simp))) s' e'
        | delete s =>
          refine ⟨?_, delete_tidy h s⟩
          funext s' e'
          exact delete_val h s s' e'
      rw [ih (step c o) hstep.2 (fun s e v hm => ht s e v (by simp [hm])), hstep.1]
  rw [key l c h ht]

example : Tidy (new .missing) ∧ Trimmed (bytes "a b") ∧
    val ([Op.set (bytes "S") (bytes "a b") (some (bytes "1")), .set (bytes "s") (bytes "A B") (some (bytes " 2"))].foldl step (new .missing)) (bytes "S") (bytes "a b")
      = some (bytes " 2") :=
  ⟨⟨(by decide), (by intro s hs; cases hs)⟩, (by unfold Trimmed; decide +kernel), by decide +kernel⟩

/-- C72 (inheritance): for every configuration, `get` gives the value of the first section in the chain of "Inherits" that has the
    entry; also if the chain is a circle. If there is none, it gives that of the global section, and else the default. -/
theorem C72_get (c : Conf) (s e : Text) (d : Option Text) :
    (∃ v, Finds (val c) s e v ∧ get c s e d = some v) ∨ (Lacks (val c) s e ∧ get c s e d = (entGet c.global e).or d) :=
  get_spec c s e d

/-- A circle. -/
example :
    let c := new (.there false (bytes "g = 0\n[a]\nInherits = B\n[b]\nx = 1\ninherits = C\n[c]\ny = 2\nInherits = a\n"))
    get c (bytes "A") (bytes "y") none = some (bytes "2") ∧ get c (bytes "a") (bytes "x") none = some (bytes "1")
    ∧ get c (bytes "a") (bytes "z") none = none ∧ get c (bytes "b") (bytes "G") none = some (bytes "0") := by
  decide +kernel

/-- C72 (`fuzzy_get` with one entry): for every configuration and every list of sections, the value is that of the first section in the
    list for which there is one along the chain. Missing: with several entries, see `C72_fuzzy_fails`. -/
theorem C72_fuzzy_partial (c : Conf) (e : Text) (d : Option Text) (ss : List Text) :
    (∃ a s b v, ss = a ++ s :: b ∧ (∀ t ∈ a, Lacks (val c) t e) ∧ Finds (val c) s e v ∧ fuzzyGet1 c e d [] ss = some v)
    ∨ ((∀ t ∈ ss, Lacks (val c) t e) ∧ fuzzyGet1 c e d [] ss = d) :=
  fuzzy_spec c e d ss [] (by intro t ht; cases ht) (by simp)

example :
    let c := new (.there false (bytes "[a]\nInherits = c\n[b]\nInherits = c\nx = 1\n[c]\ny = 2\n"))
    fuzzyGet1 c (bytes "x") none [] [bytes "a", bytes "b"] = some (bytes "1") := by
  decide +kernel

/-- C72 (callbacks): `set` calls those callbacks that were added for the section, or all sections, and the entry, or all entries, each
    once, with the old and the new value, if the value changes, and then the configuration is to be saved; and otherwise nothing changes. -/
theorem C72_callbacks (c : Conf) (s e : Text) (v : Option Text) :
    let old := (val c s e).getD []
    let new := v.getD []
    (old = new → set c s e v = c)
    ∧ (old ≠ new → (set c s e v).dirty = true ∧ (set c s e v).callbacks = c.callbacks ∧
        (set c s e v).calls = c.calls ++ (c.callbacks.filter fun b => decide ((b.sect = [] ∨ same b.sect s) ∧ (b.entry = [] ∨ same b.entry e))).map
          fun b => ⟨b.cookie, s, e, old, new⟩) := by
  intro old new
  rcases set_eq c s e v with ⟨h, heq⟩ | ⟨h, heq⟩
  · exact ⟨fun _ => heq, fun hn => absurd h hn⟩
  · refine ⟨fun he => absurd he h, fun _ => ?_⟩
    rw [heq]
    refine ⟨rfl, rfl, ?_⟩
    dsimp only
    congr 2
    apply List.filter_congr
    intro b _
    rw [Bool.eq_iff_iff]
    simp only [Bool.and_eq_true, Bool.or_eq_true, decide_eq_true_iff, ci_iff]

example :
    let c := addCallback (addCallback (addCallback (new .missing) ⟨bytes "s", bytes "a", 1⟩) ⟨bytes "S", [], 2⟩) ⟨[], bytes "b", 3⟩
    (set c (bytes "s") (bytes "A") (some (bytes "x"))).calls.map (·.cookie) = [1, 2] := by
  decide +kernel

/-- C72 (saving): for every file that is loaded, whatever is in it, and every history of settings, deletions, flushes and saves with
    names and values that are single lines, without white space at the ends, and names that are not like other parts of the file: if
    the configuration is clean, then loading the file gives the same sections and the same answers.
    Missing: when the directory of the file is not there (`C72_nodir_fails`), and names and values that are not plain (`C72_names_fails`). -/
theorem C72_saved_partial (f : File) (hn : f ≠ .nodir) (l : List Act) (hp : Plain l) :
    let r := use f l
    r.1.error = false → r.1.dirty = false →
    (new r.2).error = false ∧ (new r.2).sections = r.1.sections ∧ ∀ s e d, get (new r.2) s e d = get r.1 s e d := by
  intro r he hd
  obtain ⟨h1, h2, h3⟩ := (inv_run (inv_new f hn) l hp).clean he hd
  exact ⟨h1, h2, fun s e d => get_same h2 h3 s e d⟩

/-- C72 (`flush`): after `flush`, and when the configuration was loaded, the configuration is clean, so that `C72_saved_partial` applies. -/
theorem C72_flush (f : File) (hn : f ≠ .nodir) (l : List Act) (hp : Plain l) (he : (use f l).1.error = false) :
    (use f (l ++ [.flush])).1.error = false ∧ (use f (l ++ [.flush])).1.dirty = false := by
  unfold use run
  rw [List.foldl_append]
  exact flush_clean (inv_run (inv_new f hn) l hp) he

example : Plain [.op (.set (bytes "sect ion") (bytes "en [try]") (some (bytes "val = [ue]"))), .op (.delete (bytes "]"))] := by
  intro o ho
  rcases List.mem_cons.mp ho with h | h
  · injection h with h; rw [h]
    refine ⟨?_, ?_, fun t ht => ?_⟩
    · unfold Spec.ConfFile.SectName Spec.ConfFile.Line Trimmed; decide +kernel
    · unfold Spec.ConfFile.EntryName Spec.ConfFile.Line Trimmed; decide +kernel
    · injection ht with ht; rw [← ht]; unfold Spec.ConfFile.Line Trimmed; decide +kernel
  · rcases List.mem_cons.mp h with h | h
    · injection h with h; rw [h]; trivial
    · cases h

/-- C72 (crashes): for every such history, if `save` is stopped at any point after it has marked the file, then whoever loads the file is
    refused, or finds everything that was to be saved.
    Missing: when it is stopped before it has marked the file (`C72_window_fails`). -/
theorem C72_crash_partial (f : File) (hn : f ≠ .nodir) (l : List Act) (hp : Plain l) (g : File) (hg : g ∈ (saveSteps (use f l).1 (use f l).2).tail) :
    (new g).error = true ∨ ((new g).sections = (use f l).1.sections ∧ ∀ s e d, get (new g) s e d = get (use f l).1 s e d) := by
  have h := inv_run (inv_new f hn) l hp
  unfold saveSteps at hg
  rw [List.cons_append, List.tail_cons] at hg
  rcases List.mem_append.mp hg with hg | hg
  · obtain ⟨n, _, hn⟩ := List.mem_map.mp hg
    rw [← hn]; exact Or.inl rfl
  · rw [List.mem_singleton.mp hg]
    exact there_full _ _ h.ok

example : (new (.there true (bytes "[a]\nb"))).error = true ∧ File.there true (bytes "[a]\nb") ∈
    (saveSteps (use (.there false (bytes "[a]\nb = 1\n")) []).1 (.there false (bytes "[a]\nb = 1\n"))).tail.map (fun
      | .there t x => .there t (x.drop 1)
      | f => f) := by
  decide +kernel

/-- C72 (errors): a file that could not be loaded is never changed, whatever is set, flushed or saved. -/
theorem C72_error_keeps (f : File) (h : (new f).error = true) (l : List Act) : (use f l).2 = f ∧ (use f l).1.error = true := by
  have key : ∀ (l : List Act) (r : Conf × File), r.1.error = true → (run r l).2 = r.2 ∧ (run r l).1.error = true := by
    intro l
    induction l with
    | nil => intro r h; exact ⟨rfl, h⟩
    | cons a l ih =>
      intro r h
      have ha : (act r a).2 = r.2 ∧ (act r a).1.error = true := by
        cases a with
        | op o => exact ⟨rfl, (step_error r.1 o).1.trans h⟩
        | flush =>
          show (flush r.1 r.2).2 = _ ∧ _
          unfold act flush
          rw [if_pos (by rw [h]; simp)]
          exact ⟨rfl, h⟩
        | save =>
          show (save r.1 r.2).2 = _ ∧ _
          unfold act save
          rw [if_pos h]
          exact ⟨rfl, h⟩
      obtain ⟨h1, h2⟩ := ih (act r a) ha.2
      exact ⟨h1.trans ha.1, h2⟩
  exact key l (new f, f) h

example : (new (.there true (bytes "x"))).error = true ∧ (new .unreadable).error = true := by decide +kernel

/-- C72 (errors while saving): a file that can not be written is not changed, and from then on the configuration has an error. -/
theorem C72_unwritable (c : Conf) (h : c.error = false) (l : List Act) :
    (run (act (c, .unreadable) .save) l).2 = .unreadable ∧ (run (act (c, .unreadable) .save) l).1.error = true
    ∧ (c.dirty = true → (act (c, .unreadable) .flush).2 = .unreadable ∧ (act (c, .unreadable) .flush).1.error = true) := by
  have h1 : save c .unreadable = ({ c with error := true }, .unreadable) := by unfold save; rw [if_neg (by rw [h]; decide)]
  have key : ∀ (l : List Act) (r : Conf × File), r.1.error = true → (run r l).2 = r.2 ∧ (run r l).1.error = true := by
    intro l
    induction l with
    | nil => intro r h; exact ⟨rfl, h⟩
    | cons a l ih =>
      intro r h
      have ha : (act r a).2 = r.2 ∧ (act r a).1.error = true := by
        cases a with
        | op o => exact ⟨rfl, (step_error r.1 o).1.trans h⟩
        | flush =>
          show (flush r.1 r.2).2 = _ ∧ _
          unfold act flush
          rw [if_pos (by rw [h]; simp)]
          exact ⟨rfl, h⟩
        | save =>
          show (save r.1 r.2).2 = _ ∧ _
          unfold act save
          rw [if_pos h]
          exact ⟨rfl, h⟩
      obtain ⟨h1, h2⟩ := ih (act r a) ha.2
      exact ⟨h1.trans ha.1, h2⟩
  have h2 := key l (act (c, .unreadable) .save) (by show (save c .unreadable).1.error = true; rw [h1])
  refine ⟨h2.1.trans (by show (save c .unreadable).2 = _; rw [h1]), h2.2, fun hd => ?_⟩
  show (flush c .unreadable).2 = _ ∧ (flush c .unreadable).1.error = true
  unfold flush
  rw [if_neg (by rw [h, hd]; decide), h1]
  exact ⟨rfl, rfl⟩

example : (set (new .missing) (bytes "s") (bytes "a") (some (bytes "1"))).error = false
    ∧ (set (new .missing) (bytes "s") (bytes "a") (some (bytes "1"))).dirty = true := by decide +kernel

/-- C72 (loading): a section with an entry at the end of a file sets that entry of that section and no other, whatever is in the file before, also if the section
    or the entry was there before. -/
theorem C72_append (t s e v : Text) (hs : Spec.ConfFile.SectName s) (he : Spec.ConfFile.EntryName e) (hv : Spec.ConfFile.Line v) (hv0 : v ≠ []) (s' e' : Text) :
    val (new (.there false (t ++ [10] ++ bytes "[" ++ s ++ bytes "]" ++ [10] ++ e ++ bytes " = " ++ v ++ [10]))) s' e'
      = if same s' s ∧ same e' e then some v else val (new (.there false t)) s' e' := by
  have hok : EntOk ⟨e, v⟩ := by
    refine ⟨he.1, he.2.1, he.2.2.1, hv, ?_⟩
    apply Decidable.byContradiction
    intro hp
    obtain ⟨n1, v1, h1, _⟩ := line_section he.2.1 hp
    exact he.2.2.2 (by rw [h1]; rfl)
  have ht : t ++ [10] ++ bytes "[" ++ s ++ bytes "]" ++ [10] ++ e ++ bytes " = " ++ v ++ [10]
      = t ++ 10 :: (ch '[' :: s ++ str [']'] ++ 10 :: (entLine ⟨e, v⟩ ++ [10])) := by
    unfold entLine
    rw [if_pos hv0]
    have h1 : bytes "[" = [ch '['] := by decide +kernel
    have h2 : bytes "]" = str [']'] := by decide +kernel
    have h3 : bytes " = " = str [' ', '=', ' '] := by decide +kernel
    rw [h1, h2, h3]
    simp
  rw [ht]
  have hl : ∀ x, val (new (.there false x)) s' e' = (findS (loadText [] [] x).sections s').bind fun x => entGet x.entries e' := fun x => rfl
  rw [hl, hl]
  unfold loadText lines
  rw [lines_after]
  exact load_append _ hs hok hv0 s' e'

example : Spec.ConfFile.SectName (bytes "S") ∧ Spec.ConfFile.EntryName (bytes "a") ∧ Spec.ConfFile.Line (bytes "3") :=
  ⟨⟨⟨⟨(by decide +kernel), by decide +kernel⟩, by decide +kernel⟩, by decide +kernel, by decide +kernel⟩,
   ⟨⟨⟨(by decide +kernel), by decide +kernel⟩, by decide +kernel⟩, by decide +kernel, by decide +kernel, by decide +kernel⟩, ⟨(by decide +kernel), by decide +kernel⟩, by decide +kernel⟩
example : val (new (.there false (bytes "[s]\na = 1\n[t]\nb = 2\n\n[S]\nA = 3\n"))) (bytes "s") (bytes "a") = some (bytes "3")
    ∧ val (new (.there false (bytes "[s]\na = 1\n[t]\nb = 2\n\n[S]\nA = 3\n"))) (bytes "t") (bytes "a") = none := by decide +kernel

/-- C72: an entry that is set with white space around its name is not found by that name. -/
theorem C72_trim_fails : get (set (new .missing) (bytes "s") (bytes " a") (some (bytes "1"))) (bytes "s") (bytes " a") none = none := by
  decide +kernel

/-- C72: an entry with an empty value in the file is there, and setting it to NULL does not remove it. -/
theorem C72_empty_fails :
    let c := new (.there false (bytes "[s]\na =\n"))
    val c (bytes "s") (bytes "a") = some [] ∧ val (set c (bytes "s") (bytes "a") none) (bytes "s") (bytes "a") = some [] := by
  decide +kernel

/-- C72: an entry that is in the file twice has the first value, and setting it to NULL gives it the second. But if the section begins
    twice, it has the second value. -/
theorem C72_twice_fails :
    let c := new (.there false (bytes "[s]\na = 1\na = 2\n"))
    val c (bytes "s") (bytes "a") = some (bytes "1") ∧ val (set c (bytes "s") (bytes "a") none) (bytes "s") (bytes "a") = some (bytes "2")
    ∧ val (new (.there false (bytes "[s]\na = 1\n[s]\na = 2\n"))) (bytes "s") (bytes "a") = some (bytes "2") := by
  decide +kernel

/-- C72: `fuzzy_get` with several entries does not find the second of them in a section in which it looked for the first. -/
theorem C72_fuzzy_fails :
    let c := new (.there false (bytes "[s]\nb = 1\n"))
    val c (bytes "s") (bytes "b") = some (bytes "1")
    ∧ fuzzyGet c none [] [(bytes "s", bytes "a"), (bytes "s", bytes "b")] = none := by
  decide +kernel

/-- C72: names and values that are not plain are not the same after they were saved and loaded. -/
theorem C72_names_fails :
    let saved := fun (s e v : String) => val (new (use .missing [.op (.set (bytes s) (bytes e) (some (bytes v))), .flush]).2) (bytes s) (bytes e)
    saved "s" "a=b" "1" = none ∧ saved "s" "[a" "1]" = none ∧ saved "s]" "a" "1" = none ∧ saved "s" "a" " 1 " = some (bytes "1")
    ∧ saved "s" "a" "1\nb=2" = some (bytes "1") := by
  decide +kernel

/-- C72: if the directory of the file is not there, nothing is saved, but the configuration is clean. -/
theorem C72_nodir_fails :
    let r := use .nodir [.op (.set (bytes "s") (bytes "a") (some (bytes "1"))), .flush]
    r.1.error = false ∧ r.1.dirty = false ∧ r.2 = .nodir ∧ get r.1 (bytes "s") (bytes "a") none = some (bytes "1") := by
  decide +kernel

/-- C72: when `save` is stopped before it has marked the file, the file is empty, and is loaded as such. -/
theorem C72_window_fails :
    let c := new (.there false (bytes "[s]\na = 1\n"))
    (saveSteps c (.there false (bytes "[s]\na = 1\n"))).head? = some (.there false [])
    ∧ (new (.there false [])).error = false ∧ get (new (.there false [])) (bytes "s") (bytes "a") none = none := by
  decide +kernel

/-- C72: when another process was stopped while it saved, the mark stays, although everything is saved again. -/
theorem C72_stuck_fails :
    let c := set (new (.there false (bytes "[s]\na = 1\n"))) (bytes "s") (bytes "a") (some (bytes "2"))
    (flush c (.there true (bytes "[s"))).2 = .there true (saveText c) ∧ (flush c (.there true (bytes "[s"))).1.dirty = false
    ∧ (new (flush c (.there true (bytes "[s"))).2).error = true := by
  decide +kernel

end Props
