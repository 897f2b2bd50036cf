import Verif.Spec.Folders
import Verif.Model.FsGen
import Verif.Lemmas.FsSet
/-!
C71: a configuration kept in a directory is the tree that was set, and only that directory is changed.
-/
namespace Props
open Wv Wv.FsGen
open Spec.Folders (Tree Safe Under Careful History)

namespace Fs71

/-- A history of settings. -/
def run (ds : List Byte) (fs : FS) (ops : List (Key × Option (List Byte))) : FS := ops.foldl (fun fs o => set ds fs o.1 o.2) fs

/-- What every key is like: the parts have no slash in them. -/
def Parts (k : Key) : Prop := ∀ x ∈ k, ch '/' ∉ x

instance (k : Key) : Decidable (Parts k) := by unfold Parts; infer_instance

def bytes (s : String) : List Byte := s.toList.map ch
/-- A key, and a path. -/
def key (l : List String) : Key := l.map bytes

theorem run_any {fs : FS} {d : Path} (hb : Base fs d) (ds : List Byte) (hds : comps ds = d) (ops : List (Key × Option (List Byte)))
    (hk : ∀ o ∈ ops, Parts o.1) : Base (run ds fs ops) d ∧ ∀ p, ¬ d <+: p → kind (run ds fs ops) p = kind fs p := by
  induction ops generalizing fs with
  | nil => exact ⟨hb, fun _ _ => rfl⟩
  | cons o ops ih =>
    obtain ⟨h1, h2⟩ := set_any hb ds hds o.1 (hk o (by simp)) o.2
    obtain ⟨h3, h4⟩ := ih h1 (fun x hx => hk x (by simp [hx]))
    exact ⟨h3, fun p hp => (h4 p hp).trans (h2 p hp)⟩

theorem run_history {fs : FS} {d : Path} (hb : Base fs d) (ds : List Byte) (hds : comps ds = d) (ops : List (Key × Option (List Byte)))
    (hk : ∀ o ∈ ops, Parts o.1) (T : Tree) (h : History (view fs d) ops T) : view (run ds fs ops) d = T := by
  induction ops generalizing fs with
  | nil => cases h; rfl
  | cons o ops ih =>
    obtain ⟨k, v⟩ := o
    cases h with
    | set hc hs hr =>
      obtain ⟨h1, h2, _⟩ := set_spec hb ds hds k (hk (k, v) (by simp)) v hc
      rw [set_unique hs h1] at hr
      exact ih h2 (fun x hx => hk x (by simp [hx])) hr

theorem base_empty (d : Path) (h : d ≠ []) (hn : ∀ x ∈ d, NameOk x) (h1 : d.dropLast = []) : Base [] d := by
  have hk : ∀ p, kind [] p = if p = [] then some .dir else none := fun p => rfl
  refine ⟨⟨fun p x hx => ?_, fun p hp x hx => ?_, by simp⟩, h, hn, ?_, fun c => ?_, fun p _ t => ?_⟩
  · rw [hk, if_neg (by simp)] at hx; exact absurd rfl hx
  · rw [hk] at hp
    split at hp
    · next e => rw [e] at hx; cases hx
    · exact absurd rfl hp
  · rw [h1]; rfl
  · rw [hk, if_neg h]; simp
  · rw [hk]; split <;> simp

/-- A history is made of the steps that the model makes. -/
theorem history_cons {fs : FS} {d : Path} (hb : Base fs d) (ds : List Byte) (hds : comps ds = d) (k : Key) (v : Option (List Byte))
    (hk : Parts k) (hc : Careful (view fs d) k v) (ops : List (Key × Option (List Byte)))
    (h : Base (set ds fs k v) d → ∃ T, History (view (set ds fs k v) d) ops T) : ∃ T, History (view fs d) ((k, v) :: ops) T := by
  obtain ⟨h1, h2, _⟩ := set_spec hb ds hds k hk v hc
  obtain ⟨T, hT⟩ := h h2
  exact ⟨T, .set hc h1 hT⟩

theorem careful_value (T : Tree) (k : Key) (v : List Byte) (hk : k ≠ []) : Careful T k (some v) := by
  rintro (h | h)
  · cases h
  · exact absurd h hk

/-- The directory of the examples. -/
def conf : List Byte := bytes "/conf/"
def confd : Path := key ["conf"]

theorem base_conf : Base [] confd := base_empty confd (by decide +kernel) (by unfold NameOk; decide +kernel) (by decide +kernel)

end Fs71
open Fs71

/-- C71 (the tree): for every directory, and every history in which the keys set to NULL, and the root, have something over them that is
    there or a value over them, the configuration is what the history of settings says: every key that can be a file name has the value
    of the tree, others have none, and the iterator gives each key below once, with its value;
    there is none for keys that can not be file names.
    Missing: keys set to NULL where nothing is (`C71_null_fails`), keys that differ in case (`C71_case_fails`). -/
theorem C71_tree_partial (fs : FS) (ds : List Byte) (d : Path) (hb : Base fs d) (hds : comps ds = d)
    (ops : List (Key × Option (List Byte))) (hk : ∀ o ∈ ops, Parts o.1) (T : Tree) (h : History (view fs d) ops T) :
    (∀ k, Parts k → get ds (run ds fs ops) k = if Safe k then Spec.Folders.get T k else none)
    ∧ (∀ k, Parts k → Safe k → ∃ l, iter ds (run ds fs ops) k = some l ∧ (l.map (·.1)).Nodup
        ∧ ∀ e x, (e, x) ∈ l ↔ ∃ n, e = [n] ∧ T (k ++ [n]) ≠ none ∧ x = Spec.Folders.get T (k ++ [n]))
    ∧ (∀ k, ¬ Safe k → iter ds (run ds fs ops) k = none) := by
  have hv := run_history hb ds hds ops hk T h
  have hb' := (run_any hb ds hds ops hk).1
  refine ⟨fun k hp => ?_, fun k hp hs => ?_, fun k hs => ?_⟩
  · rw [get_spec hb' ds hds k hp, hv]
  · obtain ⟨l, h1, h2, h3⟩ := iter_spec hb' ds hds k hp hs
    rw [hv] at h3
    exact ⟨l, h1, h2, h3⟩
  · unfold iter
    rw [if_pos]
    simpa using fun h => hs ((keySafe_iff k).mp h)

example : comps conf = confd := by decide +kernel

/-- A history that sets, replaces and removes meets the hypotheses. -/
example : ∃ T, History (view [] confd) [(key ["a", "b"], some (bytes "1")), (key ["a", "c"], some (bytes "2")), (key ["a", "b"], none),
    (key ["a", ".."], some (bytes "3")), (key ["a"], some (bytes "4"))] T := by
  have hd : comps conf = confd := by decide +kernel
  refine history_cons base_conf conf hd _ _ (by decide +kernel) (careful_value _ _ _ (by decide +kernel)) _ fun b1 => ?_
  refine history_cons b1 conf hd _ _ (by decide +kernel) (careful_value _ _ _ (by decide +kernel)) _ fun b2 => ?_
  refine history_cons b2 conf hd _ _ (by decide +kernel) (fun _ => Or.inl (by decide +kernel)) _ fun b3 => ?_
  refine history_cons b3 conf hd _ _ (by decide +kernel) (careful_value _ _ _ (by decide +kernel)) _ fun b4 => ?_
  refine history_cons b4 conf hd _ _ (by decide +kernel) (careful_value _ _ _ (by decide +kernel)) _ fun _ => ?_
  exact ⟨_, .done _⟩

/-- C71 (nothing else): for every directory, and every history of settings, whatever the keys and the values are, nothing outside of the
    directory changes. -/
theorem C71_confined_partial (fs : FS) (ds : List Byte) (d : Path) (hb : Base fs d) (hds : comps ds = d)
    (ops : List (Key × Option (List Byte))) (hk : ∀ o ∈ ops, Parts o.1) :
    ∀ p, ¬ d <+: p → kind (run ds fs ops) p = kind fs p :=
  (run_any hb ds hds ops hk).2

/-- Keys that would lead out of the directory. -/
example : Base (run conf [] [(key ["a"], some (bytes "1"))]) confd ∧ Parts (key ["..", "etc"]) ∧ Parts (key ["a", "b"]) :=
  ⟨(run_any base_conf conf (by decide +kernel) _ (by decide +kernel)).1, by decide +kernel, by decide +kernel⟩

/-- C71: a key that is set to NULL, and was not there, leaves the keys over it there. -/
theorem C71_null_fails : Base [] confd ∧ get conf [] (key ["a"]) = none
    ∧ get conf (run conf [] [(key ["a", "b"], none)]) (key ["a"]) = some [] :=
  ⟨base_conf, by decide +kernel, by decide +kernel⟩

/-- C71: keys are the same if they differ in case only, but the files are not. -/
theorem C71_case_fails : Key.eq (key ["Port"]) (key ["port"]) = true
    ∧ get conf (run conf [] [(key ["Port"], some (bytes "80"))]) (key ["Port"]) = some (bytes "80")
    ∧ get conf (run conf [] [(key ["Port"], some (bytes "80"))]) (key ["port"]) = none := by
  decide +kernel

/-- C71: with a link to another directory in it, removing the link removes what is in that directory. -/
theorem C71_link_fails :
    let fs : FS := [(key ["conf"], .dir), (key ["home"], .dir), (key ["home", "mail"], .file (bytes "m")), (key ["conf", "x"], .link (bytes "/home"))]
    kind fs (key ["home", "mail"]) = some (.file (bytes "m"))
    ∧ kind (run conf fs [(key ["x"], none)]) (key ["home", "mail"]) = none := by
  decide +kernel

end Props
