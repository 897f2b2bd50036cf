import Verif.Lemmas.DirWalk
/-
C78: a directory iterator shows everything in a directory tree once, in the order of the directories, under the right
names.
-/
namespace Props
open Wv Wv.DirWalk Spec.DirWalk

/-- A directory "d" on the device 1: "a", then the directory "b" with "x" and the directory "e" with "y", a name that is
    gone, "." and "..", "c". -/
def exDir : Dir :=
  .cons (str ['.']) (.dir 1 true .nil) (.cons (str ['a']) (.file 1)
    (.cons (str ['b']) (.dir 1 true
      (.cons (str ['x']) (.file 1) (.cons (str ['e']) (.dir 1 true (.cons (str ['y']) (.file 1) .nil)) .nil)))
      (.cons (str ['z']) .gone (.cons (str ['.', '.']) (.dir 1 true .nil) (.cons (str ['c']) (.file 1) .nil)))))

theorem exDir_good : exDir.Good := by
  simp only [exDir, Dir.Good, Dir.names, Node.Good]
  repeat' apply And.intro
  all_goals first | exact trivial | decide +kernel

/-- C78. For every directory tree, however deep and wide, and whatever directories in it can not be read: an iterator that
    does not skip mounts shows every file once, in the order of the directories, what is in a directory right after it; with
    "." and ".." and names that are gone left out, and with the names that lead to the file from where the program is and
    from where the iteration started. One that does not recurse shows just what is in the directory. The trailing slash of
    the name that is given does not matter. -/
theorem C78_walk (dirname : List Byte) (hd : strip dirname ≠ []) (recurse : Bool) (es : Dir) (hg : es.Good) (n : Nat) :
    (run n (new dirname recurse false (some es)).rewind).1
      = (visitAll (fun _ => recurse) (strip dirname) [] es).take n := by
  have := (run_new dirname recurse false 0 es hd hg (fun h => by (cases h)) n _ rfl).1
  have he : ents recurse false 0 = fun _ => recurse := by funext d; simp [ents]
  rw [this, he]

example : exDir.Good ∧ strip (str ['d', '/']) = str ['d'] ∧
    (visitAll (fun _ => true) (str ['d']) [] exDir).map (fun e => (e.full, e.rel, e.isDir)) =
      [(str ['d', '/', 'a'], str ['a'], false), (str ['d', '/', 'b'], str ['b'], true),
       (str ['d', '/', 'b', '/', 'x'], str ['b', '/', 'x'], false),
       (str ['d', '/', 'b', '/', 'e'], str ['b', '/', 'e'], true),
       (str ['d', '/', 'b', '/', 'e', '/', 'y'], str ['b', '/', 'e', '/', 'y'], false),
       (str ['d', '/', 'c'], str ['c'], false)] ∧
    (visitAll (fun _ => false) (str ['d']) [] exDir).length = 3 := by
  refine ⟨?_, by decide +kernel, by decide +kernel, by decide +kernel⟩
  exact exDir_good

/-- C78, where it ends: after everything was shown `next` says so, also when it is called again. -/
theorem C78_end (dirname : List Byte) (hd : strip dirname ≠ []) (recurse : Bool) (es : Dir) (hg : es.Good) (n : Nat)
    (hn : (visitAll (fun _ => recurse) (strip dirname) [] es).length ≤ n) :
    (next (run n (new dirname recurse false (some es)).rewind).2).1 = false := by
  have he : ents recurse false 0 = fun _ => recurse := by funext d; simp [ents]
  obtain ⟨_, ⟨p, frs, hc, h1, h2, h3⟩, h4, _, h6⟩ := run_new dirname recurse false 0 es hd hg (fun h => by (cases h)) n _ rfl
  rw [he, List.drop_eq_nil_of_le hn] at h3
  have := (run_spec (strip dirname) recurse false 0 1 _ p frs hc h1 h2 h4 h6).1
  rw [he, h3] at this
  revert this
  generalize (run n (new dirname recurse false (some es)).rewind).2 = it
  unfold run
  cases hx : next it with
  | mk b y =>
    cases b with
    | false => intro _; rfl
    | true => intro h; cases h

/-- C78, a directory that can not be opened: nothing is shown. -/
theorem C78_unreadable (dirname : List Byte) (recurse skip : Bool) (n : Nat) :
    (run n (new dirname recurse skip none).rewind).1 = [] := by
  have h : (new dirname recurse skip none).rewind.frames = [] := by
    unfold Iter.rewind new
    simp only [ite_self]
    rfl
  cases n with
  | zero => rfl
  | succ n =>
    unfold run next
    rw [h]

/-- What is not so: the root directory can be iterated over. The slash that is all of its name is taken off, too, and nothing
    has the empty name. -/
theorem C78_root_fails : ∃ es : Dir, es.Good ∧ visitAll (fun _ => true) [] [] es ≠ [] ∧
    ∀ n, (run n (new (str ['/']) true false (some es)).rewind).1 = [] := by
  refine ⟨.cons (str ['a']) (.file 1) .nil, ?_, by decide +kernel, ?_⟩
  · simp only [Dir.Good, Dir.names, Node.Good]
    repeat' apply And.intro
    all_goals first | exact trivial | decide +kernel
  · intro n
    cases n with
    | zero => rfl
    | succ n => rfl

/-- C78, the mounts. With `skip_mounts`, an iterator goes into the directories that are on the device `d0` and not into
    others, if the first file in the directory is on `d0`. (The property wants `d0` to be the device of the directory.) -/
theorem C78_same_device_partial (dirname : List Byte) (hd : strip dirname ≠ []) (recurse : Bool) (es : Dir) (hg : es.Good)
    (d0 : Nat) (hf : ∀ d, es.firstDev = some d → d = d0) (n : Nat) :
    (run n (new dirname recurse true (some es)).rewind).1
      = (visitAll (fun d => recurse && d == d0) (strip dirname) [] es).take n := by
  have := (run_new dirname recurse true d0 es hd hg (fun _ => hf) n _ rfl).1
  have he : ents recurse true d0 = fun d => recurse && d == d0 := by funext d; simp [ents]
  rw [this, he]

example : exDir.Good ∧ exDir.firstDev = some 1 := by
  refine ⟨?_, by decide +kernel⟩
  exact exDir_good

/-- What is not so: with `skip_mounts` an iterator stays on the device of the directory it starts with. It takes the first
    file that it finds for that directory: if another device is mounted there, it goes into that one and not into the
    directories that are on the device of the directory itself, here 1. -/
theorem C78_same_device_fails : ∃ (es : Dir), es.Good ∧
    (run 9 (new (str ['d']) true true (some es)).rewind).1
      = visitAll (fun d => d == 2) (str ['d']) [] es ∧
    (run 9 (new (str ['d']) true true (some es)).rewind).1
      ≠ visitAll (fun d => d == 1) (str ['d']) [] es := by
  refine ⟨.cons (str ['m']) (.dir 2 true (.cons (str ['x']) (.file 2) .nil))
    (.cons (str ['h']) (.dir 1 true (.cons (str ['y']) (.file 1) .nil)) .nil), ?_, by decide +kernel, by decide +kernel⟩
  simp only [Dir.Good, Dir.names, Node.Good]
  repeat' apply And.intro
  all_goals first | exact trivial | decide +kernel

/-- C78, another time from the start, if what was shown last is in the directory itself (or everything was shown): after
    `rewind` the iterator shows everything again. -/
theorem C78_rewind_partial (dirname : List Byte) (hd : strip dirname ≠ []) (recurse skip : Bool) (es : Dir) (hg : es.Good)
    (k n : Nat) (h1 : depth (run k (new dirname recurse skip (some es)).rewind).2 = 1) :
    (run n (run k (new dirname recurse skip (some es)).rewind).2.rewind).1
      = (run n (new dirname recurse skip (some es)).rewind).1 := by
  have hf : skip = true → ∀ d, es.firstDev = some d → d = es.firstDev.getD 0 := by
    intro _ d h; rw [h]; rfl
  obtain ⟨_, ⟨p, frs, hc, e1, e2, e3⟩, e4, e5, e6⟩ :=
    run_new dirname recurse skip _ es hd hg hf k _ rfl
  rw [(run_new dirname recurse skip _ es hd hg hf n _ rfl).1]
  revert e1 e2 e4 e5 e6 h1
  generalize (run k (new dirname recurse skip (some es)).rewind).2 = it
  intro h1 e1 e2 e4 e5 e6
  obtain ⟨g, g1, g2⟩ := chain_last _ hc
  unfold depth at h1
  rw [e1, List.length_map, List.length_cons] at h1
  have hfrs : frs = [] := List.length_eq_zero_iff.1 (by omega)
  subst hfrs
  have hb := chain_base (f := p.1) (rel := p.2) hc
  have hfr : it.rewind.frames = [⟨strip dirname, es⟩] := by
    unfold Iter.rewind
    rw [e1, g1, e5]
    simp only
    rw [← g2]
  have := (run_spec (strip dirname) recurse skip (es.firstDev.getD 0) n it.rewind (⟨strip dirname, es⟩, []) [] (.top es hg) hfr
    (e2.trans hb.2) e4 ⟨e6.1, e6.2.1, fun hs => by
      rcases e6.2.2 hs with h | ⟨h, _⟩
      · exact Or.inl h
      · exact Or.inr ⟨h, _, hfr, fun n nd rest hr => hf hs _ (readOk_firstDev es n nd rest hr)⟩⟩).1
  rw [this]
  simp [pend]

example : depth (run 2 (new (str ['d']) false false (some exDir)).rewind).2 = 1 ∧
    depth (run 9 (new (str ['d']) true false (some exDir)).rewind).2 = 1 := by decide +kernel

/-- C78, another time from the start, in any case: after `rewind` everything is shown again, with the right names from where
    the program is. -/
theorem C78_rewind_names (dirname : List Byte) (hd : strip dirname ≠ []) (recurse skip : Bool) (es : Dir) (hg : es.Good)
    (k n : Nat) :
    (run n (run k (new dirname recurse skip (some es)).rewind).2.rewind).1.map (fun e => (e.full, e.name, e.isDir))
      = (run n (new dirname recurse skip (some es)).rewind).1.map (fun e => (e.full, e.name, e.isDir)) := by
  have hf : skip = true → ∀ d, es.firstDev = some d → d = es.firstDev.getD 0 := by
    intro _ d h; rw [h]; rfl
  obtain ⟨_, ⟨p, frs, hc, e1, e2, e3⟩, e4, e5, e6⟩ :=
    run_new dirname recurse skip _ es hd hg hf k _ rfl
  rw [(run_new dirname recurse skip _ es hd hg hf n _ rfl).1]
  revert e1 e2 e4 e5 e6
  generalize (run k (new dirname recurse skip (some es)).rewind).2 = it
  intro e1 e2 e4 e5 e6
  obtain ⟨g, g1, g2⟩ := chain_last _ hc
  have hfr : it.rewind.frames = [⟨strip dirname, es⟩] := by
    unfold Iter.rewind
    rw [e1, g1, e5]
    simp only
    rw [← g2]
  have hs := run_same n it.rewind { it.rewind with rel := [] } ⟨rfl, rfl, rfl, rfl, rfl, rfl, rfl, rfl, rfl⟩
  have := (run_spec (strip dirname) recurse skip (es.firstDev.getD 0) n { it.rewind with rel := [] }
    (⟨strip dirname, es⟩, []) [] (.top es hg) hfr
    rfl e4 ⟨e6.1, e6.2.1, fun hs => by
      rcases e6.2.2 hs with h | ⟨h, _⟩
      · exact Or.inl h
      · exact Or.inr ⟨h, _, hfr, fun n nd rest hr => hf hs _ (readOk_firstDev es n nd rest hr)⟩⟩).1
  rw [this] at hs
  refine Eq.trans hs ?_
  simp [pend]
  rfl

/-- What is not so: after `rewind` everything is as it was at the start. If the iterator was in a directory under the one it
    started with, the path from the start goes on with that directory. -/
theorem C78_rewind_fails : ∃ (es : Dir) (k : Nat), es.Good ∧
    (run 1 (new (str ['d']) true false (some es)).rewind).1 = [⟨str ['d', '/', 'a'], str ['a'], str ['a'], false⟩] ∧
    (run 1 (run k (new (str ['d']) true false (some es)).rewind).2.rewind).1
      = [⟨str ['d', '/', 'a'], str ['a'], str ['b', '/', 'a'], false⟩] := by
  refine ⟨exDir, 3, ?_, by decide +kernel, by decide +kernel⟩
  exact exDir_good

/-- C78, `up`: which directory is the one that is left. After `next` showed a file it is the directory that has the file, or
    the file itself if that is a directory that was gone into. -/
theorem C78_up_where (it : Iter) (h : (next it).1 = true) : ∃ f fs, (next it).2.frames = f :: fs ∧
    (((next it).2.info.isDir = true ∧ f.name = (next it).2.info.full) ∨
      (next it).2.info.full = f.name ++ [ch '/'] ++ (next it).2.info.name) := by
  revert h
  unfold next
  split
  · intro h; cases h
  · rename_i f fs _
    split
    · split
      · exact step_where _ _ _
      · intro h; cases h
    · exact step_where _ _ _

/-- C78, `up`. After `up` in a directory `f` that is not the one the iteration started with, what comes is what would have
    come, without the rest of what is in `f` or below; with the right names from where the program is. (The property wants
    the right names from where the iteration started, too.) -/
theorem C78_up_partial (dirname : List Byte) (hd : strip dirname ≠ []) (recurse skip : Bool) (es : Dir) (hg : es.Good)
    (k n : Nat) (f f' : Frame) (fs : List Frame)
    (hfr : (run k (new dirname recurse skip (some es)).rewind).2.frames = f :: f' :: fs) (m : Nat)
    (hm : ((run m (new dirname recurse skip (some es)).rewind).1).length < m) :
    (run n (run k (new dirname recurse skip (some es)).rewind).2.up).1.map (fun e => (e.full, e.name, e.isDir))
      = ((((run m (new dirname recurse skip (some es)).rewind).1.drop k).filter
          fun e => !(f.name ++ [ch '/']).isPrefixOf e.full).take n).map (fun e => (e.full, e.name, e.isDir)) := by
  have hf : skip = true → ∀ d, es.firstDev = some d → d = es.firstDev.getD 0 := by
    intro _ d h; rw [h]; rfl
  obtain ⟨_, ⟨p, frs, hc, e1, e2, e3⟩, e4, e5, e6⟩ :=
    run_new dirname recurse skip _ es hd hg hf k _ rfl
  have hall := (run_new dirname recurse skip _ es hd hg hf m _ rfl).1
  rw [hall] at hm ⊢
  rw [List.length_take] at hm
  rw [List.take_of_length_le (i := m) (by omega), ← e3]
  revert e1 e2 e4 e5 e6 hfr
  generalize (run k (new dirname recurse skip (some es)).rewind).2 = it
  intro hfr e1 e2 e4 e5 e6
  rw [hfr] at e1
  cases frs with
  | nil => cases e1
  | cons q frs =>
    have g1 : f = p.1 := (List.cons.inj e1).1
    have g2 : f' :: fs = (q :: frs).map (·.1) := (List.cons.inj e1).2
    have hc' := (chain_pop hc).1
    -- the rest of `f` is in `f`, and nothing else is
    have hfil : (pend (ents recurse skip (es.firstDev.getD 0)) (p :: q :: frs)).filter
        (fun e => !(f.name ++ [ch '/']).isPrefixOf e.full)
        = pend (ents recurse skip (es.firstDev.getD 0)) (q :: frs) := by
      have hp : pend (ents recurse skip (es.firstDev.getD 0)) (p :: q :: frs)
          = visitAll (ents recurse skip (es.firstDev.getD 0)) p.1.name p.2 p.1.rest
            ++ pend (ents recurse skip (es.firstDev.getD 0)) (q :: frs) := rfl
      rw [hp, List.filter_append]
      have l1 : (visitAll (ents recurse skip (es.firstDev.getD 0)) p.1.name p.2 p.1.rest).filter
          (fun e => !(f.name ++ [ch '/']).isPrefixOf e.full) = [] := by
        rw [List.filter_eq_nil_iff]
        intro e he
        obtain ⟨n, t, _, h2, _⟩ := visitAll_below _ _ _ _ e he
        simp only [Bool.not_eq_true', Bool.not_eq_false, List.isPrefixOf_iff_prefix]
        rw [h2, g1]
        exact ⟨n ++ t, by simp⟩
      have l2 : (pend (ents recurse skip (es.firstDev.getD 0)) (q :: frs)).filter
          (fun e => !(f.name ++ [ch '/']).isPrefixOf e.full) = pend (ents recurse skip (es.firstDev.getD 0)) (q :: frs) := by
        rw [List.filter_eq_self]
        intro e he
        simp only [Bool.not_eq_true']
        rw [← Bool.not_eq_true, List.isPrefixOf_iff_prefix]
        rintro ⟨u, hu⟩
        exact chain_other _ _ p hc e he u (by rw [← hu, g1])
      rw [l1, l2]
      rfl
    rw [hfil]
    have hs : (run n it.up).1.map brief = (run n { it with goUp := false, frames := f' :: fs, rel := q.2 }).1.map brief := by
      cases n with
      | zero => rfl
      | succ n =>
        have hn : next it.up = step { it with goUp := false } (f' :: fs) it.rel := by
          unfold next Iter.up
          rw [hfr]
          simp only
          rw [if_pos trivial, if_pos (by simp)]
        have hn' : next { it with goUp := false, frames := f' :: fs, rel := q.2 }
            = step { it with goUp := false, frames := f' :: fs, rel := q.2 } (f' :: fs) q.2 := rfl
        refine run_same_next n _ _ ?_ (run_same n)
        rw [hn, hn']
        exact step_same { it with goUp := false } { it with goUp := false, frames := f' :: fs, rel := q.2 } rfl rfl rfl rfl rfl rfl rfl rfl _ _ _
    refine Eq.trans hs ?_
    have hE : Enters { it with goUp := false, frames := f' :: fs, rel := q.2 } recurse skip (es.firstDev.getD 0) (f' :: fs) := by
      refine ⟨e6.1, e6.2.1, fun hs => Or.inl ?_⟩
      rcases e6.2.2 hs with h | ⟨_, g, h, _⟩
      · exact h
      · rw [hfr] at h; cases h
    have := (run_spec (strip dirname) recurse skip (es.firstDev.getD 0) n { it with goUp := false, frames := f' :: fs, rel := q.2 }
      q frs hc' g2 rfl rfl hE).1
    rw [this]
    rfl

example : ∃ f f' fs, (run 3 (new (str ['d']) true false (some exDir)).rewind).2.frames = f :: f' :: fs ∧
    f.name = str ['d', '/', 'b'] ∧ (run 9 (new (str ['d']) true false (some exDir)).rewind).1.length < 9 ∧
    (run 9 (run 3 (new (str ['d']) true false (some exDir)).rewind).2.up).1.map Ent.full = [str ['d', '/', 'c']] :=
  ⟨_, _, _, rfl, by decide +kernel, by decide +kernel, by decide +kernel⟩

/-- What is not so: after `up` the path from the start is right. It is the path of the directory that was left. -/
theorem C78_up_fails : ∃ (es : Dir) (k : Nat), es.Good ∧
    (run 9 (run k (new (str ['d']) true false (some es)).rewind).2.up).1
      = [⟨str ['d', '/', 'c'], str ['c'], str ['b', '/', 'c'], false⟩] := by
  refine ⟨exDir, 3, ?_, by decide +kernel⟩
  exact exDir_good

/-- C78, `up` in the directory that the iteration started with: `next` shows nothing, once; then the iteration goes on as
    if `up` had not been called. -/
theorem C78_up_top (it : Iter) (f : Frame) (hf : it.frames = [f]) (hu : it.goUp = false) :
    next it.up = (false, it) := by
  unfold next Iter.up
  rw [hf]
  simp only
  rw [if_pos trivial, if_neg (by simp)]
  cases it
  simp only at hf hu
  subst hf hu
  rfl

example : (run 2 (new (str ['d']) false false (some exDir)).rewind).2.frames.length = 1 ∧
    (run 2 (new (str ['d']) false false (some exDir)).rewind).2.goUp = false ∧
    (next (run 2 (new (str ['d']) false false (some exDir)).rewind).2).1 = true := by decide +kernel

end Props
