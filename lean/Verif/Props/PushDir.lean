import Verif.Model.PushDir
namespace Props
open Wv Wv.PushDir Spec.PushDir

namespace PdP

theorem run_cons (s : St) (o : Op) (l : List Op) : run s (o :: l) = (step s o).bind fun s => run s l := rfl

theorem run_append (l m : List Op) : ∀ (s : St), run s (l ++ m) = (run s l).bind fun s => run s m := by
  induction l with
  | nil => intro s; rfl
  | cons o l ih =>
    intro s
    rw [List.cons_append, run_cons, run_cons]
    cases step s o with
    | none => rfl
    | some s' => exact ih s'

/-- Objects of scopes outside are not touched. -/
theorem beneath (l : List Op) : ∀ (n : Nat) (s t : St) (base : List Obj), balanced n l = true → (∃ top, s.objs = top ++ base ∧ top.length = n) →
    run s l = some t → t.objs = base := by
  induction l with
  | nil =>
    intro n s t base hb ⟨top, h1, h2⟩ hr
    simp only [run, Option.some.injEq] at hr
    subst hr
    simp only [balanced, beq_iff_eq] at hb
    rw [hb] at h2
    rw [h1, List.length_eq_zero_iff.1 h2, List.nil_append]
  | cons o l ih =>
    intro n s t base hb ⟨top, h1, h2⟩ hr
    rw [run_cons] at hr
    cases o with
    | push d =>
      exact ih (n + 1) _ t base hb ⟨(make s.world d).1 :: top, (by simp [h1]), (by simp [h2])⟩ hr
    | pop =>
      cases n with
      | zero => simp [balanced] at hb
      | succ n =>
        cases top with
        | nil => simp at h2
        | cons o top =>
          simp only [step, h1, List.cons_append] at hr
          cases hd : destroy s.world o with
          | none => rw [hd] at hr; simp at hr
          | some w =>
            rw [hd] at hr
            exact ih n ⟨w, top ++ base⟩ t base (by simpa [balanced] using hb) ⟨top, rfl, (by simpa using h2)⟩ hr
    | chdir d => exact ih n { s with world := (chdir s.world d).2 } t base (by cases n <;> simpa [balanced] using hb) ⟨top, h1, h2⟩ hr
    | files ds => exact ih n { s with world := { s.world with dirs := ds } } t base (by cases n <;> simpa [balanced] using hb) ⟨top, h1, h2⟩ hr

theorem at_mem {w : World} {p : Path} {d : Dir} (h : w.at p = some d) : d ∈ w.dirs ∧ d.path = p := by
  unfold World.at at h
  exact ⟨List.mem_of_find?_eq_some h, (by simpa using List.find?_some h)⟩

theorem at_of {w : World} (hp : w.Proper) {d : Dir} (hd : d ∈ w.dirs) : w.at d.path = some d := by
  unfold World.at
  cases h : w.dirs.find? (·.path == d.path) with
  | none => exact absurd (List.find?_eq_none.1 h d hd) (by simp)
  | some e =>
    have h1 := List.mem_of_find?_eq_some h
    have h2 : e.path = d.path := by simpa using List.find?_some h
    rw [hp.1 e h1 d hd (Or.inl h2)]

theorem here_of {w : World} (hp : w.Proper) {d : Dir} (hd : d ∈ w.dirs) (hc : d.id = w.cwd) : w.dirs.find? (·.id == w.cwd) = some d := by
  cases h : w.dirs.find? (·.id == w.cwd) with
  | none => exact absurd (List.find?_eq_none.1 h d hd) (by simp [hc])
  | some e =>
    have h1 := List.mem_of_find?_eq_some h
    have h2 : e.id = w.cwd := by simpa using List.find?_some h
    rw [hp.1 e h1 d hd (Or.inr (h2.trans hc.symm))]

theorem chdir_dirs (w : World) (p : Path) : (chdir w p).2.dirs = w.dirs := by
  unfold chdir
  split
  · rfl
  · split <;> rfl

theorem chdir_proper (w : World) (p : Path) (h : w.Proper) : (chdir w p).2.Proper := by
  unfold chdir
  split
  · exact h
  · rename_i d hd
    split
    · exact ⟨h.1, d, (at_mem hd).1, rfl⟩
    · exact h

/-- What the constructor does in a proper world. -/
theorem make_eq (w : World) (p : Path) (hp : w.Proper) (d : Dir) (hd : d ∈ w.dirs) (hc : d.id = w.cwd) (hl : d.path.length < 2048) :
    make w p = (⟨some d.path, some d.read, (chdir w p).1⟩, (chdir w p).2) := by
  unfold make getcwd
  rw [here_of hp hd hc]
  simp only [if_pos hl]
  unfold opendir
  rw [at_of hp hd]

/-- Without others, everything is restored. -/
theorem quiet_run (l : List Op) : ∀ (n : Nat) (w : World) (objs : List Obj), w.Proper → w.Usable → quiet l → balanced n l = true →
    n ≤ objs.length → (∀ o ∈ objs, ∃ p, o.oldDir = some p ∧ o.handle = some true) →
    ∃ t, run ⟨w, objs⟩ l = some t ∧ t.world.dirs = w.dirs ∧ t.world.Proper := by
  induction l with
  | nil => intro n w objs hp _ _ _ _ _; exact ⟨_, rfl, rfl, hp⟩
  | cons o l ih =>
    intro n w objs hp hu hq hb hn ho
    have hq' : quiet l := fun x hx => hq x (by simp [hx])
    rw [run_cons]
    cases o with
    | push p =>
      obtain ⟨d, hd, hc⟩ := hp.2
      obtain ⟨h1, h2, h3⟩ := hu d hd
      have e := make_eq w p hp d hd hc h3
      have hs : step ⟨w, objs⟩ (.push p) = some ⟨(chdir w p).2, ⟨some d.path, some d.read, (chdir w p).1⟩ :: objs⟩ := by
        simp only [step, e]
      rw [hs]
      obtain ⟨t, g1, g2, g3⟩ := ih (n + 1) (chdir w p).2 (⟨some d.path, some d.read, (chdir w p).1⟩ :: objs) (chdir_proper w p hp)
        (by unfold World.Usable; rw [chdir_dirs]; exact hu) hq' hb (by simp; omega) (by
          intro o hm
          rcases List.mem_cons.1 hm with rfl | hm
          · exact ⟨d.path, rfl, (by rw [h2])⟩
          · exact ho o hm)
      exact ⟨t, g1, (by rw [g2, chdir_dirs]), g3⟩
    | pop =>
      cases n with
      | zero => simp [balanced] at hb
      | succ n =>
        cases objs with
        | nil => simp at hn
        | cons o objs =>
          obtain ⟨p, e1, e2⟩ := ho o (by simp)
          have hs : step ⟨w, o :: objs⟩ .pop = some ⟨(chdir w p).2, objs⟩ := by simp [step, destroy, e1, e2]
          rw [hs]
          obtain ⟨t, g1, g2, g3⟩ := ih n (chdir w p).2 objs (chdir_proper w p hp) (by unfold World.Usable; rw [chdir_dirs]; exact hu) hq'
            (by simpa [balanced] using hb) (by simpa using hn) (fun o hm => ho o (by simp [hm]))
          exact ⟨t, g1, (by rw [g2, chdir_dirs]), g3⟩
    | chdir p =>
      have hs : step ⟨w, objs⟩ (.chdir p) = some ⟨(chdir w p).2, objs⟩ := rfl
      rw [hs]
      obtain ⟨t, g1, g2, g3⟩ := ih n (chdir w p).2 objs (chdir_proper w p hp) (by unfold World.Usable; rw [chdir_dirs]; exact hu) hq'
        (by cases n <;> simpa [balanced] using hb) hn ho
      exact ⟨t, g1, (by rw [g2, chdir_dirs]), g3⟩
    | files ds => exact absurd rfl (hq _ (by simp) ds)

end PdP

/-- C132. Making the object goes to the directory if it is there and can be entered, and then there is no error; otherwise there is one
    and the process stays where it is. The path of where it is must not be too long. -/
theorem C132_enter_partial (w : World) (p : Path) (hp : w.Proper) (hl : ∀ d ∈ w.dirs, d.id = w.cwd → d.path.length < 2048) :
    ((∃ d ∈ w.dirs, d.path = p ∧ d.enter = true ∧ (make w p).1.errnum = 0 ∧ (make w p).2 = { w with cwd := d.id }) ∨
     ((∀ d ∈ w.dirs, d.path = p → d.enter = false) ∧ (make w p).1.errnum ≠ 0 ∧ (make w p).2 = w)) := by
  obtain ⟨d, hd, hc⟩ := hp.2
  rw [PdP.make_eq w p hp d hd hc (hl d hd hc)]
  dsimp only
  unfold chdir
  cases h : w.at p with
  | none =>
    right
    refine ⟨?_, (show ENOENT ≠ 0 by decide), rfl⟩
    intro e he hpe
    rw [← hpe, PdP.at_of hp he] at h
    exact absurd h (by simp)
  | some e =>
    obtain ⟨h1, h2⟩ := PdP.at_mem h
    cases he : e.enter
    · right
      simp only [he, Bool.false_eq_true, if_false]
      refine ⟨?_, (by decide), trivial⟩
      intro f hf hpf
      rw [hp.1 f hf e h1 (Or.inl (hpf.trans h2.symm)), he]
    · left
      exact ⟨e, h1, h2, he, (by simp [he]), (by simp [he])⟩

/-- C132. At the end of the scope the process is in the directory it was in before, whatever was done in between: other scopes, other
    directories, directories made, removed or renamed. At the beginning the directory must have a path that is not too long and be
    readable, and at the end it must have the same path and let itself be entered. -/
theorem C132_restores_partial (w : World) (objs : List Obj) (p : Path) (body : List Op) (d : Dir) (s : St)
    (hp : w.Proper) (hd : d ∈ w.dirs) (hc : d.id = w.cwd) (hl : d.path.length < 2048) (hr : d.read = true)
    (hb : balanced 0 body = true) (hs : run ⟨w, objs⟩ (.push p :: body) = some s)
    (h : ∃ e, s.world.at d.path = some e ∧ e.id = d.id ∧ e.enter = true) :
    ∃ t, run ⟨w, objs⟩ (.push p :: body ++ [.pop]) = some t ∧ t.world.cwd = w.cwd ∧ t.world.dirs = s.world.dirs ∧ t.objs = objs := by
  rw [PdP.run_append, hs]
  rw [PdP.run_cons] at hs
  have e := PdP.make_eq w p hp d hd hc hl
  have h1 : step ⟨w, objs⟩ (.push p) = some ⟨(chdir w p).2, ⟨some d.path, some d.read, (chdir w p).1⟩ :: objs⟩ := by
    simp only [step, e]
  rw [h1] at hs
  have ho := PdP.beneath body 0 _ s (⟨some d.path, some d.read, (chdir w p).1⟩ :: objs) hb ⟨[], rfl, rfl⟩ hs
  obtain ⟨f, h2, h3, h4⟩ := h
  have h5 : step s .pop = some ⟨{ s.world with cwd := f.id }, objs⟩ := by
    simp only [step, ho, destroy, hr, Option.map_some, chdir, h2, h4, if_true]
  exact ⟨⟨{ s.world with cwd := f.id }, objs⟩, (by simp [run, h5]), (by rw [← hc, ← h3]), rfl, rfl⟩

/-- C132. Scopes in scopes, to any depth, with directories the program changes to itself: if nobody touches the directories, and all can
    be used, everything that is done is defined, and at the end of the scope the process is where it was. -/
theorem C132_nested (w : World) (p : Path) (body : List Op) (hp : w.Proper) (hu : w.Usable) (hq : quiet body) (hb : balanced 0 body = true) :
    run ⟨w, []⟩ (.push p :: body ++ [.pop]) = some ⟨w, []⟩ := by
  obtain ⟨d, hd, hc⟩ := hp.2
  obtain ⟨h1, h2, h3⟩ := hu d hd
  have hq' : quiet (.push p :: body) := by
    intro o ho e
    rcases List.mem_cons.1 ho with rfl | ho
    · simp
    · exact hq o ho e
  have e := PdP.make_eq w p hp d hd hc h3
  obtain ⟨s, g1, g2, g3⟩ := PdP.quiet_run body 0 (chdir w p).2 [⟨some d.path, some d.read, (chdir w p).1⟩] (PdP.chdir_proper w p hp)
    (by unfold World.Usable; rw [PdP.chdir_dirs]; exact hu) hq hb (by simp) (by
      intro o ho
      rw [List.mem_singleton.1 ho]
      exact ⟨d.path, rfl, (by rw [h2])⟩)
  have hs : run ⟨w, []⟩ (.push p :: body) = some s := by
    rw [PdP.run_cons]
    simp only [step, e]
    exact g1
  obtain ⟨t, k1, k2, k3, k4⟩ := C132_restores_partial w [] p body d s hp hd hc h3 h2 hb hs
    ⟨d, PdP.at_of g3 (by rw [g2, PdP.chdir_dirs]; exact hd), rfl, h1⟩
  rw [k1]
  obtain ⟨⟨td, tc⟩, to⟩ := t
  simp only at k2 k3 k4
  rw [k2, k3, k4, g2, PdP.chdir_dirs]

/-- Three directories. -/
def PdP.sample : World :=
  ⟨[⟨str ['/'], 1, true, true⟩, ⟨str ['/', 'a'], 2, true, true⟩, ⟨str ['/', 'b'], 3, true, true⟩], 1⟩

example : PdP.sample.Proper ∧ PdP.sample.Usable ∧
    balanced 0 [.chdir (str ['/', 'b']), .push (str ['/', 'x']), .push (str ['/', 'b']), .pop, .pop] = true ∧
    (run ⟨PdP.sample, []⟩ [.push (str ['/', 'a']), .chdir (str ['/', 'b'])]).map (·.world.cwd) = some 3 ∧
    (make PdP.sample (str ['/', 'x'])).1.errnum = 2 := by
  refine ⟨⟨by decide +kernel, by decide +kernel⟩, by unfold World.Usable; decide +kernel, by decide +kernel, by decide +kernel, by decide +kernel⟩

/-- C132 is false if the directory is renamed in between: the process does not come back, and no error is seen. -/
theorem C132_renamed_fails : ∃ (w : World) (p : Path) (body : List Op) (t : St), w.Proper ∧ w.Usable ∧ balanced 0 body = true ∧
    run ⟨w, []⟩ (.push p :: body ++ [.pop]) = some t ∧ (∃ d ∈ t.world.dirs, d.id = w.cwd ∧ d.enter = true) ∧ t.world.cwd ≠ w.cwd :=
  ⟨{ PdP.sample with cwd := 2 }, str ['/', 'b'],
    [.files [⟨str ['/'], 1, true, true⟩, ⟨str ['/', 'c'], 2, true, true⟩, ⟨str ['/', 'b'], 3, true, true⟩]],
    ⟨⟨[⟨str ['/'], 1, true, true⟩, ⟨str ['/', 'c'], 2, true, true⟩, ⟨str ['/', 'b'], 3, true, true⟩], 3⟩, []⟩,
    ⟨by decide +kernel, by decide +kernel⟩, by unfold World.Usable; decide +kernel, by decide +kernel, by decide +kernel, by decide +kernel, by decide +kernel⟩

/-- C132 is false if another directory has taken the path in between: the process ends in that one. -/
theorem C132_replaced_fails : ∃ (w : World) (p : Path) (body : List Op) (t : St), w.Proper ∧ w.Usable ∧ balanced 0 body = true ∧
    run ⟨w, []⟩ (.push p :: body ++ [.pop]) = some t ∧ t.world.cwd = 9 ∧ w.cwd = 2 :=
  ⟨{ PdP.sample with cwd := 2 }, str ['/', 'b'],
    [.files [⟨str ['/', 'c'], 2, true, true⟩, ⟨str ['/', 'a'], 9, true, true⟩, ⟨str ['/', 'b'], 3, true, true⟩]],
    ⟨⟨[⟨str ['/', 'c'], 2, true, true⟩, ⟨str ['/', 'a'], 9, true, true⟩, ⟨str ['/', 'b'], 3, true, true⟩], 9⟩, []⟩,
    ⟨by decide +kernel, by decide +kernel⟩, by unfold World.Usable; decide +kernel, by decide +kernel, by decide +kernel, by decide +kernel, by decide +kernel⟩

/-- C132 is false if the process is in a directory it may not read: the end of the scope closes a null pointer. -/
theorem C132_unreadable_fails : ∃ (w : World) (p : Path), w.Proper ∧ (∀ d ∈ w.dirs, d.enter = true) ∧
    (make w p).1.errnum = 0 ∧ run ⟨w, []⟩ [.push p, .pop] = none :=
  ⟨⟨[⟨str ['/'], 1, true, false⟩, ⟨str ['/', 'a'], 2, true, true⟩], 1⟩, str ['/', 'a'],
    ⟨by decide +kernel, by decide +kernel⟩, by decide +kernel, by decide +kernel, by decide +kernel⟩

/-- C132 is false if the process is in a directory that has been removed, or whose path is too long: then it does not go anywhere, and the
    end of the scope uses a path and a pointer nobody has set. -/
theorem C132_unnamed_fails :
    (∃ (w : World) (p : Path), (∃ d ∈ w.dirs, d.path = p ∧ d.enter = true ∧ d.id ≠ w.cwd) ∧ (make w p).2 = w ∧
      run ⟨w, []⟩ [.push p, .pop] = none) ∧
    ∃ (w : World) (p : Path), w.Proper ∧ (∀ d ∈ w.dirs, d.enter = true ∧ d.read = true) ∧ (make w p).2 = w ∧
      run ⟨w, []⟩ [.push p, .pop] = none :=
  ⟨⟨{ PdP.sample with cwd := 7 }, str ['/', 'a'], by decide +kernel⟩,
    ⟨⟨[⟨List.replicate 2048 47, 1, true, true⟩, ⟨str ['/', 'a'], 2, true, true⟩], 1⟩, str ['/', 'a'],
      ⟨by decide +kernel, by decide +kernel⟩, by decide +kernel, by decide +kernel, by decide +kernel⟩⟩

end Props
