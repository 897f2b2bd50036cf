import Verif.Model.GlobDir
import Verif.Props.DirWalk
import Verif.Props.Glob
/- C136: iterating over the files that match a pattern. -/
namespace Props
open Wv Spec.DirWalk
open Spec (Ere.Found Ere.RE)
open Spec.Glob (G)

namespace GdP

/-- What an iterator will show. -/
def Shows : DirWalk.Iter → List Ent → Prop
  | it, [] => (DirWalk.next it).1 = false
  | it, e :: l => (DirWalk.next it).1 = true ∧ (DirWalk.next it).2.info = e ∧ Shows (DirWalk.next it).2 l

theorem shows (l : List Ent) : ∀ it : DirWalk.Iter, (∀ n, (DirWalk.run n it).1 = l.take n) → Shows it l := by
  induction l with
  | nil =>
    intro it h
    have := h 1
    unfold DirWalk.run at this
    unfold Shows
    generalize DirWalk.next it = r at *
    obtain ⟨b, it'⟩ := r
    cases b
    · rfl
    · simp [DirWalk.run] at this
  | cons e l ih =>
    intro it h
    have hr : ∀ n, (match DirWalk.next it with
        | (false, it) => (([], it) : List Ent × DirWalk.Iter)
        | (true, it) => (it.info :: (DirWalk.run n it).1, (DirWalk.run n it).2)).1 = e :: l.take n := by
      intro n; exact h (n + 1)
    unfold Shows
    generalize DirWalk.next it = r at *
    obtain ⟨b, it'⟩ := r
    cases b
    · have := hr 0; simp at this
    · have h0 := hr 0
      refine ⟨rfl, by simpa using (List.cons.inj h0).1, ih _ (fun n => ?_)⟩
      exact (List.cons.inj (hr n)).2

/-- What passes. -/
def pass (found : Ere.RE → List Byte → Bool) (glob : Option Ere.RE) (e : Ent) : Bool :=
  match glob with | none => true | some re => found re e.rel

theorem next_shows (found) (glob : Option Ere.RE) : ∀ (l : List Ent) (it : GlobDir.It) (fuel : Nat), it.glob = glob → Shows it.dir l → l.length < fuel →
    (l.filter (pass found glob) = [] ∧ ∃ it', GlobDir.next found fuel it = some (false, it')) ∨
    ∃ e r l' it', l.filter (pass found glob) = e :: r ∧ GlobDir.next found fuel it = some (true, it') ∧ it'.dir.info = e ∧ it'.glob = glob ∧
      Shows it'.dir l' ∧ l'.length < fuel ∧ l'.filter (pass found glob) = r := by
  intro l
  induction l with
  | nil =>
    intro it fuel hg hs hf
    cases fuel with
    | zero => cases hf
    | succ fuel =>
      refine .inl ⟨rfl, { it with dir := (DirWalk.next it.dir).2 }, ?_⟩
      unfold GlobDir.next
      dsimp only
      have hs : (DirWalk.next it.dir).1 = false := hs
      rw [hs]; rfl
  | cons e l ih =>
    intro it fuel hg hs hf
    cases fuel with
    | zero => cases hf
    | succ fuel =>
      obtain ⟨h1, h2, h3⟩ := hs
      have hlt : l.length < fuel := by simpa using hf
      by_cases hp : pass found glob e = true
      · refine .inr ⟨e, _, l, { it with dir := (DirWalk.next it.dir).2 }, by rw [List.filter_cons_of_pos hp], ?_, h2, hg, h3, by omega, rfl⟩
        unfold GlobDir.next
        dsimp only
        rw [if_neg, h1]
        rw [h1, h2, Bool.true_and]
        subst hg
        unfold pass at hp
        cases hgl : it.glob with
        | none => simp
        | some re => rw [hgl] at hp; simpa using hp
      · have e1 : GlobDir.next found (fuel + 1) it = GlobDir.next found fuel { it with dir := (DirWalk.next it.dir).2 } := by
          rw [GlobDir.next]
          dsimp only
          rw [if_pos]
          rw [h1, h2, Bool.true_and]
          subst hg
          unfold pass at hp
          cases hgl : it.glob with
          | none => rw [hgl] at hp; simp at hp
          | some re => rw [hgl] at hp; simpa using hp
        rw [e1, List.filter_cons_of_neg hp]
        rcases ih { it with dir := (DirWalk.next it.dir).2 } fuel hg h3 hlt with h | ⟨e', r, l', it', a1, a2, a3, a4, a5, a6, a7⟩
        · exact .inl h
        · exact .inr ⟨e', r, l', it', a1, a2, a3, a4, a5, by omega, a7⟩

theorem run_shows (found) (glob : Option Ere.RE) (fuel : Nat) : ∀ (n : Nat) (l : List Ent) (it : GlobDir.It), it.glob = glob → Shows it.dir l →
    l.length < fuel → GlobDir.run found fuel n it = some ((l.filter (pass found glob)).take n) := by
  intro n
  induction n with
  | zero => intro l it _ _ _; rfl
  | succ n ih =>
    intro l it hg hs hf
    rcases next_shows found glob l it fuel hg hs hf with ⟨h1, it', h2⟩ | ⟨e, r, l', it', a1, a2, a3, a4, a5, a6, a7⟩
    · unfold GlobDir.run; rw [h2, h1]; rfl
    · unfold GlobDir.run; rw [a2, a1]
      dsimp only
      rw [ih l' it' a4 a5 a6, a7, a3]; rfl

end GdP

/-- C136: for every directory tree and pattern, the iterator shows exactly the files whose paths from where it started match the pattern,
    each once, in the order in which they are shown without a pattern. (The patterns and what they match are those of C64.) -/
theorem C136_shows_partial (found : Ere.RE → List Byte → Bool) (hfound : ∀ re s, found re s = true ↔ Ere.Found re s)
    (dirname : List Byte) (hd : DirWalk.strip dirname ≠ []) (recurse : Bool) (es : Dir) (hes : es.Good)
    (g : G) (hk : g.Ok false) (hs : g.Sound) (fuel : Nat)
    (hf : (visitAll (fun _ => recurse) (DirWalk.strip dirname) [] es).length < fuel) :
    ∃ p : Ent → Bool, (∀ e, p e = true ↔ g.Matches false e.rel) ∧ ∀ n,
      GlobDir.run found fuel n (GlobDir.new dirname (some g.text) recurse false (some es)).rewind =
        some (((visitAll (fun _ => recurse) (DirWalk.strip dirname) [] es).filter p).take n) := by
  obtain ⟨r, re, h1, h2, h3⟩ := C64_match_partial g hk hs
  have hc : GlobDir.compile (some g.text) = some re := by
    unfold GlobDir.compile; dsimp only; rw [h1]; exact h2
  refine ⟨GdP.pass found (some re), fun e => ?_, fun n => ?_⟩
  · exact (hfound re e.rel).trans (h3 e.rel).1
  · exact GdP.run_shows found _ fuel n _ _ hc (GdP.shows _ _ (fun n => C78_walk dirname hd recurse es hes n)) hf

/-- C136: without a pattern, it shows everything. -/
theorem C136_null (found : Ere.RE → List Byte → Bool) (dirname : List Byte) (hd : DirWalk.strip dirname ≠ []) (recurse : Bool) (es : Dir)
    (hes : es.Good) (fuel : Nat) (hf : (visitAll (fun _ => recurse) (DirWalk.strip dirname) [] es).length < fuel) (n : Nat) :
    GlobDir.run found fuel n (GlobDir.new dirname none recurse false (some es)).rewind =
      some ((visitAll (fun _ => recurse) (DirWalk.strip dirname) [] es).take n) := by
  have := GdP.run_shows found none fuel n _ (GlobDir.new dirname none recurse false (some es)).rewind rfl
    (GdP.shows _ _ (fun n => C78_walk dirname hd recurse es hes n)) hf
  rw [this]
  congr 2
  exact List.filter_eq_self.2 (fun _ _ => rfl)

/-- C136: staying on one device, with the device of the first file as C78 has it. -/
theorem C136_same_device_partial (found : Ere.RE → List Byte → Bool) (hfound : ∀ re s, found re s = true ↔ Ere.Found re s)
    (dirname : List Byte) (hd : DirWalk.strip dirname ≠ []) (recurse : Bool) (es : Dir) (hes : es.Good)
    (d0 : Nat) (h0 : ∀ d, es.firstDev = some d → d = d0) (g : G) (hk : g.Ok false) (hs : g.Sound) (fuel : Nat)
    (hf : (visitAll (fun d => recurse && d == d0) (DirWalk.strip dirname) [] es).length < fuel) :
    ∃ p : Ent → Bool, (∀ e, p e = true ↔ g.Matches false e.rel) ∧ ∀ n,
      GlobDir.run found fuel n (GlobDir.new dirname (some g.text) recurse true (some es)).rewind =
        some (((visitAll (fun d => recurse && d == d0) (DirWalk.strip dirname) [] es).filter p).take n) := by
  obtain ⟨r, re, h1, h2, h3⟩ := C64_match_partial g hk hs
  have hc : GlobDir.compile (some g.text) = some re := by
    unfold GlobDir.compile; dsimp only; rw [h1]; exact h2
  refine ⟨GdP.pass found (some re), fun e => ?_, fun n => ?_⟩
  · exact (hfound re e.rel).trans (h3 e.rel).1
  · exact GdP.run_shows found _ fuel n _ _ hc
      (GdP.shows _ _ (fun n => C78_same_device_partial dirname hd recurse es hes d0 h0 n)) hf

/-- The pattern "a". -/
theorem GdP.lit_ok : (G.lit 97 .done).Ok false ∧ (G.lit 97 .done).Sound ∧ (G.lit 97 .done).text = [97] ∧
    ∀ s, (G.lit 97 .done).Matches false s ↔ s = [97] := by
  refine ⟨by simp [G.Ok], by simp [G.Sound], by simp [G.text], fun s => ?_⟩
  simp only [G.Matches]
  exact ⟨fun ⟨r, h, e⟩ => by rw [h, e], fun h => ⟨[], h, rfl⟩⟩

example : ∃ g : G, g.Ok false ∧ g.Sound ∧ DirWalk.strip (str ['d']) ≠ [] ∧ exDir.Good ∧
    (visitAll (fun _ => true) (DirWalk.strip (str ['d'])) [] exDir).length < 10 ∧
    ∃ e ∈ visitAll (fun _ => true) (DirWalk.strip (str ['d'])) [] exDir, g.Matches false e.rel :=
  ⟨.lit 97 .done, GdP.lit_ok.1, GdP.lit_ok.2.1, by decide +kernel, exDir_good, by decide +kernel,
    ⟨str ['d', '/', 'a'], str ['a'], str ['a'], false⟩, by decide +kernel, (GdP.lit_ok.2.2.2 _).2 rfl⟩

/-- C136 fails for a pattern with an error: every file is shown. -/
theorem C136_error_fails (found : Ere.RE → List Byte → Bool) (dirname : List Byte) (hd : DirWalk.strip dirname ≠ []) (recurse : Bool)
    (es : Dir) (hes : es.Good) (p : List Byte) (hp : ¬ ∃ g : G, g.Ok false ∧ g.text = p) (fuel : Nat)
    (hf : (visitAll (fun _ => recurse) (DirWalk.strip dirname) [] es).length < fuel) (n : Nat) :
    GlobDir.run found fuel n (GlobDir.new dirname (some p) recurse false (some es)).rewind =
      some ((visitAll (fun _ => recurse) (DirWalk.strip dirname) [] es).take n) := by
  have hc : GlobDir.compile (some p) = none := by
    unfold GlobDir.compile; dsimp only; rw [(C64_errors p).2 hp]
  have := GdP.run_shows found none fuel n _ (GlobDir.new dirname (some p) recurse false (some es)).rewind hc
    (GdP.shows _ _ (fun n => C78_walk dirname hd recurse es hes n)) hf
  rw [this]
  congr 2
  exact List.filter_eq_self.2 (fun _ _ => rfl)

example : ¬ ∃ g : G, g.Ok false ∧ g.text = [91, 97] := by
  rw [← C64_errors]; decide +kernel

/-- C136 fails after `rewind` inside of a directory: the names from the start are then wrong (C78_rewind_fails), and a file that was shown is
    not shown again. The pattern is "a". -/
theorem C136_rewind_fails : ∃ (found : Ere.RE → List Byte → Bool) (re : Ere.RE) (k : Nat), GlobDir.compile (some [97]) = some re ∧
    (∀ s, found re s = true ↔ Ere.Found re s) ∧
    GlobDir.run found 20 1 ⟨(DirWalk.new (str ['d']) true false (some exDir)).rewind, some re⟩ =
      some [⟨str ['d', '/', 'a'], str ['a'], str ['a'], false⟩] ∧
    GlobDir.run found 20 1 ⟨(DirWalk.run k (DirWalk.new (str ['d']) true false (some exDir)).rewind).2.rewind, some re⟩ = some [] := by
  obtain ⟨r, re, h1, h2, h3⟩ := C64_match_partial (G.lit 97 .done) GdP.lit_ok.1 GdP.lit_ok.2.1
  rw [GdP.lit_ok.2.2.1] at h1
  have key : ∀ re : Ere.RE, GlobDir.run (fun _ s => s == [97]) 20 1 ⟨(DirWalk.new (str ['d']) true false (some exDir)).rewind, some re⟩ =
        some [⟨str ['d', '/', 'a'], str ['a'], str ['a'], false⟩] ∧
      GlobDir.run (fun _ s => s == [97]) 20 1 ⟨(DirWalk.run 3 (DirWalk.new (str ['d']) true false (some exDir)).rewind).2.rewind, some re⟩ = some [] := by
    intro re; exact ⟨rfl, rfl⟩
  refine ⟨fun _ s => s == [97], re, 3, by unfold GlobDir.compile; dsimp only; rw [h1]; exact h2, fun s => ?_, (key re).1, (key re).2⟩
  rw [(h3 s).1, GdP.lit_ok.2.2.2]; simp

end Props
