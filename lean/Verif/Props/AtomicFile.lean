import Verif.Model.AtomicFile
import Verif.Props.Stream
/-
C42: atomic files.
-/
namespace Props
open Wv Wv.AtomicFile Spec.AtomicFile

namespace Atom

/-- A call that does not touch a file. -/
def Spares (m : Nat) : Sys → Prop
  | .create n => n ≠ m
  | .chmod _ => True
  | .write n _ => n ≠ m
  | .closefd => True
  | .rename a b => a ≠ m ∧ b ≠ m
  | .unlink n => n ≠ m

theorem apply_spares (fs : FS) (m : Nat) (s : Sys) (h : Spares m s) : apply fs s m = fs m := by
  cases s with
  | create n => exact if_neg (fun e => h e.symm)
  | chmod n => rfl
  | write n b => exact if_neg (fun e => h e.symm)
  | closefd => rfl
  | rename a b =>
    show (if m = a then _ else if m = b then _ else _) = _
    rw [if_neg (fun e => h.1 e.symm), if_neg (fun e => h.2 e.symm)]
  | unlink n => exact if_neg (fun e => h e.symm)

theorem run_spares (m : Nat) (t : List Sys) : ∀ fs : FS, (∀ s ∈ t, Spares m s) → t.foldl apply fs m = fs m := by
  induction t with
  | nil => intro fs _; rfl
  | cons s t ih =>
    intro fs h
    rw [List.foldl_cons, ih _ (fun s' hs' => h s' (by simp [hs'])), apply_spares fs m s (h s (by simp))]

theorem run_writes (n : Nat) (pieces : List (List Byte)) : ∀ (fs : FS) (c : List Byte), fs n = some c → (pieces.map (Sys.write n)).foldl apply fs n = some (c ++ pieces.flatten) := by
  induction pieces with
  | nil => intro fs c h; simpa using h
  | cons p pieces ih =>
    intro fs c h
    rw [List.map_cons, List.foldl_cons, ih _ (c ++ p)]
    · simp
    · show (if n = n then _ else _) = _
      rw [if_pos rfl, h]; rfl

/-- The calls of a use that come before the renaming. -/
def body (e : Env) (n : Nat) (pieces : List (List Byte)) : List Sys :=
  Sys.create n :: (if e.chmod then [.chmod n] else []) ++ pieces.map (.write n)

theorem body_spares (e : Env) (n m : Nat) (pieces : List (List Byte)) (h : n ≠ m) : ∀ s ∈ body e n pieces ++ [.closefd], Spares m s := by
  intro s hs
  simp only [body, List.cons_append, List.mem_cons, List.mem_append, List.mem_map, List.not_mem_nil, or_false] at hs
  rcases hs with rfl | (hs | ⟨p, _, rfl⟩) | rfl
  · exact h
  · split at hs
    · simp at hs; subst hs; trivial
    · simp at hs
  · exact h
  · trivial

theorem body_content (e : Env) (n : Nat) (pieces : List (List Byte)) (fs : FS) : (body e n pieces ++ [Sys.closefd]).foldl apply fs n = some pieces.flatten := by
  unfold body
  rw [List.foldl_append, List.foldl_append]
  show (pieces.map (Sys.write n)).foldl apply _ n = _
  rw [run_writes n pieces _ []]
  · simp
  · rw [List.foldl_cons]
    split <;> simp [apply, Spec.AtomicFile.set]

theorem session_cases (e : Env) (target : Nat) (pieces : List (List Byte)) (closed : Bool) :
    session e target pieces closed = [] ∨ ∃ n, e.tmp = some n ∧ (session e target pieces closed = body e n pieces ∨
      session e target pieces closed = (body e n pieces ++ [.closefd]) ++ [if e.rename then .rename n target else .unlink n]) := by
  unfold session opening
  by_cases h1 : (!e.regular) = true
  · rw [if_pos h1]; exact Or.inl rfl
  · rw [if_neg h1]
    cases ht : e.tmp with
    | none => exact Or.inl rfl
    | some n =>
      refine Or.inr ⟨n, rfl, ?_⟩
      cases closed with
      | false => left; simp [body]
      | true => right; cases hr : e.rename <;> simp [body, closing, hr]

theorem killed_cases (t : List Sys) (last : Sys) (k : Nat) : (t ++ [last]).take k = t.take k ∨ (t ++ [last]).take k = t ++ [last] := by
  by_cases h : k ≤ t.length
  · exact Or.inl (List.take_append_of_le_length h)
  · exact Or.inr (List.take_of_length_le (by simp; omega))

end Atom

/-- **C42.** One use of an atomic file, with anything the operating system may answer: when the process is killed at any point, the file holds its old content, or all the bytes that the device took. -/
theorem C42_crash (e : Env) (target : Nat) (pieces : List (List Byte)) (closed : Bool) (fs : FS) (ht : e.tmp ≠ some target) (k : Nat) :
    killed fs (session e target pieces closed) k target = fs target ∨ killed fs (session e target pieces closed) k target = some pieces.flatten := by
  unfold killed
  rcases Atom.session_cases e target pieces closed with h | ⟨n, hn, h⟩
  · rw [h]; simp
  · have hne : n ≠ target := by rintro rfl; exact ht hn
    rcases h with h | h
    · rw [h]
      refine Or.inl (Atom.run_spares target _ fs ?_)
      intro s hs
      exact Atom.body_spares e n target pieces hne s (by rw [List.mem_append]; exact Or.inl (List.mem_of_mem_take hs))
    · rw [h]
      rcases Atom.killed_cases (Atom.body e n pieces ++ [.closefd]) (if e.rename then .rename n target else .unlink n) k with hk | hk
      · rw [hk]
        refine Or.inl (Atom.run_spares target _ fs ?_)
        intro s hs
        exact Atom.body_spares e n target pieces hne s (List.mem_of_mem_take hs)
      · rw [hk, List.foldl_append]
        have h1 := Atom.run_spares target _ fs (Atom.body_spares e n target pieces hne)
        have h2 := Atom.body_content e n pieces fs
        generalize (Atom.body e n pieces ++ [Sys.closefd]).foldl apply fs = fs1 at *
        cases e.rename with
        | true =>
          right
          show (if target = n then none else if target = target then fs1 n else fs1 target) = _
          rw [if_neg (Ne.symm hne), if_pos rfl, h2]
        | false =>
          left
          show (if target = n then none else fs1 target) = _
          rw [if_neg (Ne.symm hne), h1]

/-- **C42.** No other file is touched but the temporary one; and after `close` that is gone. -/
theorem C42_others (e : Env) (target : Nat) (pieces : List (List Byte)) (closed : Bool) (fs : FS) :
    (∀ m k, m ≠ target → e.tmp ≠ some m → killed fs (session e target pieces closed) k m = fs m) ∧
    (∀ n, e.tmp = some n → fs n = none → closed = true → n ≠ target → (session e target pieces closed).foldl apply fs n = none) := by
  constructor
  · intro m k hm ht
    unfold killed
    refine Atom.run_spares m _ fs ?_
    intro s hs
    replace hs := List.mem_of_mem_take hs
    rcases Atom.session_cases e target pieces closed with h | ⟨n, hn, h⟩
    · rw [h] at hs; simp at hs
    · have hne : n ≠ m := by rintro rfl; exact ht hn
      rcases h with h | h
      · rw [h] at hs
        exact Atom.body_spares e n m pieces hne s (by rw [List.mem_append]; exact Or.inl hs)
      · rw [h, List.mem_append] at hs
        rcases hs with hs | hs
        · exact Atom.body_spares e n m pieces hne s hs
        · simp only [List.mem_cons, List.not_mem_nil, or_false] at hs
          subst hs
          split
          · exact ⟨hne, Ne.symm hm⟩
          · exact hne
  · intro n hn hfs hc hne
    subst hc
    unfold session opening
    by_cases h1 : (!e.regular) = true
    · rw [if_pos h1]; exact hfs
    · rw [if_neg h1, hn]
      simp only [if_true, closing]
      rw [List.foldl_append, List.foldl_append, List.foldl_cons]
      cases e.rename with
      | true => exact if_pos rfl
      | false => exact if_pos rfl

/-- **C42.** Any number of uses, one after the other, of one or more targets: at every crash point a file that is no temporary name holds its first content, or all the bytes of one of the uses. -/
theorem C42_sessions (l : List (Env × Nat × List (List Byte) × Bool)) (t : Nat) (ht : ∀ u ∈ l, u.1.tmp ≠ some t) :
    ∀ (fs : FS) (k : Nat), killed fs (l.flatMap fun u => session u.1 u.2.1 u.2.2.1 u.2.2.2) k t = fs t ∨
      ∃ u ∈ l, u.2.1 = t ∧ killed fs (l.flatMap fun u => session u.1 u.2.1 u.2.2.1 u.2.2.2) k t = some u.2.2.1.flatten := by
  induction l with
  | nil => intro fs k; left; simp [killed]
  | cons u l ih =>
    intro fs k
    have step : ∀ j, killed fs (session u.1 u.2.1 u.2.2.1 u.2.2.2) j t = fs t ∨ (u.2.1 = t ∧ killed fs (session u.1 u.2.1 u.2.2.1 u.2.2.2) j t = some u.2.2.1.flatten) := by
      intro j
      by_cases hu : u.2.1 = t
      · rcases C42_crash u.1 u.2.1 u.2.2.1 u.2.2.2 fs (by rw [hu]; exact ht u (by simp)) j with h | h
        · rw [hu] at h; rw [hu]; exact Or.inl h
        · rw [hu] at h; rw [hu]; exact Or.inr ⟨rfl, h⟩
      · exact Or.inl ((C42_others u.1 u.2.1 u.2.2.1 u.2.2.2 fs).1 t j (Ne.symm hu) (ht u (by simp)))
    unfold killed
    rw [List.flatMap_cons, List.take_append, List.foldl_append]
    obtain ⟨fs1, hfs1⟩ : ∃ fs1, fs1 = ((session u.1 u.2.1 u.2.2.1 u.2.2.2).take k).foldl apply fs := ⟨_, rfl⟩
    rw [← hfs1]
    have h1 := step k
    unfold killed at h1
    rw [← hfs1] at h1
    rcases ih (fun v hv => ht v (by simp [hv])) fs1 (k - (session u.1 u.2.1 u.2.2.1 u.2.2.2).length) with h2 | ⟨v, hv, h3, h4⟩
    · unfold killed at h2
      rw [h2]
      rcases h1 with h1 | ⟨h1, h5⟩
      · exact Or.inl h1
      · exact Or.inr ⟨u, by simp, h1, h5⟩
    · exact Or.inr ⟨v, by simp [hv], h3, h4⟩

/-- **C42.** With the stream above it: the user writes (`h`, any history), then calls `close`. If the flush that `close` begins with says that it is done and the stream is good, then at every crash point
the file holds its old content or all that `write` accepted. -/
theorem C42_atomic_partial (dev : Nat → Stream.Ans) (cb : Stream.St → Nat → List Stream.Op) (fuel : Nat) (h : List Stream.TOp) (s : Stream.St) (rs : List Nat)
    (hs : Stream.run dev cb fuel Stream.new h = (s, rs))
    (hf : (Stream.exec dev cb fuel (.flush 2000) s).2 = 1) (hok : Stream.isok (Stream.exec dev cb fuel (.flush 2000) s).1 = true)
    (e : Env) (target : Nat) (pieces : List (List Byte)) (hp : pieces.flatten = (Stream.exec dev cb (fuel + 1) .close s).1.sent) (fs : FS) (ht : e.tmp ≠ some target) (k : Nat) :
    killed fs (session e target pieces true) k target = fs target ∨ killed fs (session e target pieces true) k target = some (Str.accepted h rs) := by
  have h1 := C29_flush dev cb fuel h 2000 (by rw [hs]; exact hf) (by rw [hs]; exact hok)
  rw [hs] at h1
  have h2 : (Stream.exec dev cb (fuel + 1) .close s).1.sent = (Stream.exec dev cb fuel (.flush 2000) s).1.sent := by
    show (Stream.close cb (Stream.exec dev cb fuel) s).1.sent = _
    unfold Stream.close
    simp only []
    generalize Stream.exec dev cb fuel (.flush 2000) s = r at *
    cases r.1.closecb with
    | none => rfl
    | some id =>
      have g := Stream.exec_good (P := False) (dev := dev) (cb := cb) (fun h => h.elim) fuel
      have := (g.ops (cb { r.1 with closed := true, closecb := none, called := r.1.called ++ [id] } id) { r.1 with closed := true, closecb := none, called := r.1.called ++ [id] }
        (by simp [Stream.isok])).dead (by simp [Stream.isok])
      exact this.2
  have := C42_crash e target pieces true fs ht k
  rw [hp, h2, h1] at this
  exact this

/-- The disk is full after the first byte: an error, and the stream closes. -/
def Atom.full : Nat → Stream.Ans := fun i => if i = 0 then ⟨1, 1, [], [], false, false⟩ else ⟨0, 3, [], [.seterr 28], false, false⟩

/-- **C42.** If a write fails, then the stream closes, and the file takes the place of the old one all the same: it holds part of what was accepted. -/
theorem C42_write_error_fails : ∃ (h : List Stream.TOp) (s : Stream.St) (rs : List Nat), Stream.run Atom.full (fun _ _ => []) 10 Stream.new h = (s, rs) ∧ s.closed = true ∧
    Str.accepted h rs = [1, 2, 3] ∧ s.sent = [1] ∧
    ∃ e : Env, ∀ fs : FS, fs 0 = some [7] → (session e 0 [s.sent] true).foldl apply fs 0 = some [1] := by
  refine ⟨[.op (.write [1, 2, 3])], (Stream.run Atom.full (fun _ _ => []) 10 Stream.new [.op (.write [1, 2, 3])]).1, [3], ?_, ?_, ?_, ?_, ⟨true, some 1, true, true⟩, ?_⟩
  · decide +kernel
  · decide +kernel
  · decide +kernel
  · decide +kernel
  · intro fs _
    have : (Stream.run Atom.full (fun _ _ => []) 10 Stream.new [.op (.write [1, 2, 3])]).1.sent = [1] := by decide +kernel
    rw [this]
    rfl

/-- **C42.** When the machine loses power the file may hold part of the new content, or nothing: nothing is synchronised before the renaming. -/
theorem C42_power_fails : ∃ (e : Env) (t : List Sys), Lost (session e 0 [[1, 2, 3]] true) t ∧ ∀ fs : FS, fs 0 = some [7] → t.foldl apply fs 0 = some [] :=
  ⟨⟨true, some 1, false, true⟩, [.create 1, .write 1 [], .closefd, .rename 1 0],
    Lost.keep _ _ _ (Lost.part 1 [1, 2, 3] 0 _ _ (Lost.keep _ _ _ (Lost.keep _ _ _ Lost.nil))), fun _ _ => rfl⟩

-- Old content 7, new content 1 2 3 written in two pieces; killed after each of the system calls.
example : (List.range 8).map (fun k => killed (fun n => if n = 0 then some [7] else none) (session ⟨true, some 1, true, true⟩ 0 [[1, 2], [3]] true) k 0) =
    [some [7], some [7], some [7], some [7], some [7], some [7], some [1, 2, 3], some [1, 2, 3]] := by decide +kernel
example : (Stream.exec Str.twos Str.quietCb 10 (.flush 2000) (Stream.run Str.twos Str.quietCb 10 Stream.new [.op (.write [1, 2, 3, 4])]).1).2 = 1 := by decide +kernel

end Props
