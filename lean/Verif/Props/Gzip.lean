import Verif.Model.Gzip
/- C98: compression. -/
namespace Props
open Wv Wv.Gzip
open Spec.Gzip

namespace Gzp

variable {σ : Type} (Z : Zlib σ)

theorem sub64_le {a b : Nat} (ha : a < 2 ^ 64) (h : b ≤ a) : sub64 a b = a - b := by
  unfold sub64; omega

theorem room_pos {limit output : Nat} (hl : limit < 2 ^ 64) (h : limit = 0 ∨ output < limit) : 0 < room limit output := by
  unfold room
  split
  · decide
  · have : sub64 limit output = limit - output := sub64_le hl (by omega)
    split
    · decide
    · omega

/-- Every byte zlib takes is from the input, in order, and what it writes is put in the output; nothing else is. -/
theorem loop_conserve (hZ : Z.Sane) (limit : Nat) (f : Flush) (n : Nat) : ∀ (l : Loop σ) (x y : List Byte) (g : Bool) (r : Ret), Z.Run x y l.g.z g r →
    ∃ c o g' r', c ++ (loop Z limit f n l).1.inp = l.inp ∧ (loop Z limit f n l).1.out = l.out ++ o ∧ Z.Run (x ++ c) (y ++ o) (loop Z limit f n l).1.g.z g' r' ∧
      (loop Z limit f n l).1.g.output = l.g.output + o.length := by
  induction n with
  | zero =>
    intro l x y g r h
    exact ⟨[], [], g, r, rfl, (List.append_nil _).symm, by simpa [loop] using h, rfl⟩
  | succ n ih =>
    intro l x y g r h
    have hc := Zlib.Run.call f l.inp (room limit l.g.output) h
    rw [loop]
    dsimp only
    generalize Z.call l.g.z f l.inp (room limit l.g.output) = q at hc
    split
    · obtain ⟨c, o, g', r', h1, h2, h3, h4⟩ := ih ⟨⟨q.st, l.g.output + q.out.length, l.g.stuck⟩, l.inp.drop q.used, l.out ++ q.out⟩ _ _ _ _ hc
      refine ⟨l.inp.take q.used ++ c, q.out ++ o, g', r', ?_, ?_, ?_, ?_⟩
      · rw [List.append_assoc, h1]; exact List.take_append_drop _ _
      · rw [h2]; simp
      · rw [← List.append_assoc, ← List.append_assoc]; exact h3
      · rw [h4]; simp; omega
    · exact ⟨l.inp.take q.used, q.out, _, q.ret, List.take_append_drop _ _, rfl, hc, rfl⟩

theorem loop_limit (hZ : Z.Sane) (limit : Nat) (h0 : limit ≠ 0) (hl : limit < 2 ^ 64) (f : Flush) (n : Nat) : ∀ (l : Loop σ), l.g.output ≤ limit →
    (loop Z limit f n l).1.g.output ≤ limit := by
  induction n with
  | zero => intro l h; exact h
  | succ n ih =>
    intro l h
    have hc := (hZ l.g.z f l.inp (room limit l.g.output)).2
    have hr : room limit l.g.output ≤ limit - l.g.output := by
      unfold room
      rw [if_neg h0, sub64_le hl h]
      split <;> omega
    rw [loop]
    dsimp only
    generalize Z.call l.g.z f l.inp (room limit l.g.output) = q at hc
    split
    · refine ih _ ?_; dsimp only; omega
    · dsimp only; omega

end Gzp

namespace Gzp
variable {δ ι : Type} {D : Zlib δ} {I : Zlib ι}

/-- Compressing: all the input is taken, unless the limit stops it. -/
theorem loop_deflate (C : Codec D I) (limit : Nat) (hl : limit < 2 ^ 64) (f : Flush) (hf : f ≠ .finish) (n : Nat) : ∀ (l : Loop δ) (x y : List Byte) (g : Bool) (r : Ret),
    D.Run x y l.g.z g r → g = false → r ≠ .err → l.g.stuck = false → D.bound l.g.z f l.inp < n → (limit = 0 ∨ l.g.output < limit) →
    (loop D limit f n l).1.g.stuck = false ∧
    ∃ c o, c ++ (loop D limit f n l).1.inp = l.inp ∧ (loop D limit f n l).1.out = l.out ++ o ∧ D.Run (x ++ c) (y ++ o) (loop D limit f n l).1.g.z false (loop D limit f n l).2 ∧
      (((loop D limit f n l).2 = .buf ∧ (loop D limit f n l).1.inp = []) ∨
       ((loop D limit f n l).2 = .ok ∧ limit ≠ 0 ∧ limit ≤ (loop D limit f n l).1.g.output)) := by
  induction n with
  | zero => intro l x y g r _ _ _ _ h; exact absurd h (by omega)
  | succ n ih =>
    intro l x y g r h hg hr hs hn hlim
    have hc := Zlib.Run.call f l.inp (room limit l.g.output) h
    have hd := C.dcall x y l.g.z g r f l.inp _ h hg hr hf (room_pos hl hlim)
    rw [hg, beq_eq_false_iff_ne.mpr hf, Bool.or_false] at hc
    rw [loop]
    dsimp only at hd ⊢
    generalize D.call l.g.z f l.inp (room limit l.g.output) = q at hc hd
    split
    · rename_i hok
      have hb : D.bound q.st f (l.inp.drop q.used) < D.bound l.g.z f l.inp := by
        rcases hd with hd | hd
        · exact hd.2
        · rw [hd.1] at hok; exact absurd hok.1 (by decide)
      obtain ⟨h0, c, o, h1, h2, h3, h4⟩ := ih ⟨⟨q.st, l.g.output + q.out.length, l.g.stuck⟩, l.inp.drop q.used, l.out ++ q.out⟩ _ _ _ _ hc rfl
        (by rw [hok.1]; decide) hs (by dsimp only; omega) hok.2
      refine ⟨h0, l.inp.take q.used ++ c, q.out ++ o, ?_, ?_, ?_, h4⟩
      · rw [List.append_assoc, h1]; exact List.take_append_drop _ _
      · rw [h2]; simp
      · rw [← List.append_assoc, ← List.append_assoc]; exact h3
    · rename_i hok
      refine ⟨hs, l.inp.take q.used, q.out, List.take_append_drop _ _, rfl, hc, ?_⟩
      rcases hd with hd | hd
      · refine Or.inr ⟨hd.1, ?_⟩
        rw [hd.1] at hok
        dsimp only at hok ⊢
        constructor
        · intro e; exact hok ⟨rfl, Or.inl e⟩
        · rcases Nat.lt_or_ge (l.g.output + q.out.length) limit with e | e
          · exact absurd ⟨rfl, Or.inr e⟩ hok
          · exact e
      · exact Or.inl ⟨hd.1, by rw [hd.2.1]; simp⟩

theorem loop_finish (C : Codec D I) (n : Nat) : ∀ (l : Loop δ) (x y : List Byte) (g : Bool) (r : Ret),
    D.Run x y l.g.z g r → r ≠ .fin → r ≠ .err → l.g.stuck = false → l.inp = [] → D.bound l.g.z .finish l.inp < n →
    (loop D 0 .finish n l).1.g.stuck = false ∧ (loop D 0 .finish n l).2 = .fin ∧
    ∃ o, (loop D 0 .finish n l).1.out = l.out ++ o ∧ D.Run x (y ++ o) (loop D 0 .finish n l).1.g.z true .fin := by
  induction n with
  | zero => intro l x y g r _ _ _ _ _ h; exact absurd h (by omega)
  | succ n ih =>
    intro l x y g r h hr1 hr2 hs hi hn
    have hc := Zlib.Run.call .finish l.inp (room 0 l.g.output) h
    have hd := C.dfin x y l.g.z g r _ h hr1 hr2 (room_pos (limit := 0) (output := l.g.output) (by decide) (Or.inl rfl))
    rw [hi, show (g || Flush.finish == .finish) = true by simp] at hc
    rw [hi] at hn
    rw [loop]
    dsimp only at hd ⊢
    rw [hi]
    generalize D.call l.g.z .finish [] (room 0 l.g.output) = q at hc hd
    rw [List.take_nil, List.append_nil] at hc
    rw [List.drop_nil]
    split
    · rename_i hok
      have hb : D.bound q.st .finish [] < D.bound l.g.z .finish [] := by
        rcases hd with hd | hd
        · exact hd.2
        · rw [hd] at hok; exact absurd hok.1 (by decide)
      obtain ⟨h0, h1, o, h2, h3⟩ := ih ⟨⟨q.st, l.g.output + q.out.length, l.g.stuck⟩, [], l.out ++ q.out⟩ _ _ _ _ hc
        (by rw [hok.1]; decide) (by rw [hok.1]; decide) hs rfl (by dsimp only; omega)
      refine ⟨h0, h1, q.out ++ o, ?_, ?_⟩
      · rw [h2]; simp
      · rw [← List.append_assoc]; exact h3
    · rename_i hok
      have hq : q.ret = .fin := by
        rcases hd with hd | hd
        · exact absurd ⟨hd.1, Or.inl rfl⟩ hok
        · exact hd
      rw [hq] at hc
      exact ⟨hs, hq, q.out, rfl, hc⟩

/-- What is known of the decoder: it took `p` and wrote `o`, of a stream that is `y` for the content `x`. -/
def IGood (I : Zlib ι) (x y : List Byte) (p o : List Byte) (s : ι) (g : Bool) (r : Ret) : Prop :=
  I.Run p o s g r ∧ p <+: y ∧ o <+: x ∧ r ≠ .err ∧ (r = .fin → p = y ∧ o = x)

theorem loop_inflate (C : Codec D I) (limit : Nat) (hl : limit < 2 ^ 64) (f : Flush) (hf : f ≠ .finish) {x y : List Byte} {d : δ} {f' : Bool} (hD : D.Run x y d f' .fin)
    (t : List Byte) (n : Nat) : ∀ (l : Loop ι) (p o : List Byte) (g : Bool) (r : Ret),
    IGood I x y p o l.g.z g r → p ++ l.inp <+: y ++ t → l.g.stuck = false → (r = .fin ∧ n ≠ 0 ∨ I.bound l.g.z f l.inp < n) → (limit = 0 ∨ l.g.output < limit) →
    (loop I limit f n l).1.g.stuck = false ∧
    ∃ c w g', c ++ (loop I limit f n l).1.inp = l.inp ∧ (loop I limit f n l).1.out = l.out ++ w ∧
      IGood I x y (p ++ c) (o ++ w) (loop I limit f n l).1.g.z g' (loop I limit f n l).2 ∧
      (r = .fin → (loop I limit f n l).2 = .fin) ∧
      ((loop I limit f n l).2 = .fin ∨ ((loop I limit f n l).2 = .buf ∧ (loop I limit f n l).1.inp = [] ∧ p ++ c ≠ y) ∨
       ((loop I limit f n l).2 = .ok ∧ limit ≠ 0 ∧ limit ≤ (loop I limit f n l).1.g.output)) := by
  induction n with
  | zero => intro l p o g r _ _ _ h; exact absurd h (by omega)
  | succ n ih =>
    intro l p o g r hG hp hs hn hlim
    obtain ⟨h, hpy, hox, hr1, hr2⟩ := hG
    have hc := Zlib.Run.call f l.inp (room limit l.g.output) h
    by_cases hr : r = .fin
    · have he := C.iend p o l.g.z g (hr ▸ h) f l.inp (room limit l.g.output) hf
      rw [he] at hc
      rw [loop]
      dsimp only
      rw [he]
      dsimp only
      rw [if_neg (by simp)]
      refine ⟨hs, [], [], (g || f == .finish), rfl, rfl, ⟨?_, ?_, ?_, by simp, fun _ => ?_⟩, fun _ => rfl, Or.inl rfl⟩
      · exact hc
      · simpa using hpy
      · simpa using hox
      · simpa using hr2 hr
    · have hd := C.icall x y d f' hD t p o l.g.z g r h hr hr1 hpy f l.inp (room limit l.g.output) hf hp
      have hn' : I.bound l.g.z f l.inp < n + 1 := by
        rcases hn with hn | hn
        · exact absurd hn.1 hr
        · exact hn
      have hrm := room_pos hl hlim
      rw [loop]
      dsimp only at hd ⊢
      generalize I.call l.g.z f l.inp (room limit l.g.output) = q at hc hd
      obtain ⟨d1, d2, d3⟩ := hd
      split
      · rename_i hok
        have hb : I.bound q.st f (l.inp.drop q.used) < I.bound l.g.z f l.inp := by
          rcases d3 with d3 | d3 | d3
          · exact d3.2
          · rw [d3.1] at hok; exact absurd hok.1 (by decide)
          · rw [d3.1] at hok; exact absurd hok.1 (by decide)
        have hq : q.ret ≠ .fin := by rw [hok.1]; decide
        obtain ⟨h0, c, w, g', h1, h2, h3, _, h4⟩ := ih ⟨⟨q.st, l.g.output + q.out.length, l.g.stuck⟩, l.inp.drop q.used, l.out ++ q.out⟩ _ _ _ _
          ⟨hc, d1, d2, by rw [hok.1]; decide, fun e => absurd e hq⟩
          (by dsimp only; rw [List.append_assoc, List.take_append_drop]; exact hp) hs (Or.inr (by dsimp only; omega)) hok.2
        refine ⟨h0, l.inp.take q.used ++ c, q.out ++ w, g', ?_, ?_, ?_, fun e => absurd e hr, ?_⟩
        · rw [List.append_assoc, h1]; exact List.take_append_drop _ _
        · rw [h2]; simp
        · rw [← List.append_assoc, ← List.append_assoc]; exact h3
        · rw [← List.append_assoc]; exact h4
      · rename_i hok
        refine ⟨hs, l.inp.take q.used, q.out, _, List.take_append_drop _ _, rfl, ⟨hc, d1, d2, ?_, fun e => ?_⟩, fun e => absurd e hr, ?_⟩
        · rcases d3 with d3 | d3 | d3 <;> rw [d3.1] <;> simp
        · rcases d3 with d3 | d3 | d3
          · rw [d3.1] at e; exact absurd e (by simp)
          · rw [d3.1] at e; exact absurd e (by simp)
          · exact d3.2
        · rcases d3 with d3 | d3 | d3
          · refine Or.inr (Or.inr ⟨d3.1, ?_⟩)
            rw [d3.1] at hok
            dsimp only at hok ⊢
            constructor
            · intro e; exact hok ⟨rfl, Or.inl e⟩
            · rcases Nat.lt_or_ge (l.g.output + q.out.length) limit with e | e
              · exact absurd ⟨rfl, Or.inr e⟩ hok
              · exact e
          · obtain ⟨e1, e2⟩ := d3.2.2.2 hrm
            refine Or.inr (Or.inl ⟨d3.1, ?_, ?_⟩)
            · dsimp only; rw [e1]; simp
            · rw [e1]; simpa using e2
          · exact Or.inl d3.1

/-- What `opt` may be: some of what there is. -/
def Opt (opt : List Byte → Nat) : Prop := ∀ l, l ≠ [] → 1 ≤ opt l ∧ opt l ≤ l.length

/-! ### Whatever zlib does -/

theorem process_conserve {σ : Type} (Z : Zlib σ) (hZ : Z.Sane) (limit : Nat) (full : Bool) (e : Enc (Gz σ)) (inp out : List Byte) (flush fin : Bool) {x y : List Byte}
    {g : Bool} {r : Ret} (h : Z.Run x y e.st.z g r) :
    let q := process Z limit full e inp out flush fin
    (∃ c o g' r', c ++ q.2.1 = inp ∧ q.2.2.1 = out ++ o ∧ Z.Run (x ++ c) (y ++ o) q.1.st.z g' r' ∧ q.1.st.output = e.st.output + o.length) ∧
    (limit ≠ 0 → limit < 2 ^ 64 → e.st.output ≤ limit → q.1.st.output ≤ limit) := by
  unfold process
  dsimp only
  generalize (if fin = true then Flush.finish else if flush = true then if full = true then Flush.full else Flush.sync else Flush.none) = f
  have h1 := loop_conserve Z hZ limit f (Z.bound e.st.z f inp + 1) ⟨e.st, inp, out⟩ x y g r h
  have h2 := fun h0 hl => loop_limit Z hZ limit h0 hl f (Z.bound e.st.z f inp + 1) ⟨e.st, inp, out⟩
  generalize loop Z limit f (Z.bound e.st.z f inp + 1) ⟨e.st, inp, out⟩ = q at h1 h2
  obtain ⟨c, o, g', r', p1, p2, p3, p4⟩ := h1
  obtain ⟨l, ret⟩ := q
  cases ret <;> exact ⟨⟨c, o, g', r', p1, p2, p3, p4⟩, h2⟩

theorem encLoop_conserve {σ : Type} (Z : Zlib σ) (hZ : Z.Sane) (limit : Nat) (full : Bool) (opt : List Byte → Nat) (flush : Bool) (n : Nat) :
    ∀ (e : Enc (Gz σ)) (io : Io) (x y : List Byte) (g : Bool) (r : Ret), Z.Run x y e.st.z g r →
    let q := encLoop Z limit full opt flush n e io
    (∃ c o g' r', c ++ q.2.1.inb = io.inb ∧ q.2.1.out = io.out ++ o ∧ Z.Run (x ++ c) (y ++ o) q.1.st.z g' r' ∧ q.1.st.output = e.st.output + o.length) ∧
    (limit ≠ 0 → limit < 2 ^ 64 → e.st.output ≤ limit → q.1.st.output ≤ limit) := by
  induction n with
  | zero =>
    intro e io x y g r h
    exact ⟨⟨[], [], g, r, rfl, (List.append_nil _).symm, by simpa [encLoop] using h, rfl⟩, fun _ _ h => h⟩
  | succ n ih =>
    intro e io x y g r h
    rw [encLoop]
    dsimp only
    generalize (if io.inb.length ≠ 0 then opt io.inb else 0) = avail
    have hp := process_conserve Z hZ limit full e (io.inb.take avail) io.out (flush && (io.inb.drop avail).length == 0) false h
    dsimp only at hp
    generalize process Z limit full e (io.inb.take avail) io.out (flush && (io.inb.drop avail).length == 0) false = q at hp
    obtain ⟨⟨c, o, g', r', p1, p2, p3, p4⟩, p5⟩ := hp
    have hin : c ++ (q.2.1 ++ io.inb.drop avail) = io.inb := by
      rw [← List.append_assoc, p1, List.take_append_drop]
    split
    · exact ⟨⟨c, o, g', r', hin, p2, p3, p4⟩, p5⟩
    · split
      · exact ⟨⟨c, o, g', r', hin, p2, p3, p4⟩, p5⟩
      · obtain ⟨⟨c', o', g'', r'', q1, q2, q3, q4⟩, q5⟩ := ih q.1 ⟨q.2.1 ++ io.inb.drop avail, q.2.2.1⟩ _ _ _ _ p3
        refine ⟨⟨c ++ c', o ++ o', g'', r'', ?_, ?_, ?_, ?_⟩, fun h0 hl ho => q5 h0 hl (p5 h0 hl ho)⟩
        · rw [List.append_assoc, q1]; exact hin
        · rw [q2]; dsimp only; rw [p2, List.append_assoc]
        · rw [← List.append_assoc, ← List.append_assoc]; exact q3
        · rw [q4, p4, List.length_append]; omega

/-! ### Compressing -/

theorem process_deflate (C : Codec D I) (limit : Nat) (hl : limit < 2 ^ 64) (full : Bool) (e : Enc (Gz δ)) (inp out : List Byte) (flush : Bool) {x y : List Byte} {g : Bool}
    {r : Ret} (h : D.Run x y e.st.z g r) (hg : g = false) (hr : r ≠ .err) (hs : e.st.stuck = false) (hlim : limit = 0 ∨ e.st.output < limit) :
    let q := process D limit full e inp out flush false
    q.2.2.2 = true ∧ q.1.okay = e.okay ∧ q.1.finished = e.finished ∧ q.1.st.stuck = false ∧
    ∃ c o g' r', c ++ q.2.1 = inp ∧ q.2.2.1 = out ++ o ∧ D.Run (x ++ c) (y ++ o) q.1.st.z g' r' ∧ g' = false ∧ r' ≠ .err ∧ r' ≠ .fin ∧
      (q.2.1 = [] ∨ (limit ≠ 0 ∧ limit ≤ q.1.st.output)) := by
  unfold process
  simp only [Bool.false_eq_true, if_false]
  generalize hf' : (if flush = true then if full = true then Flush.full else Flush.sync else Flush.none) = f
  have hf : f ≠ .finish := by
    rw [← hf']
    split
    · split <;> decide
    · decide
  obtain ⟨h0, c, o, h1, h2, h3, h4⟩ := loop_deflate C limit hl f hf (D.bound e.st.z f inp + 1) ⟨e.st, inp, out⟩ x y g r h hg hr hs (by dsimp only; omega) hlim
  rcases h4 with ⟨h4, h5⟩ | ⟨h4, h5⟩
  · rw [h4] at h3 ⊢
    exact ⟨rfl, rfl, rfl, h0, c, o, false, .buf, h1, h2, h3, rfl, by decide, by decide, Or.inl h5⟩
  · rw [h4] at h3 ⊢
    exact ⟨rfl, rfl, rfl, h0, c, o, false, .ok, h1, h2, h3, rfl, by decide, by decide, Or.inr h5⟩

theorem encLoop_deflate (C : Codec D I) (limit : Nat) (hl : limit < 2 ^ 64) (full : Bool) (opt : List Byte → Nat) (hopt : Opt opt) (flush : Bool) (n : Nat) :
    ∀ (e : Enc (Gz δ)) (io : Io) (x y : List Byte) (g : Bool) (r : Ret), D.Run x y e.st.z g r → g = false → r ≠ .err → r ≠ .fin → e.st.stuck = false →
    (limit = 0 ∨ e.st.output < limit) → io.inb.length < n →
    let q := encLoop D limit full opt flush n e io
    q.2.2 = true ∧ q.1.okay = e.okay ∧ q.1.finished = e.finished ∧ q.1.st.stuck = false ∧
    ∃ c o g' r', c ++ q.2.1.inb = io.inb ∧ q.2.1.out = io.out ++ o ∧ D.Run (x ++ c) (y ++ o) q.1.st.z g' r' ∧ g' = false ∧ r' ≠ .err ∧ r' ≠ .fin ∧
      (q.2.1.inb = [] ∨ (limit ≠ 0 ∧ limit ≤ q.1.st.output)) := by
  induction n with
  | zero => intro e io x y g r _ _ _ _ _ _ h; exact absurd h (by omega)
  | succ n ih =>
    intro e io x y g r h hg hr1 hr2 hs hlim hn
    rw [encLoop]
    dsimp only
    generalize hav : (if io.inb.length ≠ 0 then opt io.inb else 0) = avail
    have hp := process_deflate C limit hl full e (io.inb.take avail) io.out (flush && (io.inb.drop avail).length == 0) h hg hr1 hs hlim
    dsimp only at hp
    generalize process D limit full e (io.inb.take avail) io.out (flush && (io.inb.drop avail).length == 0) false = q at hp
    obtain ⟨p1, p2, p3, p4, c, o, g', r', p5, p6, p7, p8, p9, p10, p11⟩ := hp
    rw [p1]
    simp only [Bool.not_true, Bool.false_eq_true, if_false]
    have hin : c ++ (q.2.1 ++ io.inb.drop avail) = io.inb := by
      rw [← List.append_assoc, p5, List.take_append_drop]
    split
    · rename_i hx
      refine ⟨rfl, p2, p3, p4, c, o, g', r', hin, p6, p7, p8, p9, p10, ?_⟩
      rcases p11 with p11 | p11
      · rw [Bool.or_eq_true, Bool.or_eq_true] at hx
        rcases hx with (hx | hx) | hx
        · left
          dsimp only
          rw [p11, List.nil_append]
          exact List.length_eq_zero_iff.mp (by simpa using hx)
        · left
          dsimp only at hx ⊢
          rw [p11, List.nil_append] at hx ⊢
          have hx' : io.inb.length = (io.inb.drop avail).length := by simpa using hx
          rw [List.length_drop] at hx'
          by_cases h0 : io.inb = []
          · rw [h0]; simp
          · have := hopt io.inb h0
            have hl0 : io.inb.length ≠ 0 := fun e => h0 (List.length_eq_zero_iff.mp e)
            rw [if_pos hl0] at hav
            omega
        · right
          simpa using hx
      · exact Or.inr p11
    · rename_i hx
      rw [Bool.or_eq_true, Bool.or_eq_true, not_or, not_or] at hx
      obtain ⟨⟨hx1, hx2⟩, hx3⟩ := hx
      have hlim' : limit = 0 ∨ q.1.st.output < limit := by
        by_cases h0 : limit = 0
        · exact Or.inl h0
        · right
          have : ¬ (limit ≤ q.1.st.output) := fun e => hx3 (by simp [h0, e])
          omega
      have hlen : (q.2.1 ++ io.inb.drop avail).length < n := by
        have h1 : (q.2.1 ++ io.inb.drop avail).length ≤ io.inb.length := by
          have hx := congrArg List.length hin
          rw [List.length_append] at hx
          omega
        have h2 : io.inb.length ≠ (q.2.1 ++ io.inb.drop avail).length := by simpa using hx2
        omega
      obtain ⟨q1, q2, q3, q4, c', o', g'', r'', q5, q6, q7, q8, q9, q10, q11⟩ := ih q.1 ⟨q.2.1 ++ io.inb.drop avail, q.2.2.1⟩ (x ++ c) (y ++ o) g' r' p7 p8 p9 p10 p4 hlim' hlen
      refine ⟨q1, q2.trans p2, q3.trans p3, q4, c ++ c', o ++ o', g'', r'', ?_, ?_, ?_, q8, q9, q10, q11⟩
      · rw [List.append_assoc, q5]; exact hin
      · rw [q6]; dsimp only; rw [p6, List.append_assoc]
      · rw [← List.append_assoc, ← List.append_assoc]; exact q7

/-! ### Decompressing -/

theorem process_inflate (C : Codec D I) (limit : Nat) (hl : limit < 2 ^ 64) (full : Bool) (e : Enc (Gz ι)) (inp out : List Byte) (flush : Bool) {x y : List Byte} {d : δ}
    {f' : Bool} (hD : D.Run x y d f' .fin) (t : List Byte) {p o : List Byte} {g : Bool} {r : Ret} (h : IGood I x y p o e.st.z g r) (hp : p ++ inp <+: y ++ t)
    (hs : e.st.stuck = false) (hlim : limit = 0 ∨ e.st.output < limit) (hfin : e.finished = true ↔ r = .fin) :
    let q := process I limit full e inp out flush false
    q.2.2.2 = true ∧ q.1.okay = e.okay ∧ q.1.st.stuck = false ∧
    ∃ c w g' r', c ++ q.2.1 = inp ∧ q.2.2.1 = out ++ w ∧ IGood I x y (p ++ c) (o ++ w) q.1.st.z g' r' ∧ (q.1.finished = true ↔ r' = .fin) ∧
      (r' = .fin ∨ (q.2.1 = [] ∧ p ++ c ≠ y) ∨ (limit ≠ 0 ∧ limit ≤ q.1.st.output)) := by
  unfold process
  simp only [Bool.false_eq_true, if_false]
  generalize hf' : (if flush = true then if full = true then Flush.full else Flush.sync else Flush.none) = f
  have hf : f ≠ .finish := by
    rw [← hf']
    split
    · split <;> decide
    · decide
  obtain ⟨h0, c, w, gg, h1, h2, h3, h5, h4⟩ := loop_inflate C limit hl f hf hD t (I.bound e.st.z f inp + 1) ⟨e.st, inp, out⟩ p o g r h hp hs (Or.inr (by dsimp only; omega)) hlim
  have hnf : (loop I limit f (I.bound e.st.z f inp + 1) ⟨e.st, inp, out⟩).2 ≠ .fin → e.finished = false := by
    intro hne
    cases he : e.finished with
    | false => rfl
    | true => exact absurd (h5 (hfin.mp he)) hne
  rcases h4 with h4 | ⟨h4, h6⟩ | ⟨h4, h6⟩
  · rw [h4] at h3 ⊢
    exact ⟨rfl, rfl, h0, c, w, gg, .fin, h1, h2, h3, ⟨fun _ => rfl, fun _ => rfl⟩, Or.inl rfl⟩
  · have hx := hnf (by rw [h4]; decide)
    rw [h4] at h3 ⊢
    exact ⟨rfl, rfl, h0, c, w, gg, .buf, h1, h2, h3, ⟨fun e => (by rw [hx] at e; exact absurd e (by decide)), fun e => absurd e (by decide)⟩, Or.inr (Or.inl h6)⟩
  · have hx := hnf (by rw [h4]; decide)
    rw [h4] at h3 ⊢
    exact ⟨rfl, rfl, h0, c, w, gg, .ok, h1, h2, h3, ⟨fun e => (by rw [hx] at e; exact absurd e (by decide)), fun e => absurd e (by decide)⟩, Or.inr (Or.inr h6)⟩

theorem encLoop_inflate (C : Codec D I) (limit : Nat) (hl : limit < 2 ^ 64) (full : Bool) (opt : List Byte → Nat) (hopt : Opt opt) (flush : Bool) {x y : List Byte} {d : δ}
    {f' : Bool} (hD : D.Run x y d f' .fin) (t : List Byte) (n : Nat) :
    ∀ (e : Enc (Gz ι)) (io : Io) (p o : List Byte) (g : Bool) (r : Ret), IGood I x y p o e.st.z g r → p ++ io.inb <+: y ++ t → e.st.stuck = false →
    (limit = 0 ∨ e.st.output < limit) → (e.finished = true ↔ r = .fin) → io.inb.length < n →
    let q := encLoop I limit full opt flush n e io
    q.2.2 = true ∧ q.1.okay = e.okay ∧ q.1.st.stuck = false ∧
    ∃ c w g' r', c ++ q.2.1.inb = io.inb ∧ q.2.1.out = io.out ++ w ∧ IGood I x y (p ++ c) (o ++ w) q.1.st.z g' r' ∧ (q.1.finished = true ↔ r' = .fin) ∧
      (r' = .fin ∨ (q.2.1.inb = [] ∧ p ++ c ≠ y) ∨ (limit ≠ 0 ∧ limit ≤ q.1.st.output)) := by
  induction n with
  | zero => intro e io p o g r _ _ _ _ _ h; exact absurd h (by omega)
  | succ n ih =>
    intro e io p o g r h hpre hs hlim hfin hn
    rw [encLoop]
    dsimp only
    generalize hav : (if io.inb.length ≠ 0 then opt io.inb else 0) = avail
    have hpre' : p ++ io.inb.take avail <+: y ++ t :=
      List.IsPrefix.trans ((List.prefix_append_right_inj p).mpr (List.take_prefix _ _)) hpre
    have hp := process_inflate C limit hl full e (io.inb.take avail) io.out (flush && (io.inb.drop avail).length == 0) hD t h hpre' hs hlim hfin
    dsimp only at hp
    generalize process I limit full e (io.inb.take avail) io.out (flush && (io.inb.drop avail).length == 0) false = q at hp
    obtain ⟨p1, p2, p4, c, w, g', r', p5, p6, p7, p8, p11⟩ := hp
    rw [p1]
    simp only [Bool.not_true, Bool.false_eq_true, if_false]
    have hin : c ++ (q.2.1 ++ io.inb.drop avail) = io.inb := by
      rw [← List.append_assoc, p5, List.take_append_drop]
    split
    · rename_i hx
      refine ⟨rfl, p2, p4, c, w, g', r', hin, p6, p7, p8, ?_⟩
      rcases p11 with p11 | ⟨p11, p12⟩ | p11
      · exact Or.inl p11
      · right
        rw [Bool.or_eq_true, Bool.or_eq_true] at hx
        rcases hx with (hx | hx) | hx
        · left
          dsimp only
          rw [p11, List.nil_append]
          exact ⟨List.length_eq_zero_iff.mp (by simpa using hx), p12⟩
        · left
          dsimp only at hx ⊢
          rw [p11, List.nil_append] at hx ⊢
          refine ⟨?_, p12⟩
          have hx' : io.inb.length = (io.inb.drop avail).length := by simpa using hx
          rw [List.length_drop] at hx'
          by_cases h0 : io.inb = []
          · rw [h0]; simp
          · have := hopt io.inb h0
            have hl0 : io.inb.length ≠ 0 := fun e => h0 (List.length_eq_zero_iff.mp e)
            rw [if_pos hl0] at hav
            omega
        · right
          simpa using hx
      · exact Or.inr (Or.inr p11)
    · rename_i hx
      rw [Bool.or_eq_true, Bool.or_eq_true, not_or, not_or] at hx
      obtain ⟨⟨hx1, hx2⟩, hx3⟩ := hx
      have hlim' : limit = 0 ∨ q.1.st.output < limit := by
        by_cases h0 : limit = 0
        · exact Or.inl h0
        · right
          have : ¬ (limit ≤ q.1.st.output) := fun e => hx3 (by simp [h0, e])
          omega
      have hlen : (q.2.1 ++ io.inb.drop avail).length < n := by
        have h1 : (q.2.1 ++ io.inb.drop avail).length ≤ io.inb.length := by
          have hx := congrArg List.length hin
          rw [List.length_append] at hx
          omega
        have h2 : io.inb.length ≠ (q.2.1 ++ io.inb.drop avail).length := by simpa using hx2
        omega
      obtain ⟨q1, q2, q4, c', o', g'', r'', q5, q6, q7, q8, q11⟩ := ih q.1 ⟨q.2.1 ++ io.inb.drop avail, q.2.2.1⟩ (p ++ c) (o ++ w) g' r' p7
        (by dsimp only; rw [List.append_assoc, hin]; exact hpre) p4 hlim' p8 hlen
      refine ⟨q1, q2.trans p2, q4, c ++ c', w ++ o', g'', r'', ?_, ?_, ?_, q8, ?_⟩
      · rw [List.append_assoc, q5]; exact hin
      · rw [q6]; dsimp only; rw [p6, List.append_assoc]
      · rw [← List.append_assoc, ← List.append_assoc]; exact q7
      · rw [← List.append_assoc]; exact q11

/-! ### The encoder as a whole -/

/-- The compressor between two calls: what it was given, what it wrote. -/
def DGood (D : Zlib δ) (e : Enc (Gz δ)) (io : Io) (given : List Byte) : Prop :=
  e.okay = true ∧ e.finished = false ∧ e.st.stuck = false ∧ io.inb = [] ∧ ∃ g r, D.Run given io.out e.st.z g r ∧ g = false ∧ r ≠ .err ∧ r ≠ .fin

theorem feed_deflate (C : Codec D I) (full : Bool) (opt : List Byte → Nat) (hopt : Opt opt) (l : List (List Byte × Bool)) : ∀ (e : Enc (Gz δ)) (io : Io) (given : List Byte),
    DGood D e io given → DGood D (feed (impl D 0 full opt) e io l).1 (feed (impl D 0 full opt) e io l).2 (given ++ (l.map Prod.fst).flatten) := by
  induction l with
  | nil => intro e io given h; simpa [feed] using h
  | cons xf l ih =>
    intro e io given h
    obtain ⟨x, fl⟩ := xf
    rw [feed]
    obtain ⟨h1, h2, h3, h4, g, r, h5, h6, h7, h8⟩ := h
    have key : DGood D ((impl D 0 full opt).encode e { io with inb := io.inb ++ x } fl false).1
        ((impl D 0 full opt).encode e { io with inb := io.inb ++ x } fl false).2.1 (given ++ x) := by
      unfold EncImpl.encode
      simp only [Bool.false_eq_true, if_false]
      rw [h1, h2, h4, List.nil_append]
      by_cases hd : (true && !false && (!x.isEmpty || fl)) = true
      · rw [if_pos hd]
        have hq := encLoop_deflate C 0 (by decide) full opt hopt fl (x.length + 1) { e with st := { e.st with output := 0 } } ⟨x, io.out⟩ given io.out g r h5 h6 h7 h8 h3
          (Or.inl rfl) (by dsimp only; omega)
        dsimp only at hq
        obtain ⟨q1, q2, q3, q4, c, o, g', r', q5, q6, q7, q8, q9, q10, q11⟩ := hq
        dsimp only [impl]
        have hin : (encLoop D 0 full opt fl (x.length + 1) { e with st := { e.st with output := 0 } } ⟨x, io.out⟩).2.1.inb = [] := by
          rcases q11 with q11 | q11
          · exact q11
          · exact absurd rfl q11.1
        rw [hin, List.append_nil] at q5
        refine ⟨q2.trans h1, q3.trans h2, q4, hin, g', r', ?_, q8, q9, q10⟩
        rw [q5] at q7
        rw [q6]; exact q7
      · rw [if_neg hd]
        have hx : x = [] := by
          cases x with
          | nil => rfl
          | cons a x => exact absurd (by simp) hd
        rw [hx, List.append_nil]
        exact ⟨h1, h2, h3, rfl, g, r, h5, h6, h7, h8⟩
    have := ih _ _ _ key
    simpa using this

/-- The decompressor between two calls. -/
def FGood (I : Zlib ι) (limit : Nat) (x y : List Byte) (e : Enc (Gz ι)) (io : Io) (given : List Byte) : Prop :=
  e.okay = true ∧ e.st.stuck = false ∧ ∃ p g r, p ++ io.inb = given ∧ IGood I x y p io.out e.st.z g r ∧ (e.finished = true ↔ r = .fin) ∧
    (limit = 0 → r = .fin ∨ (io.inb = [] ∧ p ≠ y))

theorem feed_inflate (C : Codec D I) (limit : Nat) (hl : limit < 2 ^ 64) (full : Bool) (opt : List Byte → Nat) (hopt : Opt opt) {x y : List Byte} {d : δ}
    {f' : Bool} (hD : D.Run x y d f' .fin) (t : List Byte) (l : List (List Byte × Bool)) : ∀ (e : Enc (Gz ι)) (io : Io) (given : List Byte),
    FGood I limit x y e io given → given ++ (l.map Prod.fst).flatten <+: y ++ t →
    FGood I limit x y (feed (impl I limit full opt) e io l).1 (feed (impl I limit full opt) e io l).2 (given ++ (l.map Prod.fst).flatten) := by
  induction l with
  | nil => intro e io given h _; simpa [feed] using h
  | cons xf l ih =>
    intro e io given h hpre
    obtain ⟨v, fl⟩ := xf
    rw [feed]
    obtain ⟨h1, h2, p, g, r, h3, h4, h5, h6⟩ := h
    have hpre1 : given ++ v <+: y ++ t := by
      refine List.IsPrefix.trans ?_ hpre
      rw [List.prefix_append_right_inj]
      exact List.prefix_append _ _
    have key : FGood I limit x y ((impl I limit full opt).encode e { io with inb := io.inb ++ v } fl false).1
        ((impl I limit full opt).encode e { io with inb := io.inb ++ v } fl false).2.1 (given ++ v) := by
      unfold EncImpl.encode
      simp only [Bool.false_eq_true, if_false]
      by_cases hd : (e.okay && !e.finished && (!(io.inb ++ v).isEmpty || fl)) = true
      · rw [if_pos hd]
        have hq := encLoop_inflate C limit hl full opt hopt fl hD t ((io.inb ++ v).length + 1) { e with st := { e.st with output := 0 } } ⟨io.inb ++ v, io.out⟩ p io.out g r h4
          (by dsimp only; rw [← List.append_assoc, h3]; exact hpre1) h2 (by dsimp only; omega) h5 (by dsimp only; omega)
        dsimp only at hq
        obtain ⟨q1, q2, q4, c, w, g', r', q5, q6, q7, q8, q11⟩ := hq
        dsimp only [impl]
        refine ⟨q2.trans h1, q4, p ++ c, g', r', ?_, ?_, q8, fun h0 => ?_⟩
        · rw [List.append_assoc, q5, ← List.append_assoc, h3]
        · rw [q6]; exact q7
        · rcases q11 with q11 | q11 | q11
          · exact Or.inl q11
          · exact Or.inr q11
          · exact absurd h0 q11.1
      · rw [if_neg hd]
        refine ⟨h1, h2, p, g, r, ?_, h4, h5, fun h0 => ?_⟩
        · dsimp only; rw [← List.append_assoc, h3]
        · rcases h6 h0 with h6 | h6
          · exact Or.inl h6
          · cases hf : e.finished with
            | true => exact Or.inl (h5.mp hf)
            | false =>
              rw [h1, hf] at hd
              have hx : io.inb ++ v = [] := by
                cases hv : io.inb ++ v with
                | nil => rfl
                | cons a z => rw [hv] at hd; exact absurd (by simp) hd
              exact Or.inr ⟨hx, h6.2⟩
    have := ih _ _ _ key (by simpa using hpre)
    simpa using this

end Gzp
open Gzp

/-- C98: whatever zlib does, in whichever direction: `encode` removes from the input what zlib took, and only that, and adds to the output what zlib wrote; no more than
    the limit. -/
theorem C98_conserve {σ : Type} (Z : Zlib σ) (hZ : Z.Sane) (limit : Nat) (hl : limit < 2 ^ 64) (full : Bool) (opt : List Byte → Nat) (e : Enc (Gz σ)) (io : Io) (flush : Bool)
    (x y : List Byte) (g : Bool) (r : Ret) (h : Z.Run x y e.st.z g r) :
    let q := (impl Z limit full opt).encode e io flush false
    ∃ c o g' r', c ++ q.2.1.inb = io.inb ∧ q.2.1.out = io.out ++ o ∧ Z.Run (x ++ c) (y ++ o) q.1.st.z g' r' ∧ (limit ≠ 0 → o.length ≤ limit) := by
  unfold EncImpl.encode
  simp only [Bool.false_eq_true, if_false]
  split
  · obtain ⟨⟨c, o, g', r', q1, q2, q3, q4⟩, q5⟩ := encLoop_conserve Z hZ limit full opt flush (io.inb.length + 1) { e with st := { e.st with output := 0 } } io x y g r h
    refine ⟨c, o, g', r', q1, q2, q3, fun h0 => ?_⟩
    have := q5 h0 hl (Nat.zero_le _)
    rw [q4] at this
    exact Nat.le_trans (Nat.le_add_left _ _) this
  · exact ⟨[], [], g, r, rfl, (List.append_nil _).symm, by simpa using h, fun _ => Nat.zero_le _⟩

/-- C98: compressing, in pieces of any size and with any flushes, and then finishing: zlib was given exactly the input, in order, and told that this is the end; and the
    output is exactly what zlib wrote. Nothing is reported as failed; no loop runs for ever. -/
theorem C98_compress {δ ι : Type} {D : Zlib δ} {I : Zlib ι} (C : Codec D I) (full : Bool) (opt : List Byte → Nat) (hopt : Opt opt) (junk : Nat) (l : List (List Byte × Bool)) :
    let r := feed (impl D 0 full opt) (new D junk) {} l
    let q := (impl D 0 full opt).finish r.1 r.2
    q.2.2 = true ∧ q.1.st.stuck = false ∧ r.2.inb = [] ∧ D.Run (l.map Prod.fst).flatten q.2.1.out q.1.st.z true .fin := by
  have h := feed_deflate C full opt hopt l (new D junk) {} [] ⟨rfl, rfl, rfl, rfl, false, .ok, Zlib.Run.init, rfl, by decide, by decide⟩
  rw [List.nil_append] at h
  dsimp only
  generalize feed (impl D 0 full opt) (new D junk) {} l = r at h
  obtain ⟨h1, h2, h3, h4, g, s, h5, h6, h7, h8⟩ := h
  have hl := loop_finish C (D.bound r.1.st.z .finish [] + 1) ⟨r.1.st, [], r.2.out⟩ _ _ g s h5 h8 h7 h3 rfl (by dsimp only; omega)
  obtain ⟨l1, l2, o, l3, l4⟩ := hl
  unfold EncImpl.finish
  rw [h1, h2]
  simp only [Bool.not_false, Bool.and_self, if_true]
  dsimp only [impl]
  unfold process
  simp only [if_true]
  rw [l2]
  refine ⟨rfl, l1, h4, ?_⟩
  dsimp only
  rw [l3]
  exact l4

/-- C98: what was compressed in any pieces comes out again, in any pieces, exactly; the end is noticed, and what follows it stays in the input. -/
theorem C98_roundtrip {δ ι : Type} {D : Zlib δ} {I : Zlib ι} (C : Codec D I) (full full' : Bool) (opt opt' : List Byte → Nat) (hopt : Opt opt) (hopt' : Opt opt')
    (junk junk' : Nat) (l m : List (List Byte × Bool)) (t : List Byte) :
    let r := feed (impl D 0 full opt) (new D junk) {} l
    let q := (impl D 0 full opt).finish r.1 r.2
    (m.map Prod.fst).flatten = q.2.1.out ++ t →
    let u := feed (impl I 0 full' opt') (new I junk') {} m
    u.1.okay = true ∧ u.1.finished = true ∧ u.1.st.stuck = false ∧ u.2.out = (l.map Prod.fst).flatten ∧ u.2.inb = t := by
  intro r q hm u
  have hD : D.Run (l.map Prod.fst).flatten q.2.1.out q.1.st.z true .fin := (C98_compress C full opt hopt junk l).2.2.2
  have hy := C.dout _ _ _ _ hD
  have h := feed_inflate C 0 (by decide) full' opt' hopt' hD t m (new I junk') {} []
    ⟨rfl, rfl, [], false, .ok, rfl, ⟨Zlib.Run.init, List.nil_prefix, List.nil_prefix, by decide, fun e => absurd e (by decide)⟩,
      ⟨fun e => Bool.noConfusion e, fun e => absurd e (by decide)⟩, fun _ => Or.inr ⟨rfl, fun e => hy e.symm⟩⟩
    (by rw [List.nil_append, hm]; exact List.prefix_refl _)
  rw [List.nil_append, hm] at h
  obtain ⟨h1, h2, p, g, s, h3, ⟨i1, i2, i3, i4, i5⟩, h5, h6⟩ := h
  have hs : s = .fin := by
    rcases h6 rfl with h6 | ⟨h6, h7⟩
    · exact h6
    · rw [h6, List.append_nil] at h3
      rw [h3] at i2 h7
      have := i2.length_le
      rw [List.length_append] at this
      have ht : t = [] := List.length_eq_zero_iff.mp (by omega)
      rw [ht] at h7
      exact absurd (List.append_nil _) h7
  obtain ⟨e1, e2⟩ := i5 hs
  refine ⟨h1, h5.mpr hs, h2, e2, ?_⟩
  rw [e1] at h3
  exact List.append_cancel_left h3

/-- C98: with a limit, or while not everything is there yet: what came out so far is the beginning of what was put in, and nothing is reported as failed. -/
theorem C98_prefix {δ ι : Type} {D : Zlib δ} {I : Zlib ι} (C : Codec D I) (limit : Nat) (hl : limit < 2 ^ 64) (full : Bool) (opt : List Byte → Nat) (hopt : Opt opt)
    (junk : Nat) {x y : List Byte} {d : δ} {f' : Bool} (hD : D.Run x y d f' .fin) (m : List (List Byte × Bool)) (t : List Byte) (hm : (m.map Prod.fst).flatten <+: y ++ t) :
    let u := feed (impl I limit full opt) (new I junk) {} m
    u.1.okay = true ∧ u.1.st.stuck = false ∧ u.2.out <+: x ∧ (u.1.finished = true → u.2.out = x ∧ y ++ u.2.inb = (m.map Prod.fst).flatten) := by
  have hy := C.dout _ _ _ _ hD
  have h := feed_inflate C limit hl full opt hopt hD t m (new I junk) {} []
    ⟨rfl, rfl, [], false, .ok, rfl, ⟨Zlib.Run.init, List.nil_prefix, List.nil_prefix, by decide, fun e => absurd e (by decide)⟩,
      ⟨fun e => Bool.noConfusion e, fun e => absurd e (by decide)⟩, fun _ => Or.inr ⟨rfl, fun e => hy e.symm⟩⟩ hm
  rw [List.nil_append] at h
  obtain ⟨h1, h2, p, g, s, h3, ⟨i1, i2, i3, i4, i5⟩, h5, h6⟩ := h
  refine ⟨h1, h2, i3, fun hf => ?_⟩
  obtain ⟨e1, e2⟩ := i5 (h5.mp hf)
  exact ⟨e2, by rw [← e1]; exact h3⟩

/-! ### A codec for which all this holds, and what fails -/

namespace Gzp

/-- `1 b` for each byte `b`, and `0` at the end. -/
def enc (x : List Byte) : List Byte := x.flatMap fun b => [1, b]

/-- At most one byte is taken and at most one is written by each call. -/
def toyD : Zlib (List Byte × Bool) where
  init := ([], false)
  call s f inp room :=
    match s with
    | (b :: q, ended) =>
      if room = 0 then ⟨s, 0, [], .buf⟩ else ⟨(q, ended), 0, [b], if ended && q.isEmpty then .fin else .ok⟩
    | ([], true) => ⟨s, 0, [], .fin⟩
    | ([], false) =>
      match inp with
      | b :: _ => ⟨([1, b], false), 1, [], .ok⟩
      | [] => if f = .finish then ⟨([0], true), 0, [], .ok⟩ else ⟨s, 0, [], .buf⟩
  bound s f inp := s.1.length + 3 * inp.length + (if f = .finish ∧ s.2 = false then 2 else 0)

def toyI : Zlib Nat where
  init := 0
  call s _ inp room :=
    match s with
    | 0 =>
      match inp with
      | [] => ⟨0, 0, [], .buf⟩
      | b :: _ => if b = 0 then ⟨2, 1, [], .fin⟩ else if b = 1 then ⟨1, 1, [], .ok⟩ else ⟨0, 0, [], .err⟩
    | 1 =>
      match inp with
      | [] => ⟨1, 0, [], .buf⟩
      | b :: _ => if room = 0 then ⟨1, 0, [], .buf⟩ else ⟨0, 1, [b], .ok⟩
    | n + 2 => ⟨n + 2, 0, [], .fin⟩
  bound _ _ inp := inp.length

theorem toyD_inv {x y : List Byte} {s : List Byte × Bool} {g : Bool} {r : Ret} (h : toyD.Run x y s g r) :
    y ++ s.1 = enc x ++ (if s.2 then [0] else []) ∧ (r = .fin → s = ([], true)) ∧ (g ≠ true → s.2 = false) ∧ (r ≠ .fin → s ≠ ([], true)) := by
  induction h with
  | init => exact ⟨rfl, fun h => absurd h (by decide), fun _ => rfl, fun _ => by decide⟩
  | @call x y s g r f inp room _ ih =>
    obtain ⟨h1, h2, h3, h4⟩ := ih
    obtain ⟨q, ended⟩ := s
    cases q with
    | cons b q =>
      by_cases hr : room = 0
      · simp only [toyD, hr, if_true, List.take_zero, List.append_nil]
        refine ⟨h1, fun h => absurd h (by decide), fun hg => h3 ?_, fun _ => by simp⟩
        intro e; exact hg (by rw [e]; rfl)
      · simp only [toyD, hr, if_false, List.take_zero, List.append_nil]
        refine ⟨?_, ?_, fun hg => h3 ?_, ?_⟩
        · rw [List.append_assoc]; exact h1
        · cases ended <;> cases q <;> simp
        · intro e; exact hg (by rw [e]; rfl)
        · cases ended <;> cases q <;> simp
    | nil =>
      cases ended with
      | true =>
        simp only [toyD, List.take_zero, List.append_nil]
        exact ⟨by simpa using h1, fun _ => trivial, fun hg => h3 fun e => hg (by rw [e]; rfl), fun h => absurd rfl h⟩
      | false =>
        cases inp with
        | cons b inp =>
          simp only [toyD, List.take_succ_cons, List.take_zero, List.append_nil]
          refine ⟨?_, fun h => absurd h (by decide), fun _ => trivial, fun _ => by simp⟩
          simp only [List.append_nil, Bool.false_eq_true, if_false] at h1 ⊢
          rw [h1]; simp [enc]
        | nil =>
          by_cases hf : f = .finish
          · simp only [toyD, hf, if_true, List.take_nil, List.append_nil]
            refine ⟨?_, fun h => absurd h (by decide), fun hg => absurd (by simp) hg, fun _ => by simp⟩
            simp only [List.append_nil, Bool.false_eq_true, if_false] at h1
            rw [h1]
          · simp only [toyD, hf, if_false, List.take_nil, List.append_nil]
            exact ⟨by simpa using h1, fun h => absurd h (by decide), fun _ => trivial, fun _ => by simp⟩

/-- What `toyI` took, by what it wrote and its state. -/
theorem toyI_inv {p o : List Byte} {s : Nat} {g : Bool} {r : Ret} (h : toyI.Run p o s g r) :
    ((s = 0 ∧ p = enc o) ∨ (s = 1 ∧ p = enc o ++ [1]) ∨ (s = 2 ∧ p = enc o ++ [0])) ∧ (r = .fin ↔ s = 2) := by
  induction h with
  | init => exact ⟨Or.inl ⟨rfl, rfl⟩, by decide⟩
  | @call p o s g r f inp room _ ih =>
    obtain ⟨h1, h2⟩ := ih
    rcases h1 with ⟨rfl, h1⟩ | ⟨rfl, h1⟩ | ⟨rfl, h1⟩
    · cases inp with
      | nil => simp [toyI, h1]
      | cons b inp =>
        by_cases hb : b = 0
        · simp [toyI, h1, hb]
        · by_cases hb1 : b = 1
          · simp [toyI, h1, hb1]
          · simp [toyI, h1, hb, hb1]
    · cases inp with
      | nil => simp [toyI, h1]
      | cons b inp =>
        by_cases hb : room = 0
        · simp [toyI, h1, hb]
        · simp [toyI, h1, hb, enc]
    · simp [toyI, h1]

theorem enc_cons (b : Byte) (x : List Byte) : enc (b :: x) = 1 :: b :: enc x := by simp [enc]

/-- What the next byte of the stream means. -/
theorem enc_next (x : List Byte) : ∀ (o : List Byte) (t c : List Byte), enc o ++ c <+: enc x ++ 0 :: t → enc o <+: enc x ++ [0] →
    o <+: x ∧ (∀ b c', c = b :: c' → (b = 0 ∧ o = x) ∨ (b = 1 ∧ o ≠ x ∧ ∀ a c'', c' = a :: c'' → o ++ [a] <+: x)) := by
  induction x with
  | nil =>
    intro o t c h _
    cases o with
    | nil =>
      refine ⟨List.prefix_refl _, fun b c' e => Or.inl ⟨?_, rfl⟩⟩
      rw [e] at h
      exact (List.cons_prefix_cons.mp h).1
    | cons a o =>
      rw [enc_cons] at h
      exact absurd (List.cons_prefix_cons.mp h).1 (by decide)
  | cons a x ih =>
    intro o t c h h'
    cases o with
    | nil =>
      refine ⟨List.nil_prefix, fun b c' e => Or.inr ?_⟩
      rw [e, enc_cons] at h
      obtain ⟨h1, h2⟩ := List.cons_prefix_cons.mp h
      refine ⟨h1, by simp, fun a' c'' e' => ?_⟩
      rw [e'] at h2
      obtain ⟨h3, _⟩ := List.cons_prefix_cons.mp h2
      rw [h3]
      exact ⟨x, rfl⟩
    | cons a' o =>
      rw [enc_cons, enc_cons] at h h'
      obtain ⟨_, h2⟩ := List.cons_prefix_cons.mp h
      obtain ⟨h3, h4⟩ := List.cons_prefix_cons.mp h2
      obtain ⟨_, h2'⟩ := List.cons_prefix_cons.mp h'
      obtain ⟨_, h4'⟩ := List.cons_prefix_cons.mp h2'
      obtain ⟨k1, k2⟩ := ih o t c h4 h4'
      refine ⟨by rw [h3]; exact List.cons_prefix_cons.mpr ⟨rfl, k1⟩, fun b c' e => ?_⟩
      rcases k2 b c' e with ⟨k, k'⟩ | ⟨k, k', k''⟩
      · exact Or.inl ⟨k, by rw [h3, k']⟩
      · refine Or.inr ⟨k, by rw [h3]; simpa using k', fun a'' c'' e' => ?_⟩
        rw [h3]
        exact List.cons_prefix_cons.mpr ⟨rfl, k'' a'' c'' e'⟩

theorem toy_codec : Codec toyD toyI where
  dsane := by
    rintro ⟨q, ended⟩ f inp room
    cases q with
    | cons b q =>
      by_cases hr : room = 0
      · simp [toyD, hr]
      · simp only [toyD, hr, if_false]
        exact ⟨Nat.zero_le _, by simp; omega⟩
    | nil =>
      cases ended with
      | true => simp [toyD]
      | false =>
        cases inp with
        | cons b inp => simp [toyD]
        | nil => by_cases hf : f = .finish <;> simp [toyD, hf]
  isane := by
    rintro s f inp room
    match s with
    | 0 =>
      cases inp with
      | nil => simp [toyI]
      | cons b inp =>
        simp only [toyI]
        split
        · simp
        · split <;> simp
    | 1 =>
      cases inp with
      | nil => simp [toyI]
      | cons b inp =>
        simp only [toyI]
        split
        · simp
        · simp; omega
    | n + 2 => simp [toyI]
  dcall := by
    intro x y s g r f inp room h hg hr hf hrm
    obtain ⟨_, _, h3, _⟩ := toyD_inv h
    obtain ⟨q, ended⟩ := s
    have he : ended = false := h3 (by rw [hg]; decide)
    subst he
    have hrm' : room ≠ 0 := by omega
    cases q with
    | cons b q => left; simp [toyD, hrm', hf]
    | nil =>
      cases inp with
      | cons b inp => left; simp [toyD, hf]; omega
      | nil => right; simp [toyD, hf]
  dfin := by
    intro x y s g r room h hr1 _ hrm
    obtain ⟨_, _, _, h4⟩ := toyD_inv h
    obtain ⟨q, ended⟩ := s
    have hrm' : room ≠ 0 := by omega
    cases q with
    | cons b q =>
      cases ended with
      | false => left; simp [toyD, hrm']
      | true =>
        cases q with
        | nil => right; simp [toyD, hrm']
        | cons a q => left; simp [toyD, hrm']
    | nil =>
      cases ended with
      | true => exact absurd rfl (h4 hr1)
      | false => left; simp [toyD]
  dout := by
    intro x y d f' h e
    obtain ⟨h1, h2, _, _⟩ := toyD_inv h
    rw [h2 rfl, e] at h1
    simp at h1
  icall := by
    intro x y d f' hD t p o s g r h hr1 hr2 hpy f inp room hf hp
    obtain ⟨d1, d2, _, _⟩ := toyD_inv hD
    rw [d2 rfl] at d1
    simp only [List.append_nil, if_true] at d1
    subst d1
    obtain ⟨i1, i2⟩ := toyI_inv h
    rcases i1 with ⟨rfl, i1⟩ | ⟨rfl, i1⟩ | ⟨rfl, i1⟩
    · subst i1
      obtain ⟨k1, k2⟩ := enc_next x o t inp (by simpa using hp) hpy
      cases inp with
      | nil =>
        simp only [toyI, List.take_nil, List.append_nil]
        refine ⟨hpy, k1, Or.inr (Or.inl ⟨trivial, trivial, trivial, fun _ => ⟨trivial, fun e => ?_⟩⟩)⟩
        have h1 := congrArg List.length e
        obtain ⟨u, hu⟩ := k1
        rw [← hu] at h1
        simp only [enc, List.length_append, List.length_flatMap, List.length_cons, List.length_nil] at h1
        simp at h1
        omega
      | cons b inp =>
        rcases k2 b inp rfl with ⟨rfl, e⟩ | ⟨rfl, e, _⟩
        · subst e
          simp only [toyI, if_true, List.take_succ_cons, List.take_zero, List.append_nil]
          exact ⟨List.prefix_refl _, List.prefix_refl _, Or.inr (Or.inr ⟨trivial, trivial, trivial⟩)⟩
        · simp only [toyI, if_true, List.take_succ_cons, List.take_zero, List.append_nil]
          rw [if_neg (by decide : ¬ (1 : Byte) = 0)]
          refine ⟨?_, by simpa using k1, Or.inl ⟨rfl, by simp⟩⟩
          obtain ⟨u, hu⟩ := k1
          cases u with
          | nil => rw [List.append_nil] at hu; exact absurd hu e
          | cons a u =>
            rw [← hu]
            refine ⟨a :: enc u ++ [0], ?_⟩
            simp [enc]
    · subst i1
      have hpy' : enc o <+: enc x ++ [0] := List.IsPrefix.trans (List.prefix_append _ _) hpy
      obtain ⟨k1, k2⟩ := enc_next x o t (1 :: inp) (by simpa using hp) hpy'
      rcases k2 1 inp rfl with ⟨e, _⟩ | ⟨_, e, k3⟩
      · exact absurd e (by decide)
      · cases inp with
        | nil =>
          simp only [toyI, List.take_nil, List.append_nil]
          refine ⟨hpy, k1, Or.inr (Or.inl ⟨trivial, trivial, trivial, fun _ => ⟨trivial, fun e' => ?_⟩⟩)⟩
          have := congrArg List.getLast? e'
          simp at this
        | cons b inp =>
          have hb := k3 b inp rfl
          by_cases hr : room = 0
          · simp only [toyI, hr, if_true, List.take_zero, List.append_nil]
            exact ⟨hpy, k1, Or.inr (Or.inl ⟨trivial, trivial, trivial, fun e => absurd e (by omega)⟩)⟩
          · simp only [toyI, hr, if_false, List.take_succ_cons, List.take_zero]
            refine ⟨?_, hb, Or.inl ⟨trivial, by simp⟩⟩
            obtain ⟨u, hu⟩ := hb
            rw [← hu]
            refine ⟨enc u ++ [0], ?_⟩
            simp [enc]
    · exact absurd (i2.mpr rfl) hr1
  iend := by
    intro p o s g h f inp room _
    obtain ⟨_, i2⟩ := toyI_inv h
    rw [i2.mp rfl]
    rfl

end Gzp

example : let q := feed (impl toyD 0 false (fun l => min l.length 2)) (new toyD 7) {} [([1, 2, 3], true), ([], false), ([4], false)]
    ((impl toyD 0 false (fun l => min l.length 2)).finish q.1 q.2).2.1.out = [1, 1, 1, 2, 1, 3, 1, 4, 0] ∧
    (feed (impl toyI 0 false (fun l => min l.length 1)) (new toyI 7) {} [([1, 1, 1], false), ([2, 1, 3, 1, 4, 0, 9], true), ([8], true)]).2 = ⟨[9, 8], [1, 2, 3, 4]⟩ := by
  decide +kernel

/-- C98: an error of zlib is reported: if zlib fails in the state it is in, `encode` and `finish` fail, and the encoder is not ok any more. -/
theorem C98_error {σ : Type} (Z : Zlib σ) (limit : Nat) (full : Bool) (opt : List Byte → Nat) (e : Enc (Gz σ)) (io : Io) (flush : Bool)
    (h : ∀ f inp room, (Z.call e.st.z f inp room).ret = .err) (he : e.okay = true) (hf : e.finished = false) (hio : io.inb ≠ [] ∨ flush = true) :
    (((impl Z limit full opt).encode e io flush false).2.2 = false ∧ ((impl Z limit full opt).encode e io flush false).1.okay = false) ∧
    (((impl Z limit full opt).finish e io).2.2 = false ∧ ((impl Z limit full opt).finish e io).1.okay = false) := by
  have hl : ∀ (f : Flush) (n : Nat) (l : Loop σ), l.g.z = e.st.z → (loop Z limit f (n + 1) l).2 = .err := by
    intro f n l hz
    rw [loop]
    dsimp only
    rw [hz, if_neg (by rw [h]; simp)]
    exact h _ _ _
  have hp : ∀ (e' : Enc (Gz σ)) (inp out : List Byte) (fl fin : Bool), e'.st.z = e.st.z →
      (process Z limit full e' inp out fl fin).1.okay = false ∧ (process Z limit full e' inp out fl fin).2.2.2 = false := by
    intro e' inp out fl fin hz
    unfold process
    dsimp only
    rw [hl _ _ _ hz]
    exact ⟨rfl, rfl⟩
  constructor
  · have hc : (e.okay && !e.finished && (!io.inb.isEmpty || flush)) = true := by
      rcases hio with q | q
      · cases hb : io.inb with
        | nil => exact absurd hb q
        | cons => simp [he, hf]
      · simp [he, hf, q]
    unfold EncImpl.encode
    simp only [hc, if_true, Bool.false_eq_true, if_false]
    show (encLoop Z limit full opt flush (io.inb.length + 1) _ io).2.2 = false ∧ (encLoop Z limit full opt flush (io.inb.length + 1) _ io).1.okay = false
    rw [encLoop]
    have q := fun (inp out : List Byte) (fl fin : Bool) => hp { e with st := { e.st with output := 0 } } inp out fl fin rfl
    dsimp only
    rw [(q _ _ _ _).2]
    exact ⟨rfl, (q _ _ _ _).1⟩
  · unfold EncImpl.finish
    simp only [he, hf, Bool.not_false, Bool.and_self, if_true]
    have q := hp e [] io.out false true rfl
    exact ⟨q.2, q.1⟩

/-- A zlib that fails. -/
example : let Z : Zlib Unit := ⟨(), fun _ _ _ _ => ⟨(), 0, [], .err⟩, fun _ _ _ => 0⟩
    ((impl Z 0 false List.length).encode (new Z 3) ⟨[1, 2], []⟩ false false).2.2 = false ∧ (new Z 3).okay = true := by decide +kernel

/-- C98: with a limit, finishing is reported as successful although the end was not written. -/
theorem C98_limit_fails : let q := feed (impl toyD 4 false List.length) (new toyD 0) {} [([1, 2], true)]
    let r := (impl toyD 4 false List.length).finish q.1 q.2
    r.2.2 = true ∧ r.1.okay = true ∧ r.1.finished = true ∧ r.2.1.out = [1, 1, 1, 2] ∧
    (feed (impl toyI 0 false List.length) (new toyI 0) {} [([1, 1, 1, 2], true)]).1.finished = false := by decide +kernel

/-- C98: if the end is missing, this is not reported: finishing has success after a part of the content. -/
theorem C98_truncated_fails : let u := feed (impl toyI 0 false List.length) (new toyI 0) {} [([1, 7, 1], true)]
    let r := (impl toyI 0 false List.length).finish u.1 u.2
    r.2.2 = true ∧ r.1.okay = true ∧ r.1.finished = true ∧ r.2.1.out = [7] := by decide +kernel

end Props
