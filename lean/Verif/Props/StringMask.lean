import Verif.Model.StringMask
/-!
C117: sets of characters.
-/
namespace Props
open Wv Wv.StringMask
open Spec.StringMask (Op gives has named)

namespace SmP

/-- All characters that an operation names are ASCII. -/
def ascii : Op → Bool
  | .zap => true
  | .char c _ => decide (c.toNat < 128)
  | .str s _ => s.all fun c => decide (c.toNat < 128)

/-- Strings have no NUL in them. -/
def noNul : Op → Bool
  | .str s _ => !s.contains 0
  | _ => true

theorem zap_len : Mask.zap.bits.length = 256 := List.length_replicate ..

theorem zap_has (d : Byte) : Mask.zap.has d = false := by
  simp only [Mask.has, Mask.zap, List.getElem?_replicate]
  split <;> rfl

theorem put_ok {m : Mask} (hm : m.bits.length = 256) {c : Byte} (hc : c.toNat < 128) (v : Bool) :
    ∃ m', m.put c v = some m' ∧ m'.bits.length = 256 ∧ m'.first = m.first ∧ ∀ d, m'.has d = if c = d then v else m.has d := by
  refine ⟨{ m with bits := m.bits.set c.toNat v }, ?_, by simp [hm], rfl, fun d => ?_⟩
  · simp only [Mask.put, if_pos hc, hm]
    rw [if_pos (by omega)]
  · simp only [Mask.has, List.getElem?_set, hm]
    by_cases h : c = d
    · subst h
      simp [show c.toNat < 256 by omega]
    · have : ¬ c.toNat = d.toNat := fun e => h (UInt8.toNat_inj.1 e)
      simp [h, this]

theorem loop_ok (v : Bool) : ∀ (s : List Byte) {m : Mask}, m.bits.length = 256 → (∀ c ∈ s, c.toNat < 128) →
    ∃ m', Mask.loop v s m = some m' ∧ m'.bits.length = 256 ∧ m'.first = m.first ∧ ∀ d, m'.has d = if d ∈ s then v else m.has d
  | [], m, hm, _ => ⟨m, rfl, hm, rfl, fun d => by simp⟩
  | c :: s, m, hm, hs => by
    obtain ⟨m1, h1, h2, h3, h4⟩ := put_ok hm (hs c (by simp)) v
    obtain ⟨m2, k1, k2, k3, k4⟩ := loop_ok v s h2 (fun d hd => hs d (by simp [hd]))
    refine ⟨m2, by simp only [Mask.loop, h1, Option.bind_some, k1], k2, by rw [k3, h3], fun d => ?_⟩
    rw [k4, h4]
    by_cases hd : d ∈ s
    · simp [hd]
    · by_cases he : c = d
      · subst he; simp
      · have : ¬ d = c := fun e => he e.symm
        simp [hd, he, this]

theorem see_has (m : Mask) (c d : Byte) : (m.see c).has d = m.has d := by unfold Mask.see; split <;> rfl
theorem see_len (m : Mask) (c : Byte) : (m.see c).bits.length = m.bits.length := by unfold Mask.see; split <;> rfl
theorem see_first (m : Mask) (c : Byte) : (m.see c).first = if m.first = 0 then c else m.first := by unfold Mask.see; split <;> rfl

/-- The first character that one operation leaves. -/
def firstOf (f : Byte) : Op → Byte
  | .zap => 0
  | .char c _ => if f = 0 then c else f
  | .str s _ => if f = 0 then s.headD 0 else f

theorem step_ok {m : Mask} (hm : m.bits.length = 256) {o : Op} (ho : ascii o = true) :
    ∃ m', m.step o = some m' ∧ m'.bits.length = 256 ∧ m'.first = firstOf m.first o ∧ ∀ d, m'.has d = (gives d o).getD (m.has d) := by
  cases o with
  | zap =>
    exact ⟨Mask.zap, rfl, zap_len, rfl, fun d => zap_has d⟩
  | char c v =>
    have hc : c.toNat < 128 := by simpa [ascii] using ho
    obtain ⟨m', h1, h2, h3, h4⟩ := put_ok (m := m.see c) (by rw [see_len, hm]) hc v
    refine ⟨m', h1, h2, by rw [h3, see_first]; rfl, fun d => ?_⟩
    rw [h4, see_has]
    simp only [gives]
    split <;> rfl
  | str s v =>
    have hc : ∀ c ∈ s, c.toNat < 128 := by simpa [ascii] using ho
    obtain ⟨m', h1, h2, h3, h4⟩ := loop_ok v s (m := m.see (s.headD 0)) (by rw [see_len, hm]) hc
    refine ⟨m', h1, h2, by rw [h3, see_first]; rfl, fun d => ?_⟩
    rw [h4, see_has]
    simp only [gives]
    split <;> rfl

theorem run_ok : ∀ (os : List Op) {m : Mask}, m.bits.length = 256 → (∀ o ∈ os, ascii o = true) →
    ∃ m', Mask.run os m = some m' ∧ m'.first = os.foldl firstOf m.first ∧
      ∀ d, m'.has d = ((os.filterMap (gives d)).getLast?).getD (m.has d)
  | [], m, _, _ => ⟨m, rfl, rfl, fun d => rfl⟩
  | o :: os, m, hm, ho => by
    obtain ⟨m1, h1, h2, h3, h4⟩ := step_ok hm (ho o (by simp))
    obtain ⟨m2, k1, k2, k3⟩ := run_ok os h2 (fun p hp => ho p (by simp [hp]))
    refine ⟨m2, by simp only [Mask.run, h1, Option.bind_some, k1], by rw [k2, h3]; rfl, fun d => ?_⟩
    rw [k3, h4, List.filterMap_cons]
    cases hg : gives d o with
    | none => rfl
    | some v =>
      simp only [Option.getD_some, List.getLast?_cons]

/-- The first character that is not NUL. -/
def nz (l : List Byte) : Byte := (l.find? fun c => c != 0).getD 0

theorem fold_nz : ∀ (os : List Op) (f : Byte), (∀ o ∈ os, noNul o = true) →
    os.foldl firstOf f = if os.contains .zap then nz (named os) else if f = 0 then nz (named os) else f
  | [], f, _ => by
    by_cases h : f = 0
    · subst h; rfl
    · simp [h]
  | o :: os, f, ho => by
    rw [List.foldl_cons, fold_nz os _ fun p hp => ho p (by simp [hp])]
    by_cases hz : os.contains .zap = true
    · have h1 : (o :: os).contains .zap = true := by simp only [List.contains_cons, hz, Bool.or_true]
      rw [if_pos hz, if_pos h1]
      cases o <;> simp only [named, hz, if_true]
    · rw [if_neg hz]
      cases o with
      | zap => simp [firstOf, named]
      | char c v =>
        have h1 : ¬ (Op.char c v :: os).contains .zap = true := by simpa [List.contains_cons] using hz
        rw [if_neg h1]
        simp only [firstOf, named, hz]
        by_cases hf : f = 0
        · subst hf
          by_cases hc : c = 0
          · subst hc; simp [nz, List.find?_cons]
          · simp [nz, List.find?_cons, hc]
        · simp [hf]
      | str s v =>
        have h1 : ¬ (Op.str s v :: os).contains .zap = true := by simpa [List.contains_cons] using hz
        rw [if_neg h1]
        have hn : ¬ (0 : Byte) ∈ s := by simpa [noNul] using ho _ (List.mem_cons_self ..)
        simp only [firstOf, named, hz]
        by_cases hf : f = 0
        · subst hf
          cases s with
          | nil => simp
          | cons c s =>
            have hc : ¬ c = 0 := fun e => hn (by simp [e])
            simp [nz, List.find?_cons, hc]
        · simp [hf]

end SmP

/-- **C117** (ASCII only). However a mask was made and changed, a character is in it exactly if the last operation that named it - or emptied the mask - put it there. Nothing is undefined. -/
theorem C117_mask_partial (os : List Op) (ho : ∀ o ∈ os, SmP.ascii o = true) :
    ∃ m, Mask.run os Mask.zap = some m ∧ ∀ c, m.has c = has os c := by
  obtain ⟨m, h1, _, h3⟩ := SmP.run_ok os (m := Mask.zap) (SmP.zap_len) ho
  refine ⟨m, h1, fun c => ?_⟩
  have hz := SmP.zap_has c
  rw [h3, hz]; rfl

/-- **C117** (ASCII only). `first` is the first character (but NUL) that was named since the mask was last emptied, or NUL. -/
theorem C117_first_partial (os : List Op) (ho : ∀ o ∈ os, SmP.ascii o = true) (hn : ∀ o ∈ os, SmP.noNul o = true) {m : Mask}
    (hm : Mask.run os Mask.zap = some m) : m.first = ((named os).find? fun c => c != 0).getD 0 := by
  obtain ⟨m', h1, h2, _⟩ := SmP.run_ok os (m := Mask.zap) (SmP.zap_len) ho
  rw [hm] at h1
  simp only [Option.some.injEq] at h1
  subst h1
  rw [h2, SmP.fold_nz os _ hn]
  show (if os.contains .zap = true then _ else if (0 : Byte) = 0 then _ else _) = _
  simp [SmP.nz]

/-- **C117** (ASCII only). A mask of a string has its characters and no others; its first character is that of the string. -/
theorem C117_string_partial (s : List Byte) (hs : ∀ c ∈ s, c.toNat < 128) :
    ∃ m, ofStr s = some m ∧ m.first = s.headD 0 ∧ ∀ c, m.has c = decide (c ∈ s) := by
  obtain ⟨m, h1, _, h3, h4⟩ := SmP.step_ok (m := Mask.zap) (SmP.zap_len) (o := .str s true) (by simpa [SmP.ascii] using hs)
  refine ⟨m, h1, h3, fun c => ?_⟩
  have hz := SmP.zap_has c
  rw [h4, hz]
  simp only [gives]
  by_cases h : c ∈ s <;> simp [h]

/-- **C117** (ASCII only). The same for a character. -/
theorem C117_char_partial (c : Byte) (hc : c.toNat < 128) :
    ∃ m, ofChar c = some m ∧ m.first = c ∧ ∀ d, m.has d = decide (c = d) := by
  obtain ⟨m, h1, _, h3, h4⟩ := SmP.step_ok (m := Mask.zap) (SmP.zap_len) (o := .char c true) (by simpa [SmP.ascii] using hc)
  refine ⟨m, h1, by rw [h3]; rfl, fun d => ?_⟩
  have hz := SmP.zap_has d
  rw [h4, hz]
  simp only [gives]
  by_cases h : c = d <;> simp [h]

/-- Two characters in, one out. -/
example : (Mask.run [.str [97, 98, 99] true, .char 98 false] Mask.zap).map (fun m => (m.first, m.has 97, m.has 98, m.has 99, m.has 100)) =
    some (97, true, false, true, false) := by decide +kernel

/-- **C117, not so** for other characters: setting one writes outside of the array. Any character from 0x80 is one such. -/
theorem C117_mask_fails (m : Mask) (hm : m.bits.length = 256) (c : Byte) (hc : 128 ≤ c.toNat) (v : Bool) :
    m.step (.char c v) = none ∧ ∀ s, m.step (.str (c :: s) v) = none := by
  have hput : ∀ m : Mask, m.bits.length = 256 → m.put c v = none := by
    intro m hm
    simp only [Mask.put, hm]
    rw [if_neg (by split <;> omega)]
  refine ⟨hput _ (by rw [SmP.see_len, hm]), fun s => ?_⟩
  show Mask.loop v (c :: s) _ = none
  rw [Mask.loop, hput _ (by rw [SmP.see_len, hm])]; rfl

/-- **C117, not so**: "Get the first character set into the mask". It may be one that is not in the mask. -/
theorem C117_first_fails : ∃ (os : List Op) (m : Mask), Mask.run os Mask.zap = some m ∧ m.first = 97 ∧ m.has 97 = false ∧ m.has 98 = true :=
  ⟨[.char 97 false, .char 98 true], ⟨(List.replicate 256 false).set 98 true, 97⟩, by decide +kernel, by decide +kernel, by decide +kernel, by decide +kernel⟩

end Props
