import Verif.Model.BusArgs
import Verif.Props.Num
import Verif.Props.Split
/- C89: the arguments of D-Bus messages. -/
namespace Props
open Wv Wv.BusArgs
open Spec.BusArgs (Arg Op number size text texts Fits FitsAll calls callsAll Known KnownAll opens)
open Spec.Num (decimal)

namespace BArg

theorem low (c : BitVec 8) : firstByte true (c.setWidth 32) = c := by
  apply BitVec.eq_of_toNat_eq
  have := c.isLt
  simp [firstByte]

theorem low' (c : BitVec 8) : firstByte true (c.signExtend 32) = c := by
  apply BitVec.eq_of_getLsbD_eq
  intro i hi
  simp [firstByte, BitVec.getLsbD_signExtend, hi]
  intro _; omega

theorem run_append (b : Bool) : ∀ (l k : List Op) (m : Msg), run b m (l ++ k) =
    match run b m l with
    | .ok m => run b m k
    | e => e
  | [], k, m => rfl
  | o :: l, k, m => by
    rw [List.cons_append, run, run]
    cases step b m o with
    | ok m' => exact run_append b l k m'
    | abort => rfl
    | misuse => rfl

theorem run_ok {b : Bool} {l k : List Op} {m m' : Msg} (h : run b m l = .ok m') : run b m (l ++ k) = run b m' k := by
  rw [run_append, h]

def appendAll (m : Msg) (l : List Arg) : Msg := l.foldl append m

theorem appendAll_open (m : Msg) (k : Kind) (r : List (Kind × List Arg)) : ∀ (l acc : List Arg),
    appendAll { m with open_ := (k, acc) :: r } l = { m with open_ := (k, acc ++ l) :: r }
  | [], acc => by simp [appendAll]
  | a :: l, acc => by
    have ih := appendAll_open m k r l (acc ++ [a])
    unfold appendAll at ih ⊢
    rw [List.foldl_cons]
    have e : append { m with open_ := (k, acc) :: r } a = { m with open_ := (k, acc ++ [a]) :: r } := rfl
    rw [e, ih, List.append_assoc]; rfl

theorem appendAll_root : ∀ (l acc : List Arg), appendAll ⟨acc, []⟩ l = ⟨acc ++ l, []⟩
  | [], acc => by simp [appendAll]
  | a :: l, acc => by
    have ih := appendAll_root l (acc ++ [a])
    unfold appendAll at ih ⊢
    rw [List.foldl_cons]
    have e : append ⟨acc, []⟩ a = ⟨acc ++ [a], []⟩ := rfl
    rw [e, ih, List.append_assoc]; rfl

mutual
theorem run_calls : ∀ (a : Arg) (m : Msg), Known a → run true m (calls a) = .ok (append m a)
  | .byte b, m, _ => by simp [calls, run, step, low]
  | .bool b, m, _ => rfl
  | .i16 b, m, _ => rfl
  | .u16 b, m, _ => rfl
  | .i32 b, m, _ => rfl
  | .u32 b, m, _ => rfl
  | .i64 b, m, _ => rfl
  | .u64 b, m, _ => rfl
  | .double b, m, _ => rfl
  | .str b, m, _ => rfl
  | .variant a, m, h => by
    simp only [Known] at h
    simp only [calls, run, step]
    rw [run_ok (run_calls a (start m .variant) h)]
    rfl
  | .struct l, m, h => by
    simp only [Known] at h
    simp only [calls, run, step]
    rw [run_ok (run_callsAll l (start m .struct) h)]
    have e := appendAll_open m .struct m.open_ l []
    rw [show start m .struct = { m with open_ := (.struct, []) :: m.open_ } from rfl, e]
    rfl
  | .array l, m, h => by
    simp only [Known] at h
    simp only [calls, run, step]
    rw [run_ok (run_callsAll l (start m .array) h)]
    have e := appendAll_open m .array m.open_ l []
    rw [show start m .array = { m with open_ := (.array, []) :: m.open_ } from rfl, e]
    rfl
  | .other _, m, h => by simp only [Known] at h
theorem run_callsAll : ∀ (l : List Arg) (m : Msg), KnownAll l → run true m (callsAll l) = .ok (appendAll m l)
  | [], m, _ => rfl
  | a :: l, m, h => by
    simp only [KnownAll] at h
    simp only [callsAll]
    rw [run_ok (run_calls a m h.1), run_callsAll l _ h.2]
    rfl
end

end BArg
open BArg

/-- C89: what is added to a message, nested as it may be, is what is in it (on a little-endian machine). -/
theorem C89_build_partial (l : List Arg) (h : KnownAll l) : run true ⟨[], []⟩ (callsAll l) = .ok ⟨l, []⟩ := by
  rw [run_callsAll l _ h, appendAll_root]; rfl

example : KnownAll [.variant (.array [.i32 5#32, .i32 (BitVec.ofInt 32 (-1))]), .struct [.str [104, 105], .byte 200#8], .bool true] ∧
    callsAll [.variant (.array [.i32 5#32]), .bool true] = [.variantStart, .arrayStart, .i32 5#32, .arrayEnd, .variantEnd, .bool true] := by
  simp [KnownAll, Known, callsAll, calls]

/-- C89: a byte added as a signed or as an unsigned character is that byte. -/
theorem C89_char_partial (m : Msg) (c : BitVec 8) : step true m (.schar c) = .ok (append m (.byte c)) ∧ step true m (.uchar c) = .ok (append m (.byte c)) := by
  simp [step, low, low']

/-- C89: but not on a big-endian machine, where it is lost. -/
theorem C89_char_fails (m : Msg) (c : BitVec 8) : step false m (.uchar c) = .ok (append m (.byte 0)) := by
  have : firstByte false (c.setWidth 32) = 0 := by
    apply BitVec.eq_of_toNat_eq
    have := c.isLt
    simp [firstByte, Nat.shiftRight_eq_div_pow]
    omega
  simp [step, this]

/-- C89: an array in a variant is an array in a variant. -/
theorem C89_varray (m : Msg) (l : List Arg) (h : KnownAll l) :
    run true m (.varrayStart :: (callsAll l ++ [.varrayEnd])) = .ok (append m (.variant (.array l))) := by
  simp only [run, step]
  rw [run_ok (run_callsAll l _ h)]
  have e := appendAll_open m .array ((.variant, []) :: m.open_) l []
  rw [show start (start m .variant) .array = { m with open_ := (.array, []) :: (.variant, []) :: m.open_ } from rfl, e]
  simp [run, step, stop, append]

/-- C89: in every sequence of calls that goes well, as many containers are open as were opened and not closed. -/
theorem C89_nesting (b : Bool) : ∀ (l : List Op) (m m' : Msg), run b m l = .ok m' →
    (m'.open_.length : Int) = m.open_.length + (l.map opens).sum
  | [], m, m', h => by
    simp only [run, Out.ok.injEq] at h
    subst h; simp
  | o :: l, m, m', h => by
    have ha : ∀ (m : Msg) a, (append m a).open_.length = m.open_.length := by
      intro m a; unfold append; split <;> simp_all
    have hs : ∀ (m m' : Msg), stop m = .ok m' → (m'.open_.length : Int) = m.open_.length - 1 := by
      intro m m' h
      unfold stop at h
      split at h <;> simp at h <;> subst h <;> simp_all
    have key : ∀ m1, step b m o = .ok m1 → (m1.open_.length : Int) = m.open_.length + opens o := by
      intro m1 h1
      cases o with
      | variantEnd => simp only [step] at h1; have := hs m m1 h1; simp only [opens]; omega
      | structEnd => simp only [step] at h1; have := hs m m1 h1; simp only [opens]; omega
      | arrayEnd => simp only [step] at h1; have := hs m m1 h1; simp only [opens]; omega
      | varrayEnd =>
        simp only [step] at h1
        split at h1
        · cases h2 : stop m with
          | ok m2 =>
            rw [h2] at h1
            simp only at h1
            have e1 := hs m m2 h2
            have e2 := hs m2 m1 h1
            simp only [opens]; omega
          | abort => rw [h2] at h1; simp at h1
          | misuse => rw [h2] at h1; simp at h1
        · simp at h1
      | str s =>
        cases s with
        | none => simp [step] at h1
        | some s => simp only [step, Out.ok.injEq] at h1; subst h1; simp [opens, ha]
      | variantStart => simp only [step, Out.ok.injEq] at h1; subst h1; simp [opens, start]
      | structStart => simp only [step, Out.ok.injEq] at h1; subst h1; simp [opens, start]
      | arrayStart => simp only [step, Out.ok.injEq] at h1; subst h1; simp [opens, start]
      | varrayStart => simp only [step, Out.ok.injEq] at h1; subst h1; simp [opens, start]; omega
      | _ => simp only [step, Out.ok.injEq] at h1; subst h1; simp [opens, ha]
    rw [run] at h
    cases h1 : step b m o with
    | ok m1 =>
      rw [h1] at h
      have ih := C89_nesting b l m1 m' h
      have := key m1 h1
      rw [List.map_cons, List.sum_cons]; omega
    | abort => rw [h1] at h; simp at h
    | misuse => rw [h1] at h; simp at h

/-- C89: an end without a beginning, and a null string, stop the program before anything is changed. -/
theorem C89_abort (b : Bool) (m : Msg) (o : Op) : step b m o = .abort ↔
    o = .str none ∨ ((o = .variantEnd ∨ o = .structEnd ∨ o = .arrayEnd) ∧ m.open_.length < 1) ∨ (o = .varrayEnd ∧ m.open_.length < 2) := by
  have hs : ∀ m : Msg, stop m = .abort ↔ m.open_.length < 1 := by
    intro m
    unfold stop
    split <;> simp_all
  cases o with
  | variantEnd => simp [step, hs]
  | structEnd => simp [step, hs]
  | arrayEnd => simp [step, hs]
  | varrayEnd =>
    simp only [step]
    by_cases h : 2 ≤ m.open_.length
    · rw [if_pos h]
      have hlt : ¬ m.open_.length < 2 := by omega
      have ha : ∀ (m : Msg) a, (append m a).open_.length = m.open_.length := by
        intro m a; unfold append; split <;> simp_all
      cases h2 : stop m with
      | ok m2 =>
        have : ¬ m2.open_.length < 1 := by
          unfold stop at h2
          split at h2 <;> simp at h2 <;> subst h2 <;> simp_all <;> (intro e; simp [e] at h)
        simp [hs, this, hlt]
      | abort => rw [hs] at h2; omega
      | misuse => simp [hlt]
    · rw [if_neg h]
      simp; omega
  | str s => cases s <;> simp [step]
  | _ => simp [step]

/-- C89: an iterator goes through the arguments in order, and then stays at the end. -/
theorem C89_walk (l : List Arg) (n : Nat) :
    let i := Nat.repeat (fun i : Iter => i.next.1) n (Iter.new l)
    i.next.1.it = l.drop n ∧ i.next.2 = decide (n < l.length) ∧ i.next.1.cur = decide (n < l.length) := by
  have key : ∀ n, (Nat.repeat (fun i : Iter => i.next.1) n (Iter.new l)).next.1 = ⟨l, l.drop n, false⟩ := by
    intro n
    induction n with
    | zero => simp [Nat.repeat, Iter.next, Iter.new]
    | succ n ih =>
      rw [Nat.repeat, ih]
      simp only [Iter.next, Bool.false_eq_true, if_false]
      by_cases h : l.drop n = []
      · simp only [h, ne_eq, not_true, if_false]
        rw [List.drop_eq_nil_iff] at h
        rw [List.drop_of_length_le (by omega)]
      · simp only [ne_eq, h, not_false_iff, if_true, List.tail_drop]
  have k2 : ∀ i : Iter, i.next.2 = decide (i.next.1.it ≠ []) := fun i => rfl
  have k3 : decide (l.drop n ≠ []) = decide (n < l.length) := by
    simp [List.drop_eq_nil_iff]
  refine ⟨by rw [key], by rw [k2, key, ← k3], by rw [key]; simp only [Iter.cur, Bool.not_false, Bool.true_and]; rw [← k3]⟩

/-- C89: whatever was done with an iterator before, rewinding it starts again from the first argument; until the next step it is at no argument. -/
theorem C89_rewind (l : List Arg) (ops : List Bool) (n : Nat) :
    let start := (ops.foldl (fun i next => if next then i.next.1 else i.rewind) (Iter.new l)).rewind
    let i := Nat.repeat (fun i : Iter => i.next.1) n start
    start.cur = false ∧ (Iter.new l).cur = false ∧
      i.next.1.it = l.drop n ∧ i.next.2 = decide (n < l.length) ∧ i.next.1.cur = decide (n < l.length) := by
  have hf : ∀ (ops : List Bool) (i : Iter), (ops.foldl (fun i next => if next then i.next.1 else i.rewind) i).first = i.first := by
    intro ops
    induction ops with
    | nil => intro i; rfl
    | cons b ops ih => intro i; rw [List.foldl_cons, ih]; cases b <;> rfl
  have key : ∀ (j : Iter), j.rewound = true → ∀ n, Nat.repeat (fun i : Iter => i.next.1) (n + 1) j = Nat.repeat (fun i : Iter => i.next.1) (n + 1) (Iter.new j.first) := by
    intro j hj n
    induction n with
    | zero => simp [Nat.repeat, Iter.next, Iter.new, hj]
    | succ n ih => rw [Nat.repeat, ih]; rfl
  have w := C89_walk l n
  dsimp only at w ⊢
  refine ⟨rfl, rfl, ?_⟩
  have e := key ((ops.foldl (fun i next => if next then i.next.1 else i.rewind) (Iter.new l)).rewind) rfl n
  have e2 : ((ops.foldl (fun i next => if next then i.next.1 else i.rewind) (Iter.new l)).rewind).first = l := hf ops (Iter.new l)
  rw [e2, Nat.repeat, Nat.repeat] at e
  have k2 : ∀ i : Iter, i.next.2 = decide (i.next.1.it ≠ []) := fun i => rfl
  rw [k2, e]
  rw [k2] at w
  exact w

/-- Three arguments, two steps, back, and two steps. -/
example :
    let i := (Iter.new [.byte 1, .byte 2, .byte 3]).next.1.next.1.rewind
    i.cur = false ∧ i.next.1.it.length = 3 ∧ i.next.1.next.1.it.length = 2 := by decide +kernel

/-- C89: a number read as signed is that number, if it is less than half of the values of its type or the type is signed. -/
theorem C89_int_partial : ∀ (a : Arg) (v : Int), number a = some v → 2 * v < size a → getInt a = some v
  | .byte b, v, h, hv => by simpa [number, getInt] using h
  | .bool b, v, h, hv => by simpa [number, getInt] using h
  | .i16 b, v, h, hv => by simpa [number, getInt] using h
  | .i32 b, v, h, hv => by simpa [number, getInt] using h
  | .i64 b, v, h, hv => by simpa [number, getInt] using h
  | .u16 b, v, h, hv => by
    simp only [number, Option.some.injEq, size] at h hv
    subst h
    simp only [getInt, BitVec.toInt_eq_toNat_cond]
    rw [if_pos (by omega)]
  | .u32 b, v, h, hv => by
    simp only [number, Option.some.injEq, size] at h hv
    subst h
    simp only [getInt, BitVec.toInt_eq_toNat_cond]
    rw [if_pos (by omega)]
  | .u64 b, v, h, hv => by
    simp only [number, Option.some.injEq, size] at h hv
    subst h
    simp only [getInt, BitVec.toInt_eq_toNat_cond]
    rw [if_pos (by omega)]
  | .variant a, v, h, hv => by
    simp only [number, size] at h hv
    simp only [getInt]
    exact C89_int_partial a v h hv
  | .double b, v, h, hv => by simp [number] at h
  | .str b, v, h, hv => by simp [number] at h
  | .struct b, v, h, hv => by simp [number] at h
  | .array b, v, h, hv => by simp [number] at h
  | .other b, v, h, hv => by simp [number] at h

example : number (.variant (.u32 7#32)) = some 7 ∧ 2 * (7 : Int) < size (.variant (.u32 7#32)) ∧ number (.i16 65535#16) = some (-1) ∧
    getUint (.i16 65535#16) = some 65535 := by decide +kernel

/-- C89: larger unsigned numbers become negative, though they would fit. -/
theorem C89_int_fails : number (.u16 40000#16) = some 40000 ∧ getInt (.u16 40000#16) = some (-25536) ∧
    number (.u32 4294967295#32) = some 4294967295 ∧ getInt (.u32 4294967295#32) = some (-1) := by decide +kernel

/-- C89: a number read as unsigned is that number, and a negative one is that of the same bits of its own type. -/
theorem C89_uint : ∀ (a : Arg) (v : Int), number a = some v → getUint a = some (if 0 ≤ v then v else v + size a).toNat
  | .byte b, v, h => by simp only [number, Option.some.injEq] at h; subst h; simp [getUint]
  | .bool b, v, h => by simp only [number, Option.some.injEq] at h; subst h; cases b <;> rfl
  | .u16 b, v, h => by simp only [number, Option.some.injEq] at h; subst h; simp [getUint]
  | .u32 b, v, h => by simp only [number, Option.some.injEq] at h; subst h; simp [getUint]
  | .u64 b, v, h => by simp only [number, Option.some.injEq] at h; subst h; simp [getUint]
  | .i16 b, v, h => by
    simp only [number, Option.some.injEq] at h; subst h
    have := b.isLt
    simp only [getUint, size, BitVec.toInt_eq_toNat_cond, Option.some.injEq]
    split <;> split <;> omega
  | .i32 b, v, h => by
    simp only [number, Option.some.injEq] at h; subst h
    have := b.isLt
    simp only [getUint, size, BitVec.toInt_eq_toNat_cond, Option.some.injEq]
    split <;> split <;> omega
  | .i64 b, v, h => by
    simp only [number, Option.some.injEq] at h; subst h
    have := b.isLt
    simp only [getUint, size, BitVec.toInt_eq_toNat_cond, Option.some.injEq]
    split <;> split <;> omega
  | .variant a, v, h => by
    simp only [number, size] at h ⊢
    simp only [getUint]
    exact C89_uint a v h
  | .double b, v, h => by simp [number] at h
  | .str b, v, h => by simp [number] at h
  | .struct b, v, h => by simp [number] at h
  | .array b, v, h => by simp [number] at h
  | .other b, v, h => by simp [number] at h

/-- C89: a decimal text of an int is read as that number. -/
theorem C89_text_number (v : Int) (h : -2147483648 ≤ v ∧ v < 2147483648) : getInt (.str (decimal v)) = some v ∧
    getInt (.variant (.str (decimal v))) = some v ∧ (0 ≤ v → getUint (.str (decimal v)) = some v.toNat) := by
  have hr : Num.inRange 32 v := by unfold Num.inRange; constructor <;> (simp; omega)
  refine ⟨C32_num v hr, C32_num v hr, ?_⟩
  intro h0
  simp only [getUint, C32_num v hr, Option.map_some]
  congr 1
  rw [Int.emod_eq_of_lt h0 (by omega)]

namespace BArg

theorem bv_small {n : Nat} (b : BitVec n) (hn : n ≤ 32) : ofInt (some b.toInt) = some (decimal b.toInt) := by
  have h1 := BitVec.le_toInt b
  have h2 := BitVec.toInt_lt (x := b)
  have : (2 : Int) ^ (n - 1) ≤ 2 ^ 31 := by
    have := Nat.pow_le_pow_right (n := 2) (by omega) (show n - 1 ≤ 31 by omega)
    exact_mod_cast this
  have e : (2 : Int) ^ 31 = 2147483648 := by decide
  refine C32_print_signed_partial 64 _ ?_ ?_
  · unfold Num.inRange; constructor <;> (simp; omega)
  · simp; omega

theorem nat_small (n : Nat) (h : n < 256) : ofInt (some (n : Int)) = some (decimal n) := by
  refine C32_print_signed_partial 64 (n : Int) ?_ ?_
  · unfold Num.inRange; constructor <;> (simp; try omega)
  · simp

mutual
theorem getStr_eq (d : BitVec 64 → List Byte) : ∀ a : Arg, Fits a → getStr d a = some (text d a)
  | .byte b, _ => nat_small b.toNat b.isLt
  | .bool b, _ => by
    cases b
    · exact nat_small 0 (by omega)
    · exact nat_small 1 (by omega)
  | .i16 b, _ => bv_small b (by omega)
  | .i32 b, _ => bv_small b (by omega)
  | .i64 b, h => by
    simp only [Fits] at h
    have h1 := BitVec.le_toInt b
    have h2 := BitVec.toInt_lt (x := b)
    refine C32_print_signed_partial 64 _ ?_ ?_
    · unfold Num.inRange; constructor <;> (simp at h1 h2 ⊢; omega)
    · simpa using h
  | .u16 b, _ => by simp only [getStr, getUint, ofUint, Option.map_some, C32_print_unsigned, text]
  | .u32 b, _ => by simp only [getStr, getUint, ofUint, Option.map_some, C32_print_unsigned, text]
  | .u64 b, _ => by simp only [getStr, getUint, ofUint, Option.map_some, C32_print_unsigned, text]
  | .double b, _ => rfl
  | .str s, _ => rfl
  | .variant a, h => by
    simp only [Fits] at h
    simp only [getStr, getStr_eq d a h, Option.map_some, text]
  | .struct l, h => by
    simp only [Fits] at h
    simp only [getStr, getAll_eq d l 0 (by omega) h.2, Option.map_some, text, C35_join_spec]
  | .array l, h => by
    simp only [Fits] at h
    simp only [getStr, getAll_eq d l 0 (by omega) h.2, Option.map_some, text, C35_join_spec]
  | .other t, _ => rfl
theorem getAll_eq (d : BitVec 64 → List Byte) : ∀ (l : List Arg) (n : Nat), n + l.length < 20 → FitsAll l → getAll d n l = some (texts d l)
  | [], n, hn, _ => by
    simp only [List.length_nil, Nat.add_zero] at hn
    simp only [getAll, if_neg (show ¬ n = 20 by omega), texts]
  | a :: l, n, hn, h => by
    simp only [FitsAll, List.length_cons] at h hn
    simp only [getAll, if_pos (show n < 20 by omega), getStr_eq d a h.1, getAll_eq d l (n + 1) (by omega) h.2, texts]
end

theorem getAll_long (d : BitVec 64 → List Byte) : ∀ (l : List Arg) (n : Nat), n ≤ 20 → 20 ≤ n + l.length → FitsAll l →
    getAll d n l = some ((texts d l).take (20 - n) ++ [str ['.', '.', '.']])
  | [], n, h1, h2, _ => by
    simp only [List.length_nil, Nat.add_zero] at h2
    have : n = 20 := by omega
    subst this
    rfl
  | a :: l, n, h1, h2, h => by
    simp only [FitsAll, List.length_cons] at h h2
    by_cases hn : n < 20
    · simp only [getAll, if_pos hn, getStr_eq d a h.1, getAll_long d l (n + 1) (by omega) (by omega) h.2, texts]
      rw [show 20 - n = (20 - (n + 1)) + 1 by omega, List.take_succ_cons, List.cons_append]
    · have : n = 20 := by omega
      subst this
      simp [getAll]

end BArg

/-- C89: the text of an argument is that of what it means, as long as there is no smallest 64-bit number and no container of twenty or more
    in it. -/
theorem C89_text_partial (d : BitVec 64 → List Byte) (a : Arg) (h : Fits a) : getStr d a = some (text d a) := getStr_eq d a h

/-- C89: the texts of fewer than twenty arguments are those of each; of more than twenty, the first twenty and dots. -/
theorem C89_all_partial (d : BitVec 64 → List Byte) (l : List Arg) (h : FitsAll l) :
    (l.length < 20 → getAll d 0 l = some (texts d l)) ∧
    (20 < l.length → getAll d 0 l = some ((texts d l).take 20 ++ [str ['.', '.', '.']])) :=
  ⟨fun hl => getAll_eq d l 0 (by omega) h, fun hl => getAll_long d l 0 (by omega) (by omega) h⟩

/-- C89: with exactly twenty the dots are there although nothing is left out. -/
theorem C89_all_fails (d : BitVec 64 → List Byte) (l : List Arg) (h : FitsAll l) (hl : l.length = 20) :
    getAll d 0 l = some (texts d l ++ [str ['.', '.', '.']]) := by
  rw [getAll_long d l 0 (by omega) (by omega) h]
  have : ∀ l : List Arg, (texts d l).length = l.length := by
    intro l
    induction l with
    | nil => rfl
    | cons a l ih => simp [texts, ih]
  rw [List.take_of_length_le (by rw [this]; omega)]

example (d : BitVec 64 → List Byte) : Fits (.array [.i32 5#32, .variant (.str [104, 105]), .i64 (BitVec.ofInt 64 (-2))]) ∧
    getStr d (.array [.i32 5#32, .variant (.str [104, 105]), .i64 (BitVec.ofInt 64 (-2))]) = some (str ['[', '5', ',', '{', 'h', 'i', '}', ',', '-', '2', ']']) := by
  have h : Fits (.array [.i32 5#32, .variant (.str [104, 105]), .i64 (BitVec.ofInt 64 (-2))]) := by simp [Fits, FitsAll]
  refine ⟨h, ?_⟩
  rw [C89_text_partial d _ h]
  simp only [text, texts]
  decide +kernel

/-- C89: the text of the smallest 64-bit number is undefined. -/
theorem C89_text_fails (d : BitVec 64 → List Byte) : number (.i64 (BitVec.intMin 64)) = some (-9223372036854775808) ∧
    getStr d (.i64 (BitVec.intMin 64)) = none := by
  constructor
  · decide +kernel
  · have e : getInt (.i64 (BitVec.intMin 64)) = some (-(2 ^ (64 - 1) : Nat) : Int) := by decide +kernel
    simp only [getStr, ofInt, e, Option.bind_some]
    exact C32_print_smallest_undefined 64 (by omega)

end Props
