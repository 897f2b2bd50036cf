import Verif.Model.LockDev
import Verif.Props.Num
/- C91: locks of devices. -/
namespace Props
open Wv Wv.LockDev
open Spec.LockDev (Exclusive Last)

namespace LkD

theorem takeWhile_all {α : Type} (p : α → Bool) (l r : List α) (h : ∀ c ∈ l, p c = true) : (l ++ r).takeWhile p = l ++ r.takeWhile p := by
  induction l with
  | nil => rfl
  | cons a l ih =>
    have ha := h a (by simp)
    rw [List.cons_append, List.takeWhile_cons, if_pos ha, ih (fun c hc => h c (by simp [hc]))]
    rfl

theorem afterSlash_eq (d l : List Byte) (h : Last d l) : afterSlash d = l := by
  obtain ⟨hn, h⟩ := h
  have ha : ∀ c ∈ l.reverse, decide (c ≠ ch '/') = true := by
    intro c hc
    rw [decide_eq_true_eq]; rintro rfl
    exact hn (List.mem_reverse.mp hc)
  unfold afterSlash
  rcases h with rfl | ⟨dir, rfl⟩
  · have := takeWhile_all _ _ [] ha
    rw [List.append_nil] at this
    rw [this]; simp
  · rw [List.reverse_append, takeWhile_all _ _ _ ha, List.reverse_append]
    simp

/-- The numbers of processes. -/
def Pid (p : Nat) : Prop := 0 < p ∧ p < 2 ^ 31

theorem pidOf_text (p : Nat) (h : p < 2 ^ 31) : pidOf (text p) = p := by
  have hd : Num.ofUnsigned p = Spec.Num.decimal p := C32_print_unsigned p
  have hne : ¬ ((p : Int) < 0) := by omega
  have he : Spec.Num.decimal p = (Nat.toDigits 10 p).map ch := by simp [Spec.Num.decimal, hne]
  have hdig : ∀ c ∈ Spec.Num.decimal (p : Int), isdigit c = true := by
    intro c hc
    rw [he] at hc
    exact (Num.dec_isdigit p c hc).1
  have hnn : Spec.Num.decimal (p : Int) ≠ [] := by rw [he]; exact Num.dec_ne_nil p
  have hb : ∀ c : Byte, isdigit c = true → c ≠ 10 ∧ c ≠ 0 ∧ isspace c = false := by
    have := forall_byte (p := fun c => isdigit c = true → c ≠ 10 ∧ c ≠ 0 ∧ isspace c = false) (by decide +kernel)
    exact this
  generalize hD : Spec.Num.decimal (p : Int) = D at *
  have hpad : List.leftpad 10 (ch ' ') D = List.replicate (10 - D.length) (ch ' ') ++ D := rfl
  have h1 : ∀ c ∈ List.leftpad 10 (ch ' ') D, c ≠ 10 ∧ c ≠ 0 := by
    intro c hc
    rw [hpad, List.mem_append] at hc
    rcases hc with hc | hc
    · rw [List.mem_replicate] at hc
      rw [hc.2]; decide
    · exact ⟨(hb c (hdig c hc)).1, (hb c (hdig c hc)).2.1⟩
  have e1 : (text p).takeWhile (· ≠ 10) = List.leftpad 10 (ch ' ') D := by
    rw [text, hd, takeWhile_all _ _ _ (by intro c hc; simpa using (h1 c hc).1)]
    simp
  have e2 : (List.leftpad 10 (ch ' ') D).takeWhile (· ≠ 0) = List.leftpad 10 (ch ' ') D := by
    have := takeWhile_all (fun c : Byte => decide (c ≠ 0)) (List.leftpad 10 (ch ' ') D) [] (by intro c hc; simpa using (h1 c hc).2)
    simpa using this
  have dw : ∀ (n : Nat) (l : List Byte), (∀ c ∈ l.head?, isspace c = false) → (List.replicate n (ch ' ') ++ l).dropWhile isspace = l := by
    intro n l hl
    induction n with
    | zero =>
      cases l with
      | nil => rfl
      | cons a l => have := hl a (by simp); simp [List.dropWhile_cons, this]
    | succ n ih => rw [List.replicate_succ, List.cons_append, List.dropWhile_cons, if_pos (by decide)]; exact ih
  have e3 : trimString (List.leftpad 10 (ch ' ') D) = D := by
    unfold trimString
    have a : (List.leftpad 10 (ch ' ') D).reverse.dropWhile isspace = (List.leftpad 10 (ch ' ') D).reverse := by
      rw [hpad, List.reverse_append]
      have hr : D.reverse ≠ [] := by simpa using hnn
      cases hc : D.reverse with
      | nil => exact absurd hc hr
      | cons a l =>
        have : a ∈ D := by rw [← List.mem_reverse, hc]; simp
        rw [List.cons_append, List.dropWhile_cons, if_neg (by rw [(hb a (hdig a this)).2.2]; simp)]
    rw [a, List.reverse_reverse, hpad]
    apply dw
    intro c hc
    exact (hb c (hdig c (List.mem_of_mem_head? hc))).2.2
  have hne2 : text p ≠ [] := by simp [text]
  rw [pidOf, if_neg hne2, e1, e2, e3, ← hD, C32_num p (by unfold Num.inRange; omega)]
  rfl

theorem text_inj {p q : Nat} (hp : p < 2 ^ 31) (hq : q < 2 ^ 31) (h : text p = text q) : p = q := by
  have := congrArg pidOf h
  rw [pidOf_text p hp, pidOf_text q hq] at this
  omega

theorem pc_set (w : W) (p q : Nat) (c : PC) : (setPc w p c).pc q = if q = p then c else w.pc q := rfl
theorem count_set (w : W) (p q n : Nat) : (setCount w p n).count q = if q = p then n else w.count q := rfl

/-! ### Any order, no deaths -/

/-- A number that does not make a lock look stale. -/
def Live (D : List Int) (q : Int) : Prop := ¬ (q ≠ 0 ∧ q ≠ -1 ∧ q ∈ D)

/-- What processes do that do not have the lock. -/
def Quiet (D : List Int) : PC → Prop
  | .idle => True
  | .creating => True
  | .opening => True
  | .reading _ => True
  | .testing q => Live D q
  | _ => False

structure Own (w : W) (p i : Nat) : Prop where
  name : w.name = some i
  lt : i < w.files.length
  pc : (w.pc p = .idle ∧ 0 < w.count p ∧ w.files[i]? = some (text p)) ∨ (w.pc p = .printing i ∧ w.count p = 0) ∨
    (w.pc p = .unlinking ∧ w.count p = 0)

structure Inv (D : List Int) (w : W) (o : Option Nat) : Prop where
  dead : w.dead = D
  files : ∀ c ∈ w.files, Live D (pidOf c)
  quiet : ∀ p, o ≠ some p → Quiet D (w.pc p) ∧ w.count p = 0
  own : ∀ p, o = some p → Pid p ∧ (p : Int) ∉ D ∧ ∃ i, Own w p i

theorem live_zero (D : List Int) : Live D 0 := by simp [Live]

theorem live_text {D : List Int} {p : Nat} (hp : Pid p) (hd : (p : Int) ∉ D) : Live D (pidOf (text p)) := by
  rw [pidOf_text p hp.2]; exact fun h => hd h.2.2

theorem inv_exclusive {D : List Int} {w : W} {o : Option Nat} (h : Inv D w o) : Exclusive w.count := by
  have key : ∀ p, 0 < w.count p → o = some p := by
    intro p hp
    by_cases ho : o = some p
    · exact ho
    · have := (h.quiet p ho).2; omega
  intro p q hp hq
  have h1 := key p hp
  rw [key q hq] at h1
  exact (Option.some.inj h1).symm

/-- A process that has not the lock goes on without touching files. -/
theorem inv_quiet {D : List Int} {w : W} {o : Option Nat} (h : Inv D w o) (p : Nat) (hp : o ≠ some p) (c : PC) (hc : Quiet D c) : Inv D (setPc w p c) o := by
  refine ⟨h.dead, h.files, ?_, ?_⟩
  · intro q hq
    rw [pc_set]
    split
    · exact ⟨hc, (h.quiet q hq).2⟩
    · exact h.quiet q hq
  · intro q hq
    obtain ⟨h1, h2, i, hi⟩ := h.own q hq
    have : q ≠ p := by rintro rfl; exact hp hq
    refine ⟨h1, h2, i, hi.name, hi.lt, ?_⟩
    rw [pc_set, if_neg this]; exact hi.pc

theorem inv_step {D : List Int} {w : W} {o : Option Nat} (h : Inv D w o) (p : Nat) (hp : Pid p) (hd : (p : Int) ∉ D) :
    ∃ o', Inv D (step w p) o' := by
  by_cases ho : o = some p
  · obtain ⟨h1, h2, i, hi⟩ := h.own p ho
    rcases hi.pc with ⟨hc, hn, hf⟩ | ⟨hc, hn⟩ | ⟨hc, hn⟩
    · exact ⟨o, by unfold step; rw [hc]; exact h⟩
    · refine ⟨some p, ?_⟩
      unfold step; rw [hc]
      refine ⟨h.dead, ?_, ?_, ?_⟩
      · intro c hcm
        rcases List.mem_or_eq_of_mem_set hcm with hcm | hcm
        · exact h.files c hcm
        · rw [hcm]; exact live_text hp hd
      · intro q hq
        have hne : q ≠ p := by rintro rfl; exact hq rfl
        have := h.quiet q (by rw [ho]; exact hq)
        show Quiet D (if q = p then _ else w.pc q) ∧ (if q = p then _ else w.count q) = 0
        rw [if_neg hne, if_neg hne]; exact this
      · intro q hq
        obtain rfl := Option.some.inj hq
        refine ⟨hp, hd, i, hi.name, by show i < (w.files.set i _).length; simpa using hi.lt, Or.inl ⟨if_pos rfl, ?_, ?_⟩⟩
        · show 0 < (if p = p then 1 else _); simp
        · show (w.files.set i (text p))[i]? = _
          rw [List.getElem?_set_self hi.lt]
    · refine ⟨none, ?_⟩
      unfold step; rw [hc]
      refine ⟨h.dead, h.files, ?_, by intro q hq; cases hq⟩
      intro q _
      show Quiet D (if q = p then _ else w.pc q) ∧ w.count q = 0
      by_cases hne : q = p
      · rw [if_pos hne, hne]; exact ⟨trivial, hn⟩
      · rw [if_neg hne]; exact h.quiet q (by rw [ho]; intro e; exact hne (Option.some.inj e).symm)
  · have hq := h.quiet p ho
    unfold step
    cases hc : w.pc p with
    | idle => exact ⟨o, h⟩
    | creating =>
      cases hn : w.name with
      | some i => exact ⟨o, inv_quiet h p ho _ trivial⟩
      | none =>
        have hnone : o = none := by
          cases hoo : o with
          | none => rfl
          | some q =>
            obtain ⟨_, _, i, hi⟩ := h.own q hoo
            rw [hi.name] at hn; cases hn
        subst hnone
        refine ⟨some p, h.dead, ?_, ?_, ?_⟩
        · intro c hcm
          have hcm' : c ∈ w.files ++ [[]] := hcm
          rw [List.mem_append] at hcm'
          rcases hcm' with hcm' | hcm'
          · exact h.files c hcm'
          · rw [List.mem_singleton.mp hcm']; exact live_zero D
        · intro q hq
          have hne : q ≠ p := by rintro rfl; exact hq rfl
          show Quiet D (if q = p then _ else w.pc q) ∧ w.count q = 0
          rw [if_neg hne]; exact h.quiet q (by simp)
        · intro q hq'
          obtain rfl := Option.some.inj hq'
          refine ⟨hp, hd, w.files.length, rfl, ?_, Or.inr (Or.inl ⟨if_pos rfl, hq.2⟩)⟩
          show _ < (w.files ++ [[]]).length
          simp
    | printing i => rw [hc] at hq; exact hq.1.elim
    | opening =>
      cases hn : w.name with
      | none => exact ⟨o, inv_quiet h p ho _ (live_zero D)⟩
      | some i => exact ⟨o, inv_quiet h p ho _ trivial⟩
    | reading i =>
      refine ⟨o, inv_quiet h p ho _ ?_⟩
      show Live D _
      by_cases hl : i < w.files.length
      · rw [List.getD_eq_getElem?_getD, List.getElem?_eq_getElem hl]; exact h.files _ (List.getElem_mem hl)
      · rw [List.getD_eq_getElem?_getD, List.getElem?_eq_none (by omega)]; exact live_zero D
    | testing q =>
      have hl : Live D q := by rw [hc] at hq; exact hq.1
      refine ⟨o, ?_⟩
      simp only
      rw [if_neg (by rw [h.dead]; exact hl)]
      exact inv_quiet h p ho _ trivial
    | removing => rw [hc] at hq; exact hq.1.elim
    | recreating => rw [hc] at hq; exact hq.1.elim
    | reprinting i => rw [hc] at hq; exact hq.1.elim
    | unlinking => rw [hc] at hq; exact hq.1.elim

/-- The owner stops having the lock. -/
theorem inv_release {D : List Int} {w : W} {o : Option Nat} (h : Inv D w o) (p : Nat) (hp : 0 < w.count p) : Inv D (setPc (setCount w p 0) p .unlinking) o := by
  have ho : o = some p := by
    by_cases ho : o = some p
    · exact ho
    · have := (h.quiet p ho).2; omega
  refine ⟨h.dead, h.files, ?_, ?_⟩
  · intro q hq
    have hne : q ≠ p := by rintro rfl; exact hq ho
    show Quiet D (if q = p then _ else w.pc q) ∧ (if q = p then _ else w.count q) = 0
    rw [if_neg hne, if_neg hne]; exact h.quiet q hq
  · intro q hq
    rw [ho] at hq
    obtain rfl := Option.some.inj hq
    obtain ⟨h1, h2, i, hi⟩ := h.own p ho
    exact ⟨h1, h2, i, hi.name, hi.lt, Or.inr (Or.inr ⟨if_pos rfl, if_pos rfl⟩)⟩

/-- The owner takes it once more, or gives it back less often than it took it. -/
theorem inv_count {D : List Int} {w : W} {o : Option Nat} (h : Inv D w o) (p n : Nat) (hp : 0 < w.count p) (hn : 0 < n) : Inv D (setCount w p n) o := by
  have ho : o = some p := by
    by_cases ho : o = some p
    · exact ho
    · have := (h.quiet p ho).2; omega
  refine ⟨h.dead, h.files, ?_, ?_⟩
  · intro q hq
    have hne : q ≠ p := by rintro rfl; exact hq ho
    rw [count_set, if_neg hne]; exact h.quiet q hq
  · intro q hq
    have hq' := hq
    rw [ho] at hq
    obtain rfl := Option.some.inj hq
    obtain ⟨h1, h2, i, hi⟩ := h.own p ho
    refine ⟨h1, h2, i, hi.name, hi.lt, ?_⟩
    rcases hi.pc with ⟨hc, _, hf⟩ | ⟨_, hz⟩ | ⟨_, hz⟩
    · exact Or.inl ⟨hc, by rw [count_set, if_pos rfl]; exact hn, hf⟩
    · omega
    · omega

theorem inv_event {D : List Int} {w : W} {o : Option Nat} (h : Inv D w o) (e : Ev) (hp : Pid e.pid) (hd : (e.pid : Int) ∉ D) (hne : ∀ p, e ≠ .die p) :
    ∃ o', Inv D (event w e) o' := by
  unfold event
  rw [if_neg (by rw [h.dead]; exact hd)]
  cases e with
  | lock p =>
    simp only
    by_cases hi : w.pc p = .idle
    · rw [if_pos hi]
      by_cases hc : 0 < w.count p
      · rw [if_pos hc]; exact ⟨o, inv_count h p _ hc (by omega)⟩
      · rw [if_neg hc]
        refine ⟨o, inv_quiet h p ?_ _ trivial⟩
        intro ho
        obtain ⟨_, _, i, hi'⟩ := h.own p ho
        rcases hi'.pc with ⟨_, hz, _⟩ | ⟨hz, _⟩ | ⟨hz, _⟩
        · exact hc hz
        · rw [hi] at hz; cases hz
        · rw [hi] at hz; cases hz
    · rw [if_neg hi]; exact ⟨o, h⟩
  | unlock p =>
    simp only
    by_cases hi : w.pc p = .idle
    · rw [if_pos hi]
      by_cases hc : w.count p = 0
      · rw [if_pos hc]; exact ⟨o, h⟩
      · rw [if_neg hc]
        by_cases hc1 : w.count p - 1 = 0
        · rw [if_pos hc1]; exact ⟨o, inv_release h p (by omega)⟩
        · rw [if_neg hc1]; exact ⟨o, inv_count h p _ (by omega) (by omega)⟩
    · rw [if_neg hi]; exact ⟨o, h⟩
  | destroy p =>
    simp only
    by_cases hi : w.pc p = .idle ∧ 0 < w.count p
    · rw [if_pos hi]; exact ⟨o, inv_release h p hi.2⟩
    · rw [if_neg hi]; exact ⟨o, h⟩
  | step p => exact inv_step h p hp hd
  | die p => exact absurd rfl (hne p)

theorem inv_run {D : List Int} (l : List Ev) (hl : ∀ e ∈ l, Pid e.pid ∧ (e.pid : Int) ∉ D ∧ ∀ p, e ≠ .die p) :
    ∀ (w : W) (o : Option Nat), Inv D w o → ∃ o', Inv D (run w l) o' := by
  induction l with
  | nil => intro w o h; exact ⟨o, h⟩
  | cons e l ih =>
    intro w o h
    have he := hl e (by simp)
    obtain ⟨o', h'⟩ := inv_event h e he.1 he.2.1 he.2.2
    exact ih (fun e he => hl e (by simp [he])) _ o' h'

theorem inv_start (file : Option (List Byte)) (D : List Int) (hf : ∀ c ∈ file, Live D (pidOf c)) : Inv D (start file D) none := by
  refine ⟨rfl, ?_, fun p _ => ⟨trivial, rfl⟩, by intro p hp; cases hp⟩
  intro c hc
  exact hf c (by simpa [start] using hc)

/-! ### One call after the other -/

structure HeldOk (w : W) : Prop where
  held : ∀ p, 0 < w.count p → Pid p ∧ (p : Int) ∉ w.dead ∧ ∃ i, w.name = some i ∧ w.files[i]? = some (text p)

def Nobody (w : W) : Prop := ∀ p, w.count p = 0

/-- What holds when a process is about to do something, and nobody else is at work. -/
def At (w : W) (p : Nat) : PC → Prop
  | .idle => True
  | .creating => w.count p = 0
  | .opening => w.count p = 0
  | .reading i => w.count p = 0 ∧ w.name = some i
  | .testing q => w.count p = 0 ∧ (q ≠ 0 ∧ q ≠ -1 ∧ q ∈ w.dead → Nobody w)
  | .removing => Nobody w
  | .recreating => Nobody w ∧ w.name = none
  | .reprinting (some i) => Nobody w ∧ w.name = some i ∧ i < w.files.length
  | .reprinting none => False
  | .printing i => Nobody w ∧ w.name = some i ∧ i < w.files.length
  | .unlinking => Nobody w

structure Seq (w : W) (p : Nat) : Prop where
  others : ∀ q, q ≠ p → w.pc q = .idle
  held : HeldOk w
  pc : At w p (w.pc p)

/-- How many steps are left at most. -/
def rank : PC → Nat
  | .idle => 0
  | .creating => 7
  | .printing _ => 1
  | .opening => 6
  | .reading _ => 5
  | .testing _ => 4
  | .removing => 3
  | .recreating => 2
  | .reprinting _ => 1
  | .unlinking => 1

theorem nobody_held {w : W} (h : Nobody w) : HeldOk w := ⟨fun p hp => by rw [h p] at hp; omega⟩

theorem held_exclusive {w : W} (h : HeldOk w) : Exclusive w.count := by
  intro p q hp hq
  obtain ⟨hp1, _, i, hi, hpi⟩ := h.held p hp
  obtain ⟨hq1, _, j, hj, hqj⟩ := h.held q hq
  rw [hi] at hj
  obtain rfl := Option.some.inj hj
  rw [hpi] at hqj
  exact text_inj hp1.2 hq1.2 (Option.some.inj hqj)

theorem others_set {w : W} {p : Nat} (h : ∀ q, q ≠ p → w.pc q = .idle) (c : PC) : ∀ q, q ≠ p → (setPc w p c).pc q = .idle := by
  intro q hq; rw [pc_set, if_neg hq]; exact h q hq

/-- Writing the number of the process makes it the one that has the lock. -/
theorem seq_print {w : W} {p i : Nat} (hp : Pid p) (hd : (p : Int) ∉ w.dead) (ho : ∀ q, q ≠ p → w.pc q = .idle) (hn : Nobody w)
    (hname : w.name = some i) (hi : i < w.files.length) :
    Seq (setCount (setPc { w with files := w.files.set i (text p) } p .idle) p 1) p := by
  refine ⟨others_set (w := { w with files := w.files.set i (text p) }) ho _, ⟨?_⟩, ?_⟩
  · intro q hq
    have hq' : 0 < (if q = p then 1 else w.count q) := hq
    by_cases e : q = p
    · subst e
      exact ⟨hp, hd, i, hname, List.getElem?_set_self hi⟩
    · rw [if_neg e, hn q] at hq'; omega
  · show At _ p (if p = p then _ else _)
    rw [if_pos rfl]; trivial

theorem seq_step {w : W} {p : Nat} (h : Seq w p) (hp : Pid p) (hd : (p : Int) ∉ w.dead) :
    Seq (step w p) p ∧ (step w p).dead = w.dead ∧ rank ((step w p).pc p) ≤ rank (w.pc p) - 1 := by
  have ha := h.pc
  have hset : ∀ (w' : W) (c : PC), (setPc w' p c).pc p = c := fun _ _ => if_pos rfl
  unfold step
  cases hc : w.pc p with
  | idle => exact ⟨h, rfl, by simp only; rw [hc]; simp [rank]⟩
  | creating =>
    rw [hc] at ha
    dsimp only
    cases hn : w.name with
    | none =>
      have hnob : Nobody w := by
        intro q
        refine Nat.eq_zero_of_not_pos fun hq => ?_
        obtain ⟨_, _, i, hi, _⟩ := h.held.held q hq
        rw [hn] at hi; cases hi
      refine ⟨⟨others_set (w := create w) h.others _, nobody_held hnob, ?_⟩, rfl, by rw [hset]; simp [rank]⟩
      rw [hset]
      exact ⟨hnob, rfl, by show _ < (w.files ++ [[]]).length; simp⟩
    | some i => exact ⟨⟨others_set h.others _, ⟨h.held.held⟩, by rw [hset]; exact ha⟩, rfl, by rw [hset]; simp [rank]⟩
  | printing i =>
    rw [hc] at ha
    refine ⟨seq_print hp hd h.others ha.1 ha.2.1 ha.2.2, rfl, ?_⟩
    show rank (if p = p then _ else _) ≤ _
    rw [if_pos rfl]; simp [rank]
  | opening =>
    rw [hc] at ha
    dsimp only
    cases hn : w.name with
    | none => exact ⟨⟨others_set h.others _, ⟨h.held.held⟩, by rw [hset]; exact ⟨ha, fun hx => absurd rfl hx.1⟩⟩, rfl, by rw [hset]; simp [rank]⟩
    | some i => exact ⟨⟨others_set h.others _, ⟨h.held.held⟩, by rw [hset]; exact ⟨ha, hn⟩⟩, rfl, by rw [hset]; simp [rank]⟩
  | reading i =>
    rw [hc] at ha
    refine ⟨⟨others_set h.others _, ⟨h.held.held⟩, ?_⟩, rfl, by rw [hset]; simp [rank]⟩
    rw [hset]
    refine ⟨ha.1, fun hx q => ?_⟩
    show w.count q = 0
    refine Nat.eq_zero_of_not_pos fun hq => ?_
    obtain ⟨hq1, hq2, j, hj, hjf⟩ := h.held.held q hq
    rw [ha.2] at hj
    obtain rfl := Option.some.inj hj
    rw [List.getD_eq_getElem?_getD, hjf] at hx
    simp only [Option.getD_some] at hx
    rw [pidOf_text q hq1.2] at hx
    exact hq2 hx.2.2
  | testing q =>
    rw [hc] at ha
    simp only
    by_cases hx : q ≠ 0 ∧ q ≠ -1 ∧ q ∈ w.dead
    · rw [if_pos hx]
      exact ⟨⟨others_set h.others _, ⟨h.held.held⟩, by rw [hset]; exact ha.2 hx⟩, rfl, by rw [hset]; simp [rank]⟩
    · rw [if_neg hx]
      exact ⟨⟨others_set h.others _, ⟨h.held.held⟩, by rw [hset]; trivial⟩, rfl, by rw [hset]; simp [rank]⟩
  | removing =>
    rw [hc] at ha
    dsimp only
    cases hn : w.name with
    | none => exact ⟨⟨others_set h.others _, ⟨h.held.held⟩, by rw [hset]; trivial⟩, rfl, by rw [hset]; simp [rank]⟩
    | some i =>
      refine ⟨⟨others_set (w := { w with name := none }) h.others _, nobody_held ha, ?_⟩, rfl, by rw [hset]; simp [rank]⟩
      rw [hset]; exact ⟨ha, rfl⟩
  | recreating =>
    rw [hc] at ha
    rw [ha.2]
    refine ⟨⟨others_set (w := create w) h.others _, nobody_held ha.1, ?_⟩, rfl, by rw [hset]; simp [rank]⟩
    rw [hset]
    exact ⟨ha.1, rfl, by show _ < (w.files ++ [[]]).length; simp⟩
  | reprinting o =>
    rw [hc] at ha
    cases o with
    | none => exact ha.elim
    | some i =>
      refine ⟨seq_print hp hd h.others ha.1 ha.2.1 ha.2.2, rfl, ?_⟩
      show rank (if p = p then _ else _) ≤ _
      rw [if_pos rfl]; simp [rank]
  | unlinking =>
    rw [hc] at ha
    refine ⟨⟨others_set (w := { w with name := none }) h.others _, nobody_held ha, ?_⟩, rfl, by rw [hset]; simp [rank]⟩
    rw [hset]; trivial

theorem run_cons (w : W) (e : Ev) (l : List Ev) : run w (e :: l) = run (event w e) l := List.foldl_cons ..
theorem run_append (w : W) (l m : List Ev) : run w (l ++ m) = run (run w l) m := List.foldl_append ..

theorem seq_steps {p : Nat} (hp : Pid p) (n : Nat) : ∀ w : W, Seq w p → (p : Int) ∉ w.dead →
    Seq (run w (List.replicate n (.step p))) p ∧ (run w (List.replicate n (.step p))).dead = w.dead ∧
    rank ((run w (List.replicate n (.step p))).pc p) ≤ rank (w.pc p) - n := by
  induction n with
  | zero => intro w h _; exact ⟨h, rfl, by simp [run]⟩
  | succ n ih =>
    intro w h hd
    rw [List.replicate_succ, run_cons]
    have e : event w (.step p) = step w p := by unfold event; rw [if_neg (show ¬ ((Ev.step p).pid : Int) ∈ w.dead from hd)]
    rw [e]
    obtain ⟨h1, h2, h3⟩ := seq_step h hp hd
    obtain ⟨i1, i2, i3⟩ := ih _ h1 (by rw [h2]; exact hd)
    exact ⟨i1, by rw [i2, h2], by omega⟩

structure Rest (w : W) : Prop where
  idle : ∀ p, w.pc p = .idle
  held : HeldOk w

theorem rest_of {w : W} {p : Nat} (h : Seq w p) (hi : w.pc p = .idle) : Rest w := by
  refine ⟨fun q => ?_, h.held⟩
  by_cases e : q = p
  · rw [e]; exact hi
  · exact h.others q e

theorem rank_zero {c : PC} (h : rank c = 0) : c = .idle := by cases c <;> simp [rank] at h ⊢

/-- The start of a call by a process that lives. -/
theorem seq_begin {w : W} (h : Rest w) (e : Ev) (he : ∀ p, e ≠ .die p) (hd : (e.pid : Int) ∉ w.dead) :
    Seq (event w e) e.pid ∧ (event w e).dead = w.dead ∧ rank ((event w e).pc e.pid) ≤ 8 := by
  have hrest : ∀ p, Seq w p := fun p => ⟨fun q _ => h.idle q, h.held, by rw [h.idle p]; trivial⟩
  have hself : ∀ p, Seq w p ∧ w.dead = w.dead ∧ rank (w.pc p) ≤ 8 := fun p => ⟨hrest p, rfl, by rw [h.idle p]; simp [rank]⟩
  have hrel : ∀ p, 0 < w.count p → Seq (setPc (setCount w p 0) p .unlinking) p ∧ (setPc (setCount w p 0) p .unlinking).dead = w.dead ∧
      rank ((setPc (setCount w p 0) p .unlinking).pc p) ≤ 8 := by
    intro p hp
    have hn : Nobody (setCount w p 0) := by
      intro q
      rw [count_set]
      split
      · rfl
      · rename_i hq
        exact Nat.eq_zero_of_not_pos fun hc => hq (held_exclusive h.held q p hc hp)
    refine ⟨⟨others_set (w := setCount w p 0) (fun q _ => h.idle q) _, nobody_held hn, ?_⟩, rfl, ?_⟩
    · rw [pc_set, if_pos rfl]; exact hn
    · rw [pc_set, if_pos rfl]; simp [rank]
  have hcnt : ∀ p n, 0 < w.count p → Seq (setCount w p n) p ∧ (setCount w p n).dead = w.dead ∧ rank ((setCount w p n).pc p) ≤ 8 := by
    intro p n hp
    refine ⟨⟨fun q _ => h.idle q, ⟨?_⟩, ?_⟩, rfl, ?_⟩
    · intro q hq
      rw [count_set] at hq
      split at hq
      · rename_i e; exact e ▸ h.held.held p hp
      · exact h.held.held q hq
    · show At _ p (w.pc p); rw [h.idle p]; trivial
    · show rank (w.pc p) ≤ 8; rw [h.idle p]; simp [rank]
  unfold event
  rw [if_neg hd]
  cases e with
  | lock p =>
    simp only [Ev.pid]
    rw [if_pos (h.idle p)]
    by_cases hc : 0 < w.count p
    · rw [if_pos hc]; exact hcnt p _ hc
    · rw [if_neg hc]
      refine ⟨⟨others_set (fun q _ => h.idle q) _, ⟨h.held.held⟩, ?_⟩, rfl, ?_⟩
      · rw [pc_set, if_pos rfl]; show w.count p = 0; omega
      · rw [pc_set, if_pos rfl]; simp [rank]
  | unlock p =>
    simp only [Ev.pid]
    rw [if_pos (h.idle p)]
    by_cases hc : w.count p = 0
    · rw [if_pos hc]; exact hself p
    · rw [if_neg hc]
      by_cases hc1 : w.count p - 1 = 0
      · rw [if_pos hc1]; exact hrel p (by omega)
      · rw [if_neg hc1]; exact hcnt p _ (by omega)
  | destroy p =>
    simp only [Ev.pid]
    by_cases hi : w.pc p = .idle ∧ 0 < w.count p
    · rw [if_pos hi]; exact hrel p hi.2
    · rw [if_neg hi]; exact hself p
  | step p =>
    have e : step w p = w := by unfold step; rw [h.idle p]
    simp only [Ev.pid]
    rw [e]; exact hself p
  | die p => exact absurd rfl (he p)

theorem dead_stays (p : Nat) (l : List Ev) : ∀ w : W, (p : Int) ∈ w.dead → (∀ e ∈ l, e.pid = p) → run w l = w := by
  induction l with
  | nil => intro w _ _; rfl
  | cons e l ih =>
    intro w h hl
    rw [run_cons]
    have : event w e = w := by unfold event; rw [if_pos (by rw [hl e (by simp)]; exact h)]
    rw [this]; exact ih w h (fun e he => hl e (by simp [he]))

/-- A process that dies does not take part any more; the others are not affected. -/
theorem rest_die {w : W} {p : Nat} (h : Seq w p) (hd : (p : Int) ∉ w.dead) : Rest (event w (.die p)) := by
  unfold event
  rw [if_neg (show ¬ ((Ev.die p).pid : Int) ∈ w.dead from hd)]
  refine ⟨fun q => ?_, ⟨?_⟩⟩
  · show (if q = p then _ else w.pc q) = _
    split
    · rfl
    · exact h.others q ‹_›
  · intro q hq
    have hq' : 0 < (if q = p then 0 else w.count q) := hq
    by_cases e : q = p
    · rw [if_pos e] at hq'; omega
    · rw [if_neg e] at hq'
      obtain ⟨h1, h2, h3⟩ := h.held.held q hq'
      refine ⟨h1, ?_, h3⟩
      show (q : Int) ∉ (p : Int) :: w.dead
      rw [List.mem_cons]
      rintro (hx | hx)
      · exact e (by omega)
      · exact h2 hx

/-- The process of a call. -/
def pidOfCall : Call → Nat
  | .lock p => p
  | .unlock p => p
  | .destroy p => p
  | .die p => p
  | .unlockDie p => p
  | .lockDie p _ => p

theorem rest_whole {w : W} (h : Rest w) (e : Ev) (he : ∀ p, e ≠ .die p) (hp : Pid e.pid) (hd : (e.pid : Int) ∉ w.dead) :
    Rest (run w (e :: List.replicate 8 (.step e.pid))) := by
  rw [run_cons]
  obtain ⟨h1, h2, h3⟩ := seq_begin h e he hd
  obtain ⟨i1, i2, i3⟩ := seq_steps hp 8 _ h1 (by rw [h2]; exact hd)
  exact rest_of i1 (rank_zero (by omega))

theorem rest_call {w : W} (h : Rest w) (c : Call) (hp : Pid (pidOfCall c)) : Rest (run w c.events) := by
  by_cases hd : (pidOfCall c : Int) ∈ w.dead
  · rw [dead_stays (pidOfCall c) _ w hd]
    · exact h
    · intro e he
      cases c <;> simp [Call.events, List.mem_replicate] at he <;> simp only [pidOfCall] <;>
        first
        | (rcases he with he | he | he <;> (try rcases he with ⟨_, he⟩) <;> (try subst he) <;> rfl)
        | (rcases he with he | he <;> (try rcases he with ⟨_, he⟩) <;> (try subst he) <;> rfl)
        | (subst he; rfl)
  · cases c with
    | lock p => exact rest_whole h (.lock p) (by intro q; simp) hp hd
    | unlock p => exact rest_whole h (.unlock p) (by intro q; simp) hp hd
    | destroy p => exact rest_whole h (.destroy p) (by intro q; simp) hp hd
    | die p => exact rest_die (p := p) ⟨fun q _ => h.idle q, h.held, by rw [h.idle p]; trivial⟩ hd
    | unlockDie p =>
      obtain ⟨h1, h2, _⟩ := seq_begin h (.unlock p) (by intro q; simp) hd
      exact rest_die h1 (by rw [h2]; exact hd)
    | lockDie p n =>
      obtain ⟨h1, h2, _⟩ := seq_begin h (.lock p) (by intro q; simp) hd
      obtain ⟨i1, i2, _⟩ := seq_steps (p := p) hp n _ h1 (by rw [h2]; exact hd)
      show Rest (run w (.lock p :: (List.replicate n (.step p) ++ [.die p])))
      rw [run_cons, run_append, run_cons]
      exact rest_die i1 (by rw [i2, h2]; exact hd)

theorem rest_calls (l : List Call) : ∀ w : W, Rest w → (∀ c ∈ l, Pid (pidOfCall c)) → Rest (run w (l.flatMap Call.events)) := by
  induction l with
  | nil => intro w h _; exact h
  | cons c l ih =>
    intro w h hl
    rw [List.flatMap_cons, run_append]
    exact ih _ (rest_call h c (hl c (by simp))) (fun c hc => hl c (by simp [hc]))

end LkD
open LkD

/-- C91: devices have the same lock exactly if their names are the same behind the last slash. -/
theorem C91_name (d d' l l' : List Byte) (h : Last d l) (h' : Last d' l') : filename d = filename d' ↔ l = l' := by
  unfold filename
  rw [afterSlash_eq d l h, afterSlash_eq d' l' h', List.append_cancel_left_eq]

example : Last (str ['/', 'd', 'e', 'v', '/', 't', 't', 'y']) (str ['t', 't', 'y']) ∧ Last (str ['t', 't', 'y']) (str ['t', 't', 'y']) :=
  ⟨⟨by decide, Or.inr ⟨str ['/', 'd', 'e', 'v'], by decide⟩⟩, ⟨by decide, Or.inl rfl⟩⟩

/-- C91: a lock file says whose it is. -/
theorem C91_text (p : Nat) (hp : p < 2 ^ 31) : pidOf (text p) = p ∧ text p = List.leftpad 10 (ch ' ') (Spec.Num.decimal p) ++ [10] :=
  ⟨pidOf_text p hp, by rw [text, C32_print_unsigned]⟩

/-- C91: whatever the processes do, in whatever order, at most one of them has the lock, as long as no process dies and no lock file names a
    process that does not exist. -/
theorem C91_exclusive_partial (file : Option (List Byte)) (dead : List Int) (l : List Ev)
    (hf : ∀ c ∈ file, pidOf c ∈ dead → pidOf c = 0 ∨ pidOf c = -1)
    (hl : ∀ e ∈ l, 0 < e.pid ∧ e.pid < 2 ^ 31 ∧ (e.pid : Int) ∉ dead ∧ ∀ p, e ≠ .die p) :
    Exclusive (run (start file dead) l).count ∧
    ∀ p, 0 < (run (start file dead) l).count p →
      ∃ i, (run (start file dead) l).name = some i ∧ (run (start file dead) l).files[i]? = some (text p) := by
  obtain ⟨o, h⟩ := inv_run l (fun e he => ⟨⟨(hl e he).1, (hl e he).2.1⟩, (hl e he).2.2⟩) _ none (inv_start file dead (by
    intro c hc hx
    rcases hf c hc hx.2.2 with h | h
    · exact hx.1 h
    · exact hx.2.1 h))
  refine ⟨inv_exclusive h, fun p hp => ?_⟩
  have ho : o = some p := by
    by_cases ho : o = some p
    · exact ho
    · have := (h.quiet p ho).2; omega
  obtain ⟨_, _, i, hi⟩ := h.own p ho
  refine ⟨i, hi.name, ?_⟩
  rcases hi.pc with ⟨_, _, hf⟩ | ⟨_, hz⟩ | ⟨_, hz⟩
  · exact hf
  · omega
  · omega

/-- C91: as long as calls do not overlap, at most one process has the lock, whoever dies at whatever point of a call, and whatever lock file there
    was at first. -/
theorem C91_sequential_partial (file : Option (List Byte)) (dead : List Int) (l : List Call) (hl : ∀ c ∈ l, 0 < pidOfCall c ∧ pidOfCall c < 2 ^ 31) :
    Exclusive (run (start file dead) (l.flatMap Call.events)).count ∧
    ∀ p, 0 < (run (start file dead) (l.flatMap Call.events)).count p → (p : Int) ∉ (run (start file dead) (l.flatMap Call.events)).dead ∧
      ∃ i, (run (start file dead) (l.flatMap Call.events)).name = some i ∧ (run (start file dead) (l.flatMap Call.events)).files[i]? = some (text p) := by
  have h := rest_calls l (start file dead) ⟨fun _ => rfl, ⟨fun p hp => absurd hp (Nat.lt_irrefl 0)⟩⟩ hl
  exact ⟨held_exclusive h.held, fun p hp => ⟨(h.held.held p hp).2.1, (h.held.held p hp).2.2⟩⟩

namespace LkD

/-- The world as far as a call by `p` depends on it. -/
structure View (w : W) (p : Nat) (D : List Int) (c : PC) (name : Option Nat) (files : List (List Byte)) : Prop where
  pc : w.pc p = c
  name : w.name = name
  files : w.files = files
  dead : w.dead = D

theorem view_pc {w : W} {p : Nat} {D : List Int} {c : PC} {name : Option Nat} {files : List (List Byte)} (h : View w p D c name files) (c' : PC) :
    View (setPc w p c') p D c' name files := ⟨if_pos rfl, h.name, h.files, h.dead⟩

theorem view_run {w : W} {p : Nat} {D : List Int} {c : PC} {name : Option Nat} {files : List (List Byte)} (h : View w p D c name files)
    (hd : (p : Int) ∉ D) (l : List Ev) : run w (.step p :: l) = run (step w p) l := by
  rw [run_cons]
  have : event w (.step p) = step w p := by
    unfold event; rw [if_neg (show ¬ ((Ev.step p).pid : Int) ∈ w.dead from by rw [h.dead]; exact hd)]
  rw [this]

theorem view_idle {w : W} {p : Nat} {D : List Int} {name : Option Nat} {files : List (List Byte)} (h : View w p D .idle name files) (hd : (p : Int) ∉ D) (n : Nat) :
    run w (List.replicate n (.step p)) = w := by
  induction n with
  | zero => rfl
  | succ n ih =>
    rw [List.replicate_succ, view_run h hd]
    have : step w p = w := by unfold step; rw [h.pc]
    rw [this]; exact ih

end LkD

/-- C91: the lock can be had if there is no lock file, or it names a process that does not exist. -/
theorem C91_available (w : W) (p : Nat) (hd : (p : Int) ∉ w.dead) (hi : ∀ q, w.pc q = .idle) (hc : w.count p = 0)
    (hf : w.name = none ∨ ∃ i c, w.name = some i ∧ w.files[i]? = some c ∧ pidOf c ≠ 0 ∧ pidOf c ≠ -1 ∧ pidOf c ∈ w.dead) :
    (run w (Call.lock p).events).count p = 1 := by
  have e0 : event w (.lock p) = setPc w p .creating := by
    unfold event; rw [if_neg (show ¬ ((Ev.lock p).pid : Int) ∈ w.dead from hd)]; simp only
    rw [if_pos (hi p), if_neg (by omega)]
  have ee : (Call.lock p).events = .lock p :: List.replicate 8 (.step p) := rfl
  rw [ee, run_cons, e0]
  have v1 : View (setPc w p .creating) p w.dead .creating w.name w.files := ⟨if_pos rfl, rfl, rfl, rfl⟩
  generalize setPc w p .creating = w1 at v1
  rcases hf with hn | ⟨i, c, hn, hfi, h0, h1, h2⟩
  · rw [hn] at v1
    have s1 : step w1 p = setPc (create w1) p (.printing w1.files.length) := by
      unfold step; rw [v1.pc]; dsimp only; rw [v1.name]
    rw [List.replicate_succ, view_run v1 hd, s1]
    have v2 : View (setPc (create w1) p (.printing w1.files.length)) p w.dead (.printing w1.files.length) (some w1.files.length) (w1.files ++ [[]]) :=
      ⟨if_pos rfl, rfl, rfl, v1.dead⟩
    generalize setPc (create w1) p (.printing w1.files.length) = w2 at v2
    have s2 : step w2 p = setCount (setPc { w2 with files := w2.files.set w1.files.length (text p) } p .idle) p 1 := by
      unfold step; rw [v2.pc]
    rw [List.replicate_succ, view_run v2 hd, s2]
    have v3 : View (setCount (setPc { w2 with files := w2.files.set w1.files.length (text p) } p .idle) p 1) p w.dead .idle w2.name (w2.files.set w1.files.length (text p)) :=
      ⟨if_pos rfl, rfl, rfl, v2.dead⟩
    have hc3 : (setCount (setPc { w2 with files := w2.files.set w1.files.length (text p) } p .idle) p 1).count p = 1 := if_pos rfl
    rw [view_idle v3 hd]; exact hc3
  · rw [hn] at v1
    have s1 : step w1 p = setPc w1 p .opening := by
      unfold step; rw [v1.pc]; dsimp only; rw [v1.name]
    rw [List.replicate_succ, view_run v1 hd, s1]
    have v2 := view_pc v1 .opening
    generalize setPc w1 p .opening = w2 at v2
    have s2 : step w2 p = setPc w2 p (.reading i) := by
      unfold step; rw [v2.pc]; dsimp only; rw [v2.name]
    rw [List.replicate_succ, view_run v2 hd, s2]
    have v3 := view_pc v2 (.reading i)
    generalize setPc w2 p (.reading i) = w3 at v3
    have s3 : step w3 p = setPc w3 p (.testing (pidOf c)) := by
      unfold step
      rw [v3.pc]; dsimp only
      rw [v3.files, List.getD_eq_getElem?_getD, hfi]; rfl
    rw [List.replicate_succ, view_run v3 hd, s3]
    have v4 := view_pc v3 (.testing (pidOf c))
    generalize setPc w3 p (.testing (pidOf c)) = w4 at v4
    have s4 : step w4 p = setPc w4 p .removing := by
      unfold step
      rw [v4.pc]; dsimp only
      rw [if_pos (show _ ∧ _ ∧ _ ∈ w4.dead from ⟨h0, h1, by rw [v4.dead]; exact h2⟩)]
    rw [List.replicate_succ, view_run v4 hd, s4]
    have v5 := view_pc v4 .removing
    generalize setPc w4 p .removing = w5 at v5
    have s5 : step w5 p = setPc { w5 with name := none } p .recreating := by
      unfold step; rw [v5.pc]; dsimp only; rw [v5.name]
    rw [List.replicate_succ, view_run v5 hd, s5]
    have v6 : View (setPc { w5 with name := none } p .recreating) p w.dead .recreating none w5.files := ⟨if_pos rfl, rfl, rfl, v5.dead⟩
    generalize setPc { w5 with name := none } p .recreating = w6 at v6
    have s6 : step w6 p = setPc (create w6) p (.reprinting (some w6.files.length)) := by
      unfold step; rw [v6.pc]; dsimp only; rw [v6.name]
    rw [List.replicate_succ, view_run v6 hd, s6]
    have v7 : View (setPc (create w6) p (.reprinting (some w6.files.length))) p w.dead (.reprinting (some w6.files.length)) (some w6.files.length) (w6.files ++ [[]]) :=
      ⟨if_pos rfl, rfl, rfl, v6.dead⟩
    generalize setPc (create w6) p (.reprinting (some w6.files.length)) = w7 at v7
    have s7 : step w7 p = setCount (setPc { w7 with files := w7.files.set w6.files.length (text p) } p .idle) p 1 := by
      unfold step; rw [v7.pc]
    rw [List.replicate_succ, view_run v7 hd, s7]
    have v8 : View (setCount (setPc { w7 with files := w7.files.set w6.files.length (text p) } p .idle) p 1) p w.dead .idle w7.name (w7.files.set w6.files.length (text p)) :=
      ⟨if_pos rfl, rfl, rfl, v7.dead⟩
    have hc8 : (setCount (setPc { w7 with files := w7.files.set w6.files.length (text p) } p .idle) p 1).count p = 1 := if_pos rfl
    rw [view_idle v8 hd]; exact hc8

/-- C91: a lock file that names a process that exists, or no process, is left alone by a call that nothing comes in between, and the lock is not had. -/
theorem C91_refused (w : W) (p i : Nat) (c : List Byte) (hd : (p : Int) ∉ w.dead) (hi : ∀ q, w.pc q = .idle) (hc : w.count p = 0) (hn : w.name = some i)
    (hfi : w.files[i]? = some c) (hl : pidOf c ∈ w.dead → pidOf c = 0 ∨ pidOf c = -1) : run w (Call.lock p).events = w := by
  have ev : ∀ w : W, (p : Int) ∉ w.dead → event w (.step p) = step w p := by intro w h; unfold event; rw [if_neg (show ¬ ((Ev.step p).pid : Int) ∈ w.dead from h)]
  have e0 : event w (.lock p) = setPc w p .creating := by
    unfold event; rw [if_neg (show ¬ ((Ev.lock p).pid : Int) ∈ w.dead from hd)]; simp only
    rw [if_pos (hi p), if_neg (by omega)]
  have idle : ∀ (w : W), w.pc p = .idle → step w p = w := by intro w h; unfold step; rw [h]
  have pcs : ∀ (w : W) (c : PC), (setPc w p c).pc p = c := fun _ _ => if_pos rfl
  have hst : ∀ (n : Nat) (w : W), (p : Int) ∉ w.dead → w.pc p = .idle → run w (List.replicate n (.step p)) = w := by
    intro n
    induction n with
    | zero => intro w _ _; rfl
    | succ n ih => intro w h h'; rw [List.replicate_succ, run_cons, ev w h, idle w h']; exact ih w h h'
  let w1 := setPc w p .creating
  let w2 := setPc w1 p .opening
  let w3 := setPc w2 p (.reading i)
  let w4 := setPc w3 p (.testing (pidOf c))
  have s1 : step w1 p = w2 := by
    show step (setPc w p .creating) p = _
    unfold step; rw [pcs]; simp only
    rw [show (setPc w p .creating).name = some i from hn]
  have s2 : step w2 p = w3 := by
    show step (setPc w1 p .opening) p = _
    unfold step; rw [pcs]; simp only
    rw [show (setPc w1 p .opening).name = some i from hn]
  have s3 : step w3 p = w4 := by
    show step (setPc w2 p (.reading i)) p = _
    unfold step; rw [pcs]; simp only
    have : (setPc w2 p (.reading i)).files.getD i [] = c := by
      show w.files.getD i [] = c
      rw [List.getD_eq_getElem?_getD, hfi]; rfl
    rw [this]
  have s4 : step w4 p = setPc w4 p .idle := by
    show step (setPc w3 p (.testing (pidOf c))) p = _
    unfold step; rw [pcs]; simp only
    have hx : ¬ (pidOf c ≠ 0 ∧ pidOf c ≠ -1 ∧ pidOf c ∈ (setPc w3 p (.testing (pidOf c))).dead) := by
      rintro ⟨h0, h1, h2⟩
      rcases hl h2 with h | h
      · exact h0 h
      · exact h1 h
    rw [if_neg hx]
  have s5 : setPc w4 p .idle = w := by
    have : (setPc w4 p .idle).pc = w.pc := by
      funext q
      show (if q = p then PC.idle else if q = p then _ else if q = p then _ else if q = p then _ else if q = p then _ else w.pc q) = w.pc q
      by_cases e : q = p
      · rw [if_pos e, hi q]
      · simp only [if_neg e]
    show (⟨w.name, w.files, w.dead, (setPc w4 p .idle).pc, w.count⟩ : W) = w
    rw [this]
  show run w (.lock p :: List.replicate 8 (.step p)) = w
  rw [run_cons, e0]
  show run w1 [.step p, .step p, .step p, .step p, .step p, .step p, .step p, .step p] = w
  rw [run_cons, ev w1 hd, s1, run_cons, ev w2 hd, s2, run_cons, ev w3 hd, s3, run_cons, ev w4 hd, s4, s5]
  exact hst 4 w hd (hi p)

/-- C91: `lock` by the process that has the lock only counts, and so does `unlock` before the last; with the last, and when the object is deleted, the
    lock file goes away. `unlock` by a process that has not the lock does nothing. -/
theorem C91_nested (w : W) (p n : Nat) (hd : (p : Int) ∉ w.dead) (hi : ∀ q, w.pc q = .idle) (hc : w.count p = n) :
    (0 < n → run w [.lock p] = setCount w p (n + 1)) ∧
    (1 < n → run w [.unlock p] = setCount w p (n - 1)) ∧
    (n = 1 → run w [.unlock p, .step p] = { w with name := none, count := fun q => if q = p then 0 else w.count q }) ∧
    (0 < n → run w [.destroy p, .step p] = { w with name := none, count := fun q => if q = p then 0 else w.count q }) ∧
    (n = 0 → run w [.unlock p] = w ∧ run w [.destroy p] = w) := by
  have ev : ∀ w' : W, w'.dead = w.dead → event w' (.step p) = step w' p := by
    intro w' h; unfold event; rw [if_neg (show ¬ ((Ev.step p).pid : Int) ∈ w'.dead from by rw [h]; exact hd)]
  have hrel : event (setPc (setCount w p 0) p .unlinking) (.step p) = { w with name := none, count := fun q => if q = p then 0 else w.count q } := by
    rw [ev (setPc (setCount w p 0) p .unlinking) rfl]
    have : step (setPc (setCount w p 0) p .unlinking) p = setPc { (setPc (setCount w p 0) p .unlinking) with name := none } p .idle := by
      unfold step
      rw [show (setPc (setCount w p 0) p .unlinking).pc p = .unlinking from if_pos rfl]
    rw [this]
    have hpc : (setPc { (setPc (setCount w p 0) p .unlinking) with name := none } p .idle).pc = w.pc := by
      funext q
      show (if q = p then PC.idle else if q = p then _ else w.pc q) = w.pc q
      by_cases e : q = p
      · rw [if_pos e, hi q]
      · rw [if_neg e, if_neg e]
    show (⟨none, w.files, w.dead, (setPc { (setPc (setCount w p 0) p .unlinking) with name := none } p .idle).pc, _⟩ : W) = _
    rw [hpc]; rfl
  refine ⟨?_, ?_, ?_, ?_, ?_⟩
  · intro hn
    show event w (.lock p) = _
    unfold event; rw [if_neg (show ¬ ((Ev.lock p).pid : Int) ∈ w.dead from hd)]; simp only
    rw [if_pos (hi p), if_pos (by omega), hc]
  · intro hn
    show event w (.unlock p) = _
    unfold event; rw [if_neg (show ¬ ((Ev.unlock p).pid : Int) ∈ w.dead from hd)]; simp only
    rw [if_pos (hi p), if_neg (by omega), if_neg (by omega), hc]
  · intro hn
    show event (event w (.unlock p)) (.step p) = _
    have : event w (.unlock p) = setPc (setCount w p 0) p .unlinking := by
      unfold event; rw [if_neg (show ¬ ((Ev.unlock p).pid : Int) ∈ w.dead from hd)]; simp only
      rw [if_pos (hi p), if_neg (by omega), if_pos (by omega)]
    rw [this]; exact hrel
  · intro hn
    show event (event w (.destroy p)) (.step p) = _
    have : event w (.destroy p) = setPc (setCount w p 0) p .unlinking := by
      unfold event; rw [if_neg (show ¬ ((Ev.destroy p).pid : Int) ∈ w.dead from hd)]; simp only
      rw [if_pos ⟨hi p, by omega⟩]
    rw [this]; exact hrel
  · intro hn
    refine ⟨?_, ?_⟩
    · show event w (.unlock p) = _
      unfold event; rw [if_neg (show ¬ ((Ev.unlock p).pid : Int) ∈ w.dead from hd)]; simp only
      rw [if_pos (hi p), if_pos (by omega)]
    · show event w (.destroy p) = _
      unfold event; rw [if_neg (show ¬ ((Ev.destroy p).pid : Int) ∈ w.dead from hd)]; simp only
      rw [if_neg (by omega)]

/-- C91: two processes that find the same stale lock file may both get the lock. -/
theorem C91_stale_fails : ¬ Exclusive (run (start (some (text 3)) [3]) ([.lock 1, .lock 2] ++ List.replicate 4 (.step 1) ++
    List.replicate 4 (.step 2) ++ List.replicate 3 (.step 1) ++ List.replicate 3 (.step 2))).count := by
  intro h
  have h3 := pidOf_text 3 (by omega)
  have := h 1 2 (by simp [run, event, step, Ev.pid, List.replicate, setPc, setCount, start, create, h3])
    (by simp [run, event, step, Ev.pid, List.replicate, setPc, setCount, start, create, h3])
  omega

/-- C91: even when only process 1 finds a stale lock file: process 2 may create its own before process 1 creates the file again, and that this
    failed is not noticed. -/
theorem C91_recreate_fails : ¬ Exclusive (run (start (some (text 3)) [3]) ([.lock 1] ++ List.replicate 5 (.step 1) ++
    [.lock 2, .step 2, .step 2] ++ List.replicate 2 (.step 1))).count := by
  intro h
  have h3 := pidOf_text 3 (by omega)
  have := h 1 2 (by simp [run, event, step, Ev.pid, List.replicate, setPc, setCount, start, create, h3])
    (by simp [run, event, step, Ev.pid, List.replicate, setPc, setCount, start, create, h3])
  omega

/-- C91: no lock need ever be stale: if process 1 gives the lock back and ends while process 2 looks at its lock file, process 2 takes away the lock
    file of process 3. -/
theorem C91_exit_fails : ¬ Exclusive (run (start none []) ([.lock 1, .step 1, .step 1] ++ .lock 2 :: List.replicate 3 (.step 2) ++
    [.unlock 1, .step 1, .die 1] ++ [.lock 3, .step 3, .step 3] ++ List.replicate 4 (.step 2))).count := by
  intro h
  have h1 := pidOf_text 1 (by omega)
  have := h 2 3 (by simp [run, event, step, Ev.pid, List.replicate, setPc, setCount, start, create, h1])
    (by simp [run, event, step, Ev.pid, List.replicate, setPc, setCount, start, create, h1])
  omega

namespace LkD

/-- An empty lock file, and nobody who does anything about it. -/
structure Stuck (w : W) : Prop where
  name : w.name = some 0
  files : w.files = [[]]
  pc : ∀ q, w.pc q = .idle ∨ w.pc q = .creating ∨ w.pc q = .opening ∨ w.pc q = .reading 0 ∨ w.pc q = .testing 0
  count : ∀ q, w.count q = 0

theorem stuck_pc {w : W} (h : Stuck w) (p : Nat) (c : PC) (hc : c = .idle ∨ c = .creating ∨ c = .opening ∨ c = .reading 0 ∨ c = .testing 0) :
    Stuck (setPc w p c) := by
  refine ⟨h.name, h.files, fun q => ?_, h.count⟩
  rw [pc_set]
  split
  · exact hc
  · exact h.pc q

theorem stuck_event {w : W} (h : Stuck w) (e : Ev) : Stuck (event w e) := by
  unfold event
  split
  · exact h
  · cases e with
    | lock p =>
      simp only [h.count p]
      split
      · rw [if_neg (by omega)]; exact stuck_pc h p _ (by simp)
      · exact h
    | unlock p =>
      simp only [h.count p]
      split
      · exact h
      · exact h
    | destroy p =>
      simp only [h.count p]
      rw [if_neg (by omega)]; exact h
    | step p =>
      simp only
      unfold step
      rcases h.pc p with hc | hc | hc | hc | hc <;> rw [hc] <;> simp only [h.name]
      · exact h
      · exact stuck_pc h p _ (by simp)
      · exact stuck_pc h p _ (by simp)
      · rw [h.files]; exact stuck_pc h p _ (by simp [pidOf])
      · simp only [ne_eq, not_true_eq_false, false_and, if_false]; exact stuck_pc h p _ (by simp)
    | die p =>
      refine ⟨h.name, h.files, fun q => ?_, fun q => ?_⟩
      · by_cases e : q = p
        · exact Or.inl (if_pos e)
        · have hq : (setCount (setPc { w with dead := p :: w.dead } p .idle) p 0).pc q = w.pc q := if_neg e
          show (setCount (setPc { w with dead := p :: w.dead } p .idle) p 0).pc q = _ ∨ (setCount (setPc { w with dead := p :: w.dead } p .idle) p 0).pc q = _ ∨
            (setCount (setPc { w with dead := p :: w.dead } p .idle) p 0).pc q = _ ∨ (setCount (setPc { w with dead := p :: w.dead } p .idle) p 0).pc q = _ ∨
            (setCount (setPc { w with dead := p :: w.dead } p .idle) p 0).pc q = _
          rw [hq]; exact h.pc q
      · show (if q = p then 0 else w.count q) = 0
        split
        · rfl
        · exact h.count q

theorem stuck_run (l : List Ev) : ∀ w : W, Stuck w → Stuck (run w l) := by
  induction l with
  | nil => intro w h; exact h
  | cons e l ih => intro w h; exact ih _ (stuck_event h e)

end LkD

/-- C91: a process that dies after it created the file and before it wrote its number leaves a lock nobody can ever get. -/
theorem C91_crash_fails (p : Nat) (l : List Ev) (q : Nat) : (run (start none []) ((Call.lockDie p 1).events ++ l)).count q = 0 := by
  rw [run_append]
  refine (stuck_run l _ ⟨?_, ?_, fun r => Or.inl ?_, fun r => ?_⟩).count q <;>
    simp +contextual [run, event, step, Ev.pid, Call.events, List.replicate, setPc, setCount, start, create]

/-! ### Cases -/

-- Process 1 has the lock, process 2 tries, process 1 gives it back, process 2 gets it.
example : (run (start none []) ([.lock 1, .step 1, .step 1, .lock 1] ++ .lock 2 :: List.replicate 4 (.step 2) ++ [.unlock 1, .unlock 1, .step 1] ++
    [.lock 2, .step 2, .step 2])).count 2 = 1 := by
  have h1 := pidOf_text 1 (by omega)
  simp [run, event, step, Ev.pid, List.replicate, setPc, setCount, start, create, h1]

-- A process dies with the lock; another one gets it.
example : (run (start none []) ([Call.lock 1, .die 1, .lock 2].flatMap Call.events)).count 2 = 1 := by
  have h1 := pidOf_text 1 (by omega)
  simp [run, event, step, Ev.pid, List.replicate, setPc, setCount, start, create, h1, Call.events]

-- What `C91_available` and `C91_refused` assume.
example : (start (some (text 3)) [3]).name = some 0 ∧ (start (some (text 3)) [3]).files[0]? = some (text 3) ∧ pidOf (text 3) ∈ [(3 : Int)] := by
  rw [pidOf_text 3 (by omega)]; exact ⟨rfl, rfl, by decide⟩

end Props
