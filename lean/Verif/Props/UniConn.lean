import Verif.Props.Tcl
import Verif.Model.UniConn
import Verif.Spec.UniConn
import Verif.Lemmas.KeyOrder
/- C50: messages between UniConf clients and daemons. -/
namespace Props
open Wv Wv.Tcl Wv.UniConn Spec.UniConn

namespace Uc

/-- The receiving program: it asks for a command at any time, and when it gets one it reads all arguments. The second
    component records what it got. -/
def step (s : Conn × List (Got × List (List Byte))) : Op → Conn × List (Got × List (List Byte))
  | .arrive b => (arrive s.1 b, s.2)
  | .read =>
    let r := readcmd s.1
    (r.2.2, if r.1 = .none then s.2 else s.2 ++ [(r.1, args r.2.2)])

/-- A program starting on a new connection. -/
def run (ops : List Op) : Conn × List (Got × List (List Byte)) := ops.foldl step ({}, [])

/-- All that is written for a list of messages. -/
def wire (ms : List Msg) : List Byte := ms.flatMap fun m => writecmd m.1 (payload m.2)

def tail (as : List (List Byte)) : List Byte := as.flatMap fun a => 32 :: escape spaces a
def body (m : Msg) : List Byte := name m.1 ++ tail m.2

theorem payload_cons (a : List Byte) (as : List (List Byte)) :
    payload (a :: as) = some (escape spaces a ++ tail as) := by
  induction as generalizing a with
  | nil => simp [payload, tail]
  | cons b bs ih =>
    rw [payload, ih b]
    · simp [spacecat, tail]
    · simp

theorem writecmd_body (m : Msg) : writecmd m.1 (payload m.2) = body m ++ [10] := by
  obtain ⟨c, as⟩ := m
  cases as with
  | nil => simp [payload, writecmd, body, tail]
  | cons a as => simp [payload_cons, writecmd, body, tail]

theorem splits_nl : Splits spaces newlines := by
  intro c hc
  simp [newlines] at hc
  rcases hc with rfl | rfl <;> decide

theorem name_clean (c : Command) : ∀ x ∈ name c, doit spaces x = false := by
  revert c; decide +kernel

theorem name_ne (c : Command) : name c ≠ [] := by
  revert c; decide +kernel

theorem name_nul (c : Command) : 0 ∉ name c := by
  revert c; decide +kernel

theorem name_escape (c : Command) : escape spaces (name c) = name c := by
  revert c; decide +kernel

theorem name_waits (c : Command) : waits spaces (name c) = false := by
  revert c; decide +kernel

theorem lookup_name (c : Command) : lookup (name c) = .cmd c := by
  revert c; decide +kernel

/-- scanning the arguments of a message -/
theorem gwLoop_tail (as : List (List Byte)) (r : List Byte) (b : Bool) :
    ∃ b', gwLoop newlines { incontinuation := b } (tail as ++ r) =
      pre (tail as) (gwLoop newlines { incontinuation := b' } r) := by
  induction as generalizing b with
  | nil => exact ⟨b, by simp [tail, pre]⟩
  | cons a as ih =>
    obtain ⟨b', h⟩ := ih (waits spaces a)
    refine ⟨b', ?_⟩
    have e : tail (a :: as) ++ r = 32 :: (escape spaces a ++ (tail as ++ r)) := by simp [tail]
    rw [e, gwLoop]
    simp only [show ((32 : Byte) == 92) = false by decide, show ((32 : Byte) == 34) = false by decide,
      show ((32 : Byte) == 123) = false by decide, show ((32 : Byte) == 125) = false by decide,
      show newlines.contains (32 : Byte) = false by decide, Bool.false_eq_true, if_false, Bool.and_false]
    have h2 := gwLoop_escape splits_nl a (tail as ++ r)
    rw [h2, h]
    simp [pre, tail]

/-- scanning a message -/
theorem gwLoop_body (m : Msg) (r : List Byte) :
    gwLoop newlines {} (body m ++ 10 :: r) = ({}, body m, 10 :: r) := by
  have h1 := gwLoop_clean splits_nl (name m.1) (tail m.2 ++ 10 :: r) (name_clean m.1)
  obtain ⟨b, h2⟩ := gwLoop_tail m.2 (10 :: r) false
  have e : body m ++ 10 :: r = name m.1 ++ (tail m.2 ++ 10 :: r) := by simp [body]
  rw [e, h1, h2]
  have h3 : gwLoop newlines { incontinuation := b } (10 :: r) = ({}, [], 10 :: r) := by
    rw [gwLoop]; simp [newlines]
  rw [h3]
  simp [pre, body]

/-- a newline that is inside a word leaves the scanner waiting for more -/
theorem gwLoop_inside {split : Mask} (h10 : split.contains 10 = true) (P Q X : List Byte) : ∀ g : GW,
    g.inquote = false → (gwLoop split g (P ++ 10 :: Q)).2.1 = P ++ 10 :: X →
    (gwLoop split g (P ++ [10])).2.1 = P ++ [10] ∧ (gwLoop split g (P ++ [10])).2.2 = [] ∧
    ((gwLoop split g (P ++ [10])).1.bracecount ≠ 0 ∨ (gwLoop split g (P ++ [10])).1.incontinuation = true) := by
  induction P with
  | nil =>
    intro g hq h
    simp only [List.nil_append] at h ⊢
    rw [gwLoop] at h
    rw [gwLoop]
    simp only [hq, h10] at h ⊢
    by_cases hi : g.inescape = true
    · simp [hi, gwLoop]
    · by_cases hb : g.bracecount = 0
      · simp [hi, hb] at h
      · simp [hi, hb, gwLoop]
  | cons c P ih =>
    intro g hq h
    simp only [List.cons_append] at h ⊢
    rw [gwLoop] at h
    rw [gwLoop]
    simp only [hq] at h ⊢
    by_cases hi : g.inescape = true
    · simp only [hi, if_true] at h ⊢
      have := ih _ (by rfl) (List.cons.inj h).2
      simpa using this
    · simp only [hi, Bool.false_eq_true, if_false] at h ⊢
      by_cases h92 : (c == 92) = true
      · simp only [h92, if_true] at h ⊢
        have := ih _ (by rfl) (List.cons.inj h).2
        simpa using this
      · simp only [h92, Bool.false_eq_true, if_false, Bool.and_false, Bool.false_and, Bool.not_false, Bool.true_and,
          Bool.and_true] at h ⊢
        by_cases hs : (g.bracecount == 0 && split.contains c) = true
        · rw [if_pos hs] at h
          simp at h
        · rw [if_neg hs] at h ⊢
          by_cases h123 : (c == 123) = true
          · simp only [h123, if_true] at h ⊢
            have := ih _ (by rfl) (List.cons.inj h).2
            simpa using this
          · simp only [h123, Bool.false_eq_true, if_false] at h ⊢
            by_cases h125 : (decide (g.bracecount > 0) && c == 125) = true
            · simp only [h125, if_true] at h ⊢
              have := ih _ (by rfl) (List.cons.inj h).2
              simpa using this
            · simp only [h125, Bool.false_eq_true, if_false] at h ⊢
              have := ih _ (by rfl) (List.cons.inj h).2
              simpa using this

theorem body_head (m : Msg) : ∃ c cs, body m = c :: cs ∧ c ≠ 34 ∧ newlines.contains c = false := by
  have h : ∀ c : Command, ∃ x xs, name c = x :: xs ∧ x ≠ 34 ∧ newlines.contains x = false := by
    intro c
    cases hn : name c with
    | nil => exact absurd hn (name_ne c)
    | cons x xs =>
      have h1 := doit_false (name_clean c x (by rw [hn]; simp))
      refine ⟨x, xs, rfl, by simpa using h1.2.2.2.1, ?_⟩
      cases hx : newlines.contains x
      · rfl
      · have := (splits_nl x hx).1
        simp_all
  obtain ⟨x, xs, h1, h2, h3⟩ := h m.1
  exact ⟨x, xs ++ tail m.2, by simp [body, h1], h2, h3⟩

/-- a whole message in the buffer -/
theorem getword_body (lead : List Byte) (hl : ∀ c ∈ lead, newlines.contains c = true) (m : Msg) :
    getword newlines false (lead ++ (body m ++ [10])) = some (body m, [10]) := by
  unfold getword
  rw [dropWhile_leading lead _ hl]
  obtain ⟨c, cs, hb, h34, hn⟩ := body_head m
  have h1 := gwLoop_body m []
  unfold getwordRaw
  have e : (body m ++ [10]).dropWhile newlines.contains = c :: (cs ++ [10]) := by
    rw [hb, List.cons_append, List.dropWhile_cons, hn]
    simp
  rw [e]
  rw [hb] at h1 ⊢
  simp only [List.cons_append] at h1
  simp [h34, h1]

/-- the first lines of a message in the buffer -/
theorem getword_inside (lead : List Byte) (hl : ∀ c ∈ lead, newlines.contains c = true) (m : Msg) (P Q : List Byte)
    (h : body m = P ++ 10 :: Q) : getword newlines false (lead ++ (P ++ [10])) = none := by
  unfold getword
  rw [dropWhile_leading lead _ hl]
  obtain ⟨c, cs, hb, h34, hn⟩ := body_head m
  have h1 := gwLoop_body m []
  rw [h] at h1
  have h2 := gwLoop_inside (split := newlines) (by decide) P (Q ++ 10 :: []) Q {} rfl (by
    rw [List.append_assoc, List.cons_append] at h1; rw [h1])
  obtain ⟨p, ps, hp⟩ : ∃ p ps, P ++ [10] = p :: ps := by cases P <;> simp
  have hpc : p = c := by
    have h3 : p :: (ps ++ Q) = c :: cs := by
      rw [← hb, h, ← List.cons_append, ← hp]; simp
    exact (List.cons.inj h3).1
  subst hpc
  unfold getwordRaw
  rw [hp] at h2 ⊢
  rw [List.dropWhile_cons, hn]
  simp only [Bool.false_eq_true, if_false, beq_iff_eq, h34]
  rcases h2.2.2 with h3 | h3
  · simp [h3]
  · simp [h3]

theorem getword_lead_none (lead : List Byte) (hl : ∀ c ∈ lead, newlines.contains c = true) :
    getword newlines false lead = none := by
  unfold getword
  have := dropWhile_leading lead [] hl
  rw [List.append_nil] at this
  rw [this]
  simp [getwordRaw]

theorem backslashes_mem {n : Mask} {s : List Byte} {c : Byte} (h : c ∈ backslashes n s) : c ∈ s ∨ c = 92 := by
  induction s with
  | nil => simp [backslashes] at h
  | cons x xs ih =>
    unfold backslashes at h
    split at h
    · simp only [List.mem_cons] at h
      rcases h with h | h | h
      · exact Or.inr h
      · simp [h]
      · rcases ih h with h | h <;> simp [h]
    · simp only [List.mem_cons] at h
      rcases h with h | h
      · simp [h]
      · rcases ih h with h | h <;> simp [h]

theorem escape_mem {n : Mask} {s : List Byte} {c : Byte} (h : c ∈ escape n s) : c ∈ s ∨ c = 92 ∨ c = 123 ∨ c = 125 := by
  rcases escape_cases n s with ⟨h0, he⟩ | ⟨h0, hc, he⟩ | ⟨h0, hb, he⟩ | ⟨h0, hb, he⟩
  · rw [he] at h; simp at h; rcases h with h | h <;> simp [h]
  · rw [he] at h; exact Or.inl h
  · rw [he] at h; rcases backslashes_mem h with h | h <;> simp [h]
  · rw [he] at h; simp at h; rcases h with h | h | h <;> simp [h]

theorem body_nul {m : Msg} (h : CStrings m) : 0 ∉ body m := by
  intro h0
  simp only [body, tail, List.mem_append, List.mem_flatMap, List.mem_cons] at h0
  rcases h0 with h0 | ⟨a, ha, h0 | h0⟩
  · exact name_nul _ h0
  · simp at h0
  · rcases escape_mem h0 with h1 | h1 | h1 | h1
    · exact h a ha h1
    all_goals simp at h1

theorem takeWhile_all {p : Byte → Bool} {l : List Byte} (h : ∀ x ∈ l, p x = true) : l.takeWhile p = l := by
  induction l with
  | nil => rfl
  | cons x xs ih =>
    rw [List.takeWhile_cons, h x (by simp), if_pos rfl, ih fun y hy => h y (by simp [hy])]

/-- the first line of some bytes -/
theorem first_line (l rest : List Byte) (h : 10 ∉ l) :
    (l ++ 10 :: rest).takeWhile (· != 10) = l ∧ ((l ++ 10 :: rest).dropWhile (· != 10)).drop 1 = rest := by
  have hp : ∀ a ∈ l, (a != 10) = true := fun a ha => by
    simp only [bne_iff_ne]; exact fun h0 => h (h0 ▸ ha)
  constructor
  · rw [List.takeWhile_append_of_pos hp]; simp
  · rw [List.dropWhile_append_of_pos hp]; simp

theorem split_line (l : List Byte) (h : 10 ∈ l) : ∃ a b, l = a ++ 10 :: b ∧ 10 ∉ a := by
  induction l with
  | nil => simp at h
  | cons x xs ih =>
    by_cases hx : x = 10
    · exact ⟨[], xs, by simp [hx], by simp⟩
    · obtain ⟨a, b, h1, h2⟩ := ih (by simpa [Ne.symm hx] using h)
      exact ⟨x :: a, b, by simp [h1], by simp [Ne.symm hx, h2]⟩

theorem line_unique {a b c d : List Byte} (ha : 10 ∉ a) (hc : 10 ∉ c) (h : a ++ 10 :: b = c ++ 10 :: d) :
    a = c ∧ b = d := by
  have h1 := first_line a b ha
  have h2 := first_line c d hc
  rw [h] at h1
  exact ⟨h1.1.symm.trans h2.1, h1.2.symm.trans h2.2⟩

/-- complete lines at the start of the message `m`, fewer than all -/
def Lines (m : Msg) (L B : List Byte) : Prop := L ++ B = body m ∧ (L = [] ∨ ∃ P, L = P ++ [10])

/-- What holds between calls: the messages `ms` have not been given to the program, the bytes `future` have not
    arrived. -/
def Inv (ms : List Msg) (future : List Byte) (c : Conn) : Prop :=
  c.closed = false ∧ ∃ lead L, (∀ x ∈ lead, newlines.contains x = true) ∧ c.msgbuf = lead ++ L ∧
    L ++ (c.inbuf ++ future) = wire ms ∧
    (L = [] ∨ ∃ m ms' P Q, ms = m :: ms' ∧ L = P ++ [10] ∧ body m = P ++ 10 :: Q)

theorem readmsg_inv (future : List Byte) (ms : List Msg) (hc : ∀ m ∈ ms, CStrings m) : ∀ (n : Nat) (c : Conn),
    c.inbuf.length = n → Inv ms future c →
    ((readmsg c).1 = none ∧ Inv ms future (readmsg c).2 ∧
      (∀ m ms', ms = m :: ms' → future.length > (wire ms').length)) ∨
    (∃ m ms', ms = m :: ms' ∧ (readmsg c).1 = some (body m) ∧ Inv ms' future (readmsg c).2) := by
  intro n
  induction n using Nat.strongRecOn with
  | _ n ih =>
  intro c hn ⟨hcl, lead, L, hl, hm, hw, hL⟩
  have hnone : getword newlines false c.msgbuf = none := by
    rw [hm]
    rcases hL with rfl | ⟨m, ms', P, Q, -, rfl, hb⟩
    · rw [List.append_nil]; exact getword_lead_none lead hl
    · exact getword_inside lead hl m P Q hb
  rw [readmsg, hnone]
  simp only
  by_cases h10 : 10 ∈ c.inbuf
  · obtain ⟨l, rest, hin, hl10⟩ := split_line c.inbuf h10
    have hgl : getline c = some (l, rest) := by
      unfold getline
      rw [if_pos (by simpa using h10), hin, (first_line l rest hl10).1, (first_line l rest hl10).2]
    rw [hgl]
    simp only
    -- the message these lines belong to
    obtain ⟨m, ms', hms⟩ : ∃ m ms', ms = m :: ms' := by
      cases ms with
      | nil =>
        have := congrArg List.length hw
        rw [hin] at this
        simp [wire] at this
      | cons m ms' => exact ⟨m, ms', rfl⟩
    have hmb : body m ++ 10 :: wire ms' = wire ms := by
      rw [hms]; simp [wire, writecmd_body]
    obtain ⟨B, hB⟩ : ∃ B, body m = L ++ B := by
      rcases hL with rfl | ⟨m', ms'', P, Q, h1, rfl, hb⟩
      · exact ⟨body m, by simp⟩
      · rw [hms] at h1
        obtain ⟨rfl, rfl⟩ := List.cons.inj h1
        exact ⟨Q, by rw [hb]; simp⟩
    have hrest : l ++ 10 :: (rest ++ future) = B ++ 10 :: wire ms' := by
      have h1 : L ++ (l ++ 10 :: (rest ++ future)) = L ++ (B ++ 10 :: wire ms') := by
        rw [← List.append_assoc L B, ← hB, hmb, ← hw, hin]; simp
      exact List.append_cancel_left h1
    have hnul : 0 ∉ body m := body_nul (hc m (by rw [hms]; simp))
    have hlB : ∀ x ∈ l, x ∈ body m := by
      by_cases hb10 : 10 ∈ B
      · obtain ⟨a, b, h1, h2⟩ := split_line B hb10
        rw [h1, List.append_assoc, List.cons_append] at hrest
        have := (line_unique hl10 h2 hrest).1
        intro x hx
        rw [hB, h1, ← this]; simp [hx]
      · have := (line_unique hl10 hb10 hrest).1
        intro x hx
        rw [hB, ← this]; simp [hx]
    have hcs : l.takeWhile (· != 0) = l := takeWhile_all fun x hx => by
      simp only [bne_iff_ne]
      exact fun h0 => hnul (h0 ▸ hlB x hx)
    rw [hcs]
    by_cases hb10 : 10 ∈ B
    · -- more lines are needed
      obtain ⟨a, b, h1, h2⟩ := split_line B hb10
      rw [h1, List.append_assoc, List.cons_append] at hrest
      obtain ⟨rfl, h3⟩ := line_unique hl10 h2 hrest
      have hlt : rest.length < n := by rw [← hn, hin]; simp; omega
      have hI : Inv ms future { c with msgbuf := c.msgbuf ++ (l ++ [10]), inbuf := rest } := by
        refine ⟨hcl, lead, L ++ (l ++ [10]), hl, by simp [hm], ?_, Or.inr ⟨m, ms', L ++ l, b, hms, by simp, ?_⟩⟩
        · rw [← hw, hin]; simp
        · rw [hB, h1]; simp
      exact ih rest.length hlt _ rfl hI
    · -- the message is complete
      obtain ⟨rfl, h3⟩ := line_unique hl10 hb10 hrest
      right
      have hg : getword newlines false (c.msgbuf ++ (l ++ [10])) = some (body m, [10]) := by
        rw [hm, hB]
        have := getword_body lead hl m
        rw [hB] at this
        simpa using this
      refine ⟨m, ms', hms, ?_, ?_⟩
      · rw [readmsg]; simp only [hg]
      · rw [readmsg]; simp only [hg]
        exact ⟨hcl, [10], [], by decide, by simp, by simpa using h3, Or.inl rfl⟩
  · have hgl : getline c = none := by
      unfold getline
      rw [if_neg (by simpa using h10), hcl]
      simp
    rw [hgl]
    simp only [hcl, Bool.false_eq_true, if_false]
    refine Or.inl ⟨trivial, ⟨hcl, lead, L, hl, hm, hw, hL⟩, ?_⟩
    intro m ms' hms
    have hmb : body m ++ 10 :: wire ms' = wire ms := by
      rw [hms]; simp [wire, writecmd_body]
    obtain ⟨B, hB⟩ : ∃ B, body m = L ++ B := by
      rcases hL with rfl | ⟨m', ms'', P, Q, h1, rfl, hb⟩
      · exact ⟨body m, by simp⟩
      · rw [hms] at h1
        obtain ⟨rfl, rfl⟩ := List.cons.inj h1
        exact ⟨Q, by rw [hb]; simp⟩
    have hrest : c.inbuf ++ future = B ++ 10 :: wire ms' := by
      have h1 : L ++ (c.inbuf ++ future) = L ++ (B ++ 10 :: wire ms') := by
        rw [← List.append_assoc L B, ← hB, hmb, ← hw]
      exact List.append_cancel_left h1
    refine Decidable.byContradiction fun hlt => ?_
    have hlen := congrArg List.length hrest
    simp only [List.length_append, List.length_cons] at hlen
    have h10' : (10 : Byte) ∈ (c.inbuf ++ future).take c.inbuf.length := by
      rw [hrest]
      rw [List.take_append]
      rw [List.mem_append]
      right
      obtain ⟨k, hk⟩ : ∃ k, c.inbuf.length - B.length = k + 1 := ⟨c.inbuf.length - B.length - 1, by omega⟩
      rw [hk]; simp
    rw [List.take_left' rfl] at h10'
    exact h10 h10'

theorem readmsg_word {c : Conn} {w r : List Byte} (h : getword newlines false c.msgbuf = some (w, r)) :
    readmsg c = (some w, { c with msgbuf := r }) := by
  rw [readmsg]; simp only [h]

theorem readmsg_line {c : Conn} {l rest : List Byte} (h : getword newlines false c.msgbuf = none)
    (h2 : getline c = some (l, rest)) :
    readmsg c = readmsg { c with msgbuf := c.msgbuf ++ (l.takeWhile (· != 0) ++ [10]), inbuf := rest } := by
  rw [readmsg]; simp only [h]
  split
  · rename_i h3
    rw [h2] at h3
    simp only [Option.some.injEq, Prod.mk.injEq] at h3
    rw [h3.1, h3.2]
  · rename_i h3
    rw [h2] at h3
    simp at h3

theorem tail_eq (as : List (List Byte)) : as ≠ [] → tail as = 32 :: encode spaces spaces as := by
  induction as with
  | nil => intro h; contradiction
  | cons a as ih =>
    intro _
    cases as with
    | nil => simp [tail, encode]
    | cons b bs =>
      have h1 : tail (a :: b :: bs) = 32 :: (escape spaces a ++ tail (b :: bs)) := by simp [tail]
      have h2 : encode spaces spaces (a :: b :: bs) = escape spaces a ++ 32 :: encode spaces spaces (b :: bs) := by
        rw [encode]
        · rfl
        · simp
      rw [h1, ih (by simp), h2]

/-- what `readarg` makes of the arguments -/
theorem decode_tail (as : List (List Byte)) : decode spaces true (tail as) = withoutBadEnd as := by
  have hbad : ∀ a : List Byte, (Spec.Tcl.balanced 0 false a = false ∧ a.getLast? = some 10) ↔ Spec.Tcl.badEnd spaces a := by
    intro a
    unfold Spec.Tcl.badEnd
    simp [spaces]
  cases has : as with
  | nil =>
    rw [decode_none]
    · simp [withoutBadEnd]
    · simp [tail, getword, getwordRaw]
  | cons a0 as0 =>
    rw [← has]
    have hne : as ≠ [] := by rw [has]; simp
    rw [tail_eq as hne, decode_lead (by decide)]
    unfold withoutBadEnd
    rw [List.getLast?_eq_some_getLast hne]
    simp only
    split
    · rename_i h
      have h1 := C16_list_last_word_lost spaces spaces separators_default (by decide) as.dropLast (as.getLast hne)
        ((hbad _).mp h)
      rw [List.dropLast_concat_getLast] at h1
      exact h1
    · rename_i h
      refine C16_list_roundtrip_partial spaces spaces separators_default (by decide) as fun w hw => ?_
      rw [List.getLast?_eq_some_getLast hne] at hw
      obtain rfl := Option.some.inj hw
      exact fun hb => h ((hbad _).mpr hb)

/-- the command in a message -/
theorem getword_name (m : Msg) : getword spaces true (body m) = some (name m.1, tail m.2) := by
  have hsp := splits_of_separators separators_default
  unfold getword
  by_cases has : m.2 = []
  · have h1 := getwordRaw_escape_end hsp (name m.1)
    rw [name_escape, name_waits] at h1
    have h2 := unescape_escape spaces (name m.1)
    rw [name_escape] at h2
    simp [body, tail, has, h1, h2]
  · have h1 := getwordRaw_escape_sep hsp (name m.1) 32 (encode spaces spaces m.2) (by decide)
    have h2 := unescape_escape spaces (name m.1)
    rw [name_escape] at h1 h2
    have h3 : body m = name m.1 ++ 32 :: encode spaces spaces m.2 := by rw [body, tail_eq _ has]
    rw [h3, h1, tail_eq _ has]
    simp [h2]

theorem inv_payload {ms : List Msg} {future : List Byte} {c : Conn} (p : List Byte) (h : Inv ms future c) :
    Inv ms future { c with payloadbuf := p } := h

theorem readcmd_inv (future : List Byte) (ms : List Msg) (hc : ∀ m ∈ ms, CStrings m) (c : Conn) (h : Inv ms future c) :
    ((readcmd c).1 = .none ∧ Inv ms future (readcmd c).2.2 ∧
      (∀ m ms', ms = m :: ms' → future.length > (wire ms').length)) ∨
    (∃ m ms', ms = m :: ms' ∧ (readcmd c).1 = .cmd m.1 ∧ args (readcmd c).2.2 = withoutBadEnd m.2 ∧
      Inv ms' future (readcmd c).2.2) := by
  unfold readcmd
  rcases readmsg_inv future ms hc _ c rfl h with ⟨h1, h2, h3⟩ | ⟨m, ms', hms, h1, h2⟩
  · left
    rcases hr : readmsg c with ⟨_ | x, c'⟩
    · rw [hr] at h2; exact ⟨rfl, h2, h3⟩
    · rw [hr] at h1; simp at h1
  · right
    rcases hr : readmsg c with ⟨_ | x, c'⟩
    · rw [hr] at h1; simp at h1
    · rw [hr] at h1 h2
      simp only [Option.some.injEq] at h1
      subst h1
      refine ⟨m, ms', hms, ?_⟩
      simp only [readarg, getword_name, lookup_name, args, decode_tail]
      exact ⟨trivial, trivial, h2⟩

theorem arrive_inv {ms : List Msg} {b future : List Byte} {c : Conn} (h : Inv ms (b ++ future) c) :
    Inv ms future (arrive c b) := by
  obtain ⟨hcl, lead, L, hl, hm, hw, hL⟩ := h
  exact ⟨hcl, lead, L, hl, hm, by rw [← hw]; simp [arrive], hL⟩

/-- what the program has got -/
abbrev result (m : Msg) : Got × List (List Byte) := (.cmd m.1, withoutBadEnd m.2)

theorem run_inv (ops : List Op) : ∀ (s : Conn × List (Got × List (List Byte))) (ms : List Msg) (future : List Byte),
    (∀ m ∈ ms, CStrings m) → Inv ms (arrived ops ++ future) s.1 →
    ∃ done rest, ms = done ++ rest ∧ (ops.foldl step s).2 = s.2 ++ done.map result ∧
      Inv rest future (ops.foldl step s).1 := by
  induction ops with
  | nil => intro s ms future _ h; exact ⟨[], ms, rfl, by simp, by simpa [arrived] using h⟩
  | cons op ops ih =>
    intro s ms future hc h
    cases op with
    | arrive b =>
      have h1 : Inv ms (arrived ops ++ future) (step s (.arrive b)).1 :=
        arrive_inv (by simpa [arrived] using h)
      exact ih _ ms future hc h1
    | read =>
      have h0 : Inv ms (arrived ops ++ future) s.1 := h
      rcases readcmd_inv _ ms hc s.1 h0 with ⟨h1, h2, -⟩ | ⟨m, ms', hms, h1, h2, h3⟩
      · obtain ⟨done, rest, e1, e2, e3⟩ := ih (step s .read) ms future hc h2
        refine ⟨done, rest, e1, ?_, e3⟩
        rw [List.foldl_cons, e2]
        simp [step, h1]
      · obtain ⟨done, rest, e1, e2, e3⟩ := ih (step s .read) ms' future
          (fun m hm => hc m (by rw [hms]; simp [hm])) h3
        refine ⟨m :: done, rest, by rw [hms, e1]; rfl, ?_, e3⟩
        rw [List.foldl_cons, e2]
        simp [step, h1, h2, result]

theorem messages (ms : List Msg) (hc : ∀ m ∈ ms, CStrings m) (ops : List Op) (future : List Byte)
    (h : arrived ops ++ future = wire ms) :
    ∃ done rest, ms = done ++ rest ∧ (run ops).2 = done.map result ∧
      ∀ m rest', rest = m :: rest' → (wire (done ++ [m])).length ≤ (arrived ops).length →
        (run (ops ++ [.read])).2 = (done ++ [m]).map result := by
  have h0 : Inv ms (arrived ops ++ future) (({} : Conn), ([] : List (Got × List (List Byte)))).1 :=
    ⟨rfl, [], [], by simp, rfl, by simpa using h, Or.inl rfl⟩
  obtain ⟨done, rest, e1, e2, e3⟩ := run_inv ops _ ms future hc h0
  refine ⟨done, rest, e1, by simpa [run] using e2, ?_⟩
  intro m rest' hr hlen
  have hrun : run (ops ++ [.read]) = step (run ops) .read := by simp [run, List.foldl_append]
  rw [hrun]
  rcases readcmd_inv future rest (fun x hx => hc x (by rw [e1]; simp [hx])) (run ops).1 e3 with
    ⟨-, -, h3⟩ | ⟨m', ms', hms, h1, h2, -⟩
  · exfalso
    have h4 := h3 m rest' hr
    have h5 := congrArg List.length h
    rw [e1, hr] at h5
    simp only [wire, List.flatMap_append, List.flatMap_cons, List.length_append, List.flatMap_nil, List.length_nil] at h5 hlen h4
    omega
  · rw [hr] at hms
    obtain ⟨rfl, rfl⟩ := List.cons.inj hms
    have e2' : (run ops).2 = done.map result := by simpa [run] using e2
    simp [step, h1, h2, e2', result]

end Uc

/-- C50 (every message): whatever is written, however the network cuts the bytes into pieces, and whenever the receiving
    program asks, it gets the messages in their order, each command with its arguments, except that a last argument with
    unmatched braces and a newline at its end is lost. A message that has arrived in full is there at the next
    request. -/
theorem C50_messages (ms : List Msg) (hc : ∀ m ∈ ms, CStrings m) (ops : List Op) (future : List Byte)
    (h : arrived ops ++ future = ms.flatMap fun m => writecmd m.1 (payload m.2)) :
    ∃ done rest, ms = done ++ rest ∧
      (Uc.run ops).2 = done.map (fun m => (.cmd m.1, withoutBadEnd m.2)) ∧
      ∀ m rest', rest = m :: rest' →
        ((done ++ [m]).flatMap fun m => writecmd m.1 (payload m.2)).length ≤ (arrived ops).length →
        (Uc.run (ops ++ [.read])).2 = (done ++ [m]).map (fun m => (.cmd m.1, withoutBadEnd m.2)) :=
  Uc.messages ms hc ops future h

/-- C50: the same for messages whose last argument does not both have unmatched braces and a newline at its end: they
    are read back as they were written. The full property has no such condition, and is false (see below). -/
theorem C50_framing_partial (ms : List Msg) (hc : ∀ m ∈ ms, CStrings m) (hg : ∀ m ∈ ms, GoodEnd m) (ops : List Op)
    (future : List Byte) (h : arrived ops ++ future = ms.flatMap fun m => writecmd m.1 (payload m.2)) :
    ∃ done rest, ms = done ++ rest ∧ (Uc.run ops).2 = done.map (fun m => (.cmd m.1, m.2)) ∧
      ∀ m rest', rest = m :: rest' →
        ((done ++ [m]).flatMap fun m => writecmd m.1 (payload m.2)).length ≤ (arrived ops).length →
        (Uc.run (ops ++ [.read])).2 = (done ++ [m]).map (fun m => (.cmd m.1, m.2)) := by
  obtain ⟨done, rest, e1, e2, e3⟩ := C50_messages ms hc ops future h
  have hw : ∀ m ∈ ms, withoutBadEnd m.2 = m.2 := by
    intro m hm
    have h1 := hg m hm
    unfold withoutBadEnd
    unfold GoodEnd at h1
    cases hl : m.2.getLast? with
    | none => rfl
    | some a => simp only; rw [if_neg (h1 a hl)]
  refine ⟨done, rest, e1, ?_, ?_⟩
  · rw [e2]
    refine List.map_congr_left fun m hm => ?_
    rw [hw m (by rw [e1]; simp [hm])]
  · intro m rest' hr hlen
    rw [e3 m rest' hr hlen]
    refine List.map_congr_left fun x hx => ?_
    rw [hw x (by rw [e1, hr]; simp at hx ⊢; rcases hx with hx | hx <;> simp [hx])]

/-- messages with newlines, unmatched braces, quotes, spaces and the empty string in them -/
example : let ms : List Msg := [(2, [str ['a', '\n', '}'], str ['"', ' ', '\\']]), (15, [[], str ['{', '\n'], str ['x', '\n']]), (7, [])]
    (∀ m ∈ ms, CStrings m) ∧ (∀ m ∈ ms, GoodEnd m) := by
  constructor
  · unfold CStrings; decide
  · intro m hm a ha
    simp at hm
    rcases hm with rfl | rfl | rfl <;> simp at ha <;> subst ha <;> decide

/-- C50 (names of commands): a command is known by its name in upper or lower case letters, and nothing else is a command. -/
theorem C50_any_case (w : List Byte) (c : Command) :
    lookup w = .cmd c ↔ w.map Spec.Path.lower = (name c).map Spec.Path.lower := by
  have hz : ∀ i : Command, (Key.strcasecmp (name i) w == 0) = true ↔ (name i).map Spec.Path.lower = w.map Spec.Path.lower := by
    intro i
    rw [beq_iff_eq, (Key.strcasecmp_lt (name i) w).2.1, Key.lower_eq]
  have hinj : ∀ i j : Command, (name i).map Spec.Path.lower = (name j).map Spec.Path.lower → i = j := by decide +kernel
  unfold lookup
  cases hf : (List.finRange 19).find? (fun i => Key.strcasecmp (name i) w == 0) with
  | none =>
    simp only [reduceCtorEq, false_iff]
    intro h
    exact List.find?_eq_none.mp hf c (List.mem_finRange c) ((hz c).mpr h.symm)
  | some i =>
    have h0 := List.find?_some (p := fun i => Key.strcasecmp (name i) w == 0) hf
    have h1 := (hz i).mp h0
    simp only [Got.cmd.injEq]
    constructor
    · rintro rfl; exact h1.symm
    · intro h; exact hinj i c (h1.trans h)

/-- `HCHILD` is `hchild`. -/
example : lookup (str ['H', 'c', 'h', 'i', 'L', 'D']) = .cmd 6 := (C50_any_case _ _).mpr (by decide +kernel)

/-- C50 is false for a value that has unmatched braces and ends with a newline: the daemon gets a `set` without its
    value, and the client gets no value. -/
theorem C50_newline_fails : ¬ ∀ m : Msg, CStrings m →
    (Uc.run [.arrive (writecmd m.1 (payload m.2)), .read]).2 = [(.cmd m.1, m.2)] := by
  intro h
  have h1 := h (2, [str ['k'], str ['}', '\n']]) (by unfold CStrings; decide)
  obtain ⟨done, rest, e1, e2, e3⟩ := C50_messages [(2, [str ['k'], str ['}', '\n']])] (by unfold CStrings; decide)
    [.arrive (writecmd 2 (payload [str ['k'], str ['}', '\n']])), .read] [] (by simp [arrived])
  rw [e2] at h1
  cases done with
  | nil => simp at h1
  | cons d ds =>
    obtain ⟨rfl, h2⟩ := List.cons.inj e1
    revert h1
    cases ds with
    | nil => decide
    | cons x xs => simp at h2

/-- C50 is false of a connection that ends in the middle of a message: what has arrived of the message is taken for a
    message. Here `set k value` is cut and the daemon sets `k` to `val`. -/
theorem C50_cut_fails : ¬ ∀ (m : Msg) (bytes : List Byte), CStrings m → GoodEnd m →
    bytes <+: writecmd m.1 (payload m.2) → bytes ≠ writecmd m.1 (payload m.2) →
    (readcmd { inbuf := bytes, closed := true }).1 = .none := by
  intro h
  have h1 := h (2, [str ['k'], str ['v', 'a', 'l', 'u', 'e']]) (str ['s', 'e', 't', ' ', 'k', ' ', 'v', 'a', 'l'])
    (by unfold CStrings; decide) (by intro a ha; simp at ha; subst ha; decide) (by decide +kernel) (by decide +kernel)
  revert h1
  have hr : readmsg { inbuf := str ['s', 'e', 't', ' ', 'k', ' ', 'v', 'a', 'l'], closed := true } =
      (some (str ['s', 'e', 't', ' ', 'k', ' ', 'v', 'a', 'l']), { closed := true, msgbuf := [10] }) := by
    have g1 : getword newlines false [] = none := by decide +kernel
    have g2 : getline { inbuf := str ['s', 'e', 't', ' ', 'k', ' ', 'v', 'a', 'l'], closed := true } =
        some (str ['s', 'e', 't', ' ', 'k', ' ', 'v', 'a', 'l'], []) := by decide +kernel
    have g3 : getword newlines false ((str ['s', 'e', 't', ' ', 'k', ' ', 'v', 'a', 'l']).takeWhile (· != 0) ++ [10]) =
        some (str ['s', 'e', 't', ' ', 'k', ' ', 'v', 'a', 'l'], [10]) := by decide +kernel
    rw [Uc.readmsg_line g1 g2, Uc.readmsg_word (w := str ['s', 'e', 't', ' ', 'k', ' ', 'v', 'a', 'l']) (r := [10]) g3]
  rw [readcmd, hr]
  simp only
  decide +kernel

/-- C50 does not hold for the replies of the daemon to unknown commands: the command is sent back as it is, so that a
    newline in it makes two messages out of the reply. -/
theorem C50_reply_fails : ¬ ∀ (command : List Byte) (ops : List Op), 0 ∉ command → arrived ops = do_invalid command →
    (Uc.run ops).2.length ≤ 1 := by
  intro h
  have h1 := h (str ['x', '\n', 'O', 'K']) ([.arrive (do_invalid (str ['x', '\n', 'O', 'K'])), .read] ++ [.read])
    (by decide) (by simp [arrived])
  have hm := C50_messages [(12, [str ['u', 'n', 'k', 'n', 'o', 'w', 'n'], str ['c', 'o', 'm', 'm', 'a', 'n', 'd', ':'],
    str ['x']]), (11, [])] (by unfold CStrings; decide)
  -- after one request
  obtain ⟨done, rest, e1, e2, e3⟩ := hm [.arrive (do_invalid (str ['x', '\n', 'O', 'K'])), .read] []
    (by simp only [arrived]; decide +kernel)
  -- before any
  obtain ⟨done0, rest0, f1, f2, f3⟩ := hm [.arrive (do_invalid (str ['x', '\n', 'O', 'K']))] []
    (by simp only [arrived]; decide +kernel)
  have hd0 : done0 = [] := by
    have : (Uc.run [.arrive (do_invalid (str ['x', '\n', 'O', 'K']))]).2 = [] := rfl
    rw [this] at f2
    cases done0 with
    | nil => rfl
    | cons => simp at f2
  subst hd0
  have f4 := f3 _ _ f1.symm (by simp only [arrived]; decide +kernel)
  have hd : done = [(12, [str ['u', 'n', 'k', 'n', 'o', 'w', 'n'], str ['c', 'o', 'm', 'm', 'a', 'n', 'd', ':'], str ['x']])] := by
    have h5 : done.length = 1 := by
      have := congrArg List.length (e2.symm.trans f4)
      simpa using this
    match done, h5 with
    | [d], _ => rw [(List.cons.inj e1).1]
  subst hd
  have hr : rest = [(11, [])] := by simpa using e1.symm
  have e4 := e3 _ _ hr (by simp only [arrived]; decide +kernel)
  rw [e4] at h1
  simp at h1

end Props
