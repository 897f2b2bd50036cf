import Verif.Lemmas.FtpLine
/- C87: reading a line of an FTP listing. -/
namespace Props
open Wv Wv.Ftp Wv.FtpDate FtpL
open Spec.Ftp (Text Info Precision Fact Valid Near seconds day Digits Number value Month Word spaces field When blank beforeArrow afterSpaces)

namespace FtpP

/-- The result, as the specification has it. -/
def view (f : Fp) : Info :=
  ⟨f.name, f.flagtrycwd, f.flagtryretr, f.size,
    match f.mtimetype with | .unknown => .unknown | .localTime => .exact | .remoteMinute => .minute | .remoteDay => .day, f.mtime, f.id⟩

/-- The line is accepted, and says this. -/
def Says (o : Out Fp) (i : Info) : Prop := ∃ f, o = .ok f ∧ view f = i

theorem base_zero : base = 0 := by decide +kernel

end FtpP
open FtpP

/-! ### Dates -/

/-- C87: the time of a day, in seconds from the beginning of 1970. -/
theorem C87_date (y m d : Nat) (hy : 401 ≤ y) (hv : Valid y m d) : base + totai y m d = seconds y m d := by
  rw [base_zero, totai_eq y m d hy hv]; omega

example : Valid 2024 1 29 ∧ seconds 2024 1 29 = 1709164800 := ⟨by unfold Valid; decide, by
  rw [seconds_eq]; have := yearStart_eq 2024; simp only [day, Spec.Ftp.monthStart, Spec.Ftp.monthLen]; omega⟩

/-- C87: the current year is that which contains the current time. -/
theorem C87_year (now : Int) (h : -62135596800 ≤ now) :
    ∃ y : Nat, yearOf now = y ∧ seconds y 0 1 ≤ now ∧ now < seconds (y + 1) 0 1 := yearOf_spec now h

/-- C87: a day without a year is the first one from last year on that is less than 350 days old. -/
theorem C87_guess_first (now : Int) (cy y m d : Nat) (hcy : 402 ≤ cy) (h1 : cy ≤ y + 1) (h2 : y < cy + 100) (hv : Valid y m d)
    (hn : now - seconds y m d < 350 * 86400) (hp : cy ≤ y → ¬ now - seconds (y - 1) m d < 350 * 86400) :
    base + guesstai now cy m d = seconds y m d := by
  have hd31 := monthLen_le y m
  obtain ⟨hm, hd, hl⟩ := hv
  have key := guessFrom_eq now m d 101 (y + 1 - cy) ((cy : Int) - 1) (by omega) ?_ ?_
  · rw [base_zero, Int.zero_add]
    unfold guesstai
    rw [key, show (cy : Int) - 1 + ((y + 1 - cy : Nat) : Int) = (y : Int) by omega]
    exact totai_eq y m d (by omega) ⟨hm, hd, hl⟩
  · intro i hi
    have e : (cy : Int) - 1 + (i : Int) = ((cy - 1 + i : Nat) : Int) := by omega
    have hle := totai_le (cy - 1 + i) m d (by omega) hm hd (by omega)
    rw [e]
    have hp := hp (by omega)
    have hmono : seconds (cy - 1 + i) m d ≤ seconds (y - 1) m d := by
      by_cases hlt : cy - 1 + i < y - 1
      · have := day_mono (cy - 1 + i) (y - 1) m d hlt hm (by omega) hd
        rw [seconds_eq, seconds_eq]; omega
      · rw [show cy - 1 + i = y - 1 by omega]; exact Int.le_refl _
    omega
  · rw [show (cy : Int) - 1 + ((y + 1 - cy : Nat) : Int) = (y : Int) by omega, totai_eq y m d (by omega) ⟨hm, hd, hl⟩]
    exact hn

/-- C87: so a day that is near now is found, whenever the current year was looked up before. -/
theorem C87_guess (start now : Int) (y m d : Nat) (hs : 0 ≤ start) (h0 : start ≤ now) (hc : yearOf start + 100 > y) (hv : Valid y m d)
    (hn : Near now y m d) : base + guesstai now (yearOf start) m d = seconds y m d := by
  obtain ⟨cy, e, h1, h2⟩ := yearOf_spec start (by omega)
  rw [e] at hc ⊢
  obtain ⟨hm, hd, hl⟩ := id hv
  have hd31 := monthLen_le y m
  have hn1 := hn.1
  have hn2 := hn.2
  have d0 : ∀ z : Nat, day z 0 1 + (z + 99) / 100 = 365 * z + (z + 3) / 4 + (z + 399) / 400 := by
    intro z
    have := yearStart_eq z
    simp only [day, Spec.Ftp.monthStart]; omega
  have h402 : 402 ≤ cy := by
    rw [seconds_eq] at h2
    have := d0 (cy + 1)
    omega
  have hcy : cy ≤ y + 1 := by
    apply Decidable.byContradiction
    intro hlt
    have hy : seconds y m d < seconds (y + 1) 0 1 := by
      obtain ⟨k, hk⟩ : ∃ k, k = day y m d := ⟨_, rfl⟩
      have a1 : day y m d < day (y + 1) 0 1 := by
        have : Spec.Ftp.monthStart y m + d ≤ Spec.Ftp.monthStart y 12 := by
          have hms : ∀ j, Spec.Ftp.monthStart y (m + 1) ≤ Spec.Ftp.monthStart y (m + 1 + j) := by
            intro j
            induction j with
            | zero => exact Nat.le_refl _
            | succ j ih => exact Nat.le_trans ih (Nat.le_add_right _ _)
          have := hms (11 - m)
          rw [show m + 1 + (11 - m) = 12 by omega] at this
          have e2 : Spec.Ftp.monthStart y (m + 1) = Spec.Ftp.monthStart y m + Spec.Ftp.monthLen y m := rfl
          omega
        have e3 : Spec.Ftp.yearStart (y + 1) = Spec.Ftp.yearStart y + Spec.Ftp.monthStart y 12 := rfl
        simp only [day, e3, Spec.Ftp.monthStart] at this ⊢
        omega
      rw [seconds_eq, seconds_eq]; omega
    have h3 := d0 (y + 1)
    have h4 := d0 cy
    rw [seconds_eq] at h1
    rw [seconds_eq (y + 1)] at hy
    omega
  refine C87_guess_first now cy y m d h402 hcy (by omega) hv hn1 ?_
  intro hle
  have := day_mono (y - 1) y m d (by omega) hm (by omega) hd
  have e1 := seconds_eq (y - 1) m d
  have e2 := seconds_eq y m d
  omega

/-- It is the 5th of January 2024: "Dec 30" is of 2023, "Jan 15" of 2024. -/
example : Near 1704412800 2023 11 30 ∧ Near 1704412800 2024 0 15 := by
  have h1 := yearStart_eq 2024
  have h2 := yearStart_eq 2023
  constructor <;> simp only [Near, seconds_eq, day, Spec.Ftp.monthStart, Spec.Ftp.monthLen, Spec.Ftp.leap] <;> constructor <;> simp <;> omega

/-! ### Formats -/

namespace FtpP

theorem dig_facts (c : Byte) : ch '0' ≤ c ∧ c ≤ ch '9' → c ≠ ch ' ' ∧ c ≠ ch '-' ∧ c ≠ ch ':' ∧ c ≠ ch 'A' ∧ c ≠ ch 'P' ∧ c ≠ ch '+' ∧
    c ≠ ch ',' ∧ c ≠ 9 ∧ c ≠ ch '<' ∧ c ∉ [ch 'b', ch 'c', ch 'd', ch 'l', ch 'p', ch 's', ch '-'] := by
  intro h
  have h1 : ∀ c : Byte, ch '0' ≤ c ∧ c ≤ ch '9' → c ≠ ch ' ' ∧ c ≠ ch '-' ∧ c ≠ ch ':' ∧ c ≠ ch 'A' := by
    apply forall_byte; decide +kernel
  have h2 : ∀ c : Byte, ch '0' ≤ c ∧ c ≤ ch '9' → c ≠ ch 'P' ∧ c ≠ ch '+' ∧ c ≠ ch ',' ∧ c ≠ 9 := by
    apply forall_byte; decide +kernel
  have h3 : ∀ c : Byte, ch '0' ≤ c ∧ c ≤ ch '9' → c ≠ ch '<' ∧ c ∉ [ch 'b', ch 'c', ch 'd', ch 'l', ch 'p', ch 's', ch '-'] := by
    apply forall_byte; decide +kernel
  obtain ⟨a1, a2, a3, a4⟩ := h1 c h
  obtain ⟨b1, b2, b3, b4⟩ := h2 c h
  exact ⟨a1, a2, a3, a4, b1, b2, b3, b4, h3 c h⟩

theorem eplf_word (fp : Fp) (t : Text) (h : ∀ c ∈ t, c ≠ 9 ∧ c ≠ ch ',') : ∀ (w r : Text),
    eplf fp w (t ++ ch ',' :: r) = (fact fp (w ++ t)).bind fun fp => eplf fp [] r := by
  induction t with
  | nil =>
    intro w r
    rw [List.nil_append, eplf, if_neg (by decide), if_pos (by decide), List.append_nil]
  | cons c t ih =>
    intro w r
    obtain ⟨h1, h2⟩ := h c (by simp)
    rw [List.cons_append, eplf, if_neg (by simpa using h1), if_neg (by simpa using h2), ih (fun x hx => h x (by simp [hx]))]
    simp

theorem fact_apply (fp : Fp) (f : Fact) (h : f.Ok) : ∃ fp', fact fp f.text = .ok fp' ∧ view fp' = f.apply (view fp) := by
  cases f with
  | dir => exact ⟨_, rfl, rfl⟩
  | file => exact ⟨_, rfl, rfl⟩
  | size ds => exact ⟨{ fp with size := some (value ds : Int) }, by simp only [Fact.text, fact]; rw [getlong_number ds h]; rfl, rfl⟩
  | time ds =>
    refine ⟨{ fp with mtimetype := .localTime, mtime := base + (value ds : Int) }, by simp only [Fact.text, fact]; rw [getlong_number ds h]; rfl, ?_⟩
    simp [view, Fact.apply, base_zero]
  | id t => exact ⟨_, rfl, rfl⟩
  | other t =>
    refine ⟨fp, ?_, rfl⟩
    cases t with
    | nil => rfl
    | cons c t =>
      obtain ⟨_, _, h3⟩ := h
      have := h3 c (by simp)
      simp only [str, List.map_cons, List.map_nil, List.mem_cons, List.not_mem_nil, or_false, not_or] at this
      obtain ⟨a1, a2, a3, a4, a5⟩ := this
      simp only [Fact.text, fact]
      rw [if_neg (by simpa using a1), if_neg (by simpa using a2), if_neg (by simpa using a3), if_neg (by simpa using a4), if_neg (by simpa using a5)]

theorem fact_chars (f : Fact) (h : f.Ok) : ∀ c ∈ f.text, c ≠ 9 ∧ c ≠ ch ',' := by
  cases f with
  | dir => decide
  | file => decide
  | size ds =>
    intro c hc
    rw [Fact.text, List.mem_cons] at hc
    rcases hc with rfl | hc
    · decide
    · have := dig_facts c (h.1 c hc); exact ⟨this.2.2.2.2.2.2.2.1, this.2.2.2.2.2.2.1⟩
  | time ds =>
    intro c hc
    rw [Fact.text, List.mem_cons] at hc
    rcases hc with rfl | hc
    · decide
    · have := dig_facts c (h.1 c hc); exact ⟨this.2.2.2.2.2.2.2.1, this.2.2.2.2.2.2.1⟩
  | id t =>
    intro c hc
    rw [Fact.text, List.mem_cons] at hc
    rcases hc with rfl | hc
    · decide
    · exact ⟨fun e => h.2 (e ▸ hc), fun e => h.1 (e ▸ hc)⟩
  | other t => intro c hc; exact ⟨fun e => h.2.1 (e ▸ hc), fun e => h.1 (e ▸ hc)⟩

theorem eplf_facts (facts : List Fact) (name : Text) (h : ∀ f ∈ facts, f.Ok) : ∀ fp,
    Says (eplf fp [] (facts.flatMap (fun f => f.text ++ [ch ',']) ++ 9 :: name)) { facts.foldl Fact.apply (view fp) with name := name } := by
  induction facts with
  | nil => intro fp; exact ⟨{ fp with name := name }, by simp [eplf], rfl⟩
  | cons f facts ih =>
    intro fp
    obtain ⟨fp', e1, e2⟩ := fact_apply fp f (h f (by simp))
    have := ih (fun x hx => h x (by simp [hx])) fp'
    rw [List.flatMap_cons, List.append_assoc, List.append_assoc, List.singleton_append, eplf_word fp _ (fact_chars f (h f (by simp))), List.nil_append,
      e1, ok_bind, List.foldl_cons, ← e2]
    exact this

end FtpP

/-- C87: a line in the format EPLF says what its facts say. -/
theorem C87_eplf (k : Clock) (facts : List Fact) (name : Text) (h : ∀ f ∈ facts, f.Ok) :
    Says (parse k (Spec.Ftp.eplf facts name)) { facts.foldl Fact.apply blank with name := name } := by
  have := eplf_facts facts name h Fp.new
  have e : parse k (Spec.Ftp.eplf facts name) = eplf Fp.new [] (facts.flatMap (fun f => f.text ++ [ch ',']) ++ 9 :: name) := by
    unfold Spec.Ftp.eplf
    cases hl : facts.flatMap (fun f => f.text ++ [ch ',']) ++ 9 :: name with
    | nil => simp at hl
    | cons a l => rw [parse, if_pos (by decide)]; simp
  rw [e]
  exact this

example : ∀ f ∈ [Fact.id (str ['8', '3', '8', '8', '6', '2', '1', '.', '4', '8', '5', '9', '4']), Fact.time (str ['8', '2', '5', '7', '1', '8', '5', '0', '3']),
    Fact.file, Fact.size (str ['2', '8', '0'])], f.Ok := by
  intro f hf
  simp only [List.mem_cons, List.not_mem_nil, or_false] at hf
  rcases hf with rfl | rfl | rfl | rfl
  · exact ⟨by decide, by decide⟩
  · exact ⟨by unfold Digits; decide, by decide +kernel⟩
  · trivial
  · exact ⟨by unfold Digits; decide, by decide +kernel⟩

namespace FtpP

theorem no_char (t : Text) (h : Digits t) : ch ' ' ∉ t ∧ ch '-' ∉ t ∧ ch ':' ∉ t :=
  ⟨fun e => (dig_facts _ (h _ e)).1 rfl, fun e => (dig_facts _ (h _ e)).2.1 rfl, fun e => (dig_facts _ (h _ e)).2.2.1 rfl⟩

/-! UNIX -/

theorem loop_word (k : Clock) (s : Ls) (t r : Text) (ht : ch ' ' ∉ t) : ∀ w,
    lsLoop k s w false (t ++ ch ' ' :: r) = (lsWord k s (w ++ t) r).bind fun s => lsLoop k s [] true r := by
  induction t with
  | nil => intro w; rw [List.nil_append, lsLoop, if_pos (by decide), if_neg (by decide), List.append_nil]
  | cons c t ih =>
    intro w
    have hc : ¬ (c == ch ' ') = true := by
      intro e; exact ht (by rw [eq_of_beq e]; simp)
    rw [List.cons_append, lsLoop, if_neg hc, ih (fun e => ht (by simp [e]))]
    simp

theorem loop_spaces (k : Clock) (s : Ls) (r : Text) : ∀ n w, lsLoop k s w true (List.replicate n (ch ' ') ++ r) = lsLoop k s w true r
  | 0, _ => rfl
  | n + 1, w => by
    rw [List.replicate_succ, List.cons_append, lsLoop, if_pos (by decide), if_pos rfl, loop_spaces k s r n w]

/-- A word after a space. -/
theorem loop_next (k : Clock) (s : Ls) (t r : Text) (ht : Word t) :
    lsLoop k s [] true (t ++ ch ' ' :: r) = (lsWord k s t r).bind fun s => lsLoop k s [] true r := by
  obtain ⟨h1, h2⟩ := ht
  cases t with
  | nil => exact absurd rfl h1
  | cons c t =>
    have hc : ¬ (c == ch ' ') = true := by
      intro e; exact h2 (by rw [eq_of_beq e]; simp)
    rw [List.cons_append, lsLoop, if_neg hc, List.nil_append, loop_word k s t r (fun e => h2 (by simp [e]))]
    rfl

theorem field_eq (f : Spec.Ftp.Field) (r : Text) : field f ++ r = f.1 ++ ch ' ' :: (List.replicate f.2 (ch ' ') ++ r) := by
  simp [field, spaces, List.replicate_succ]

theorem loop_field (k : Clock) (s s' : Ls) (f : Spec.Ftp.Field) (r : Text) (hf : Word f.1) (h : ∀ r, lsWord k s f.1 r = .ok s') :
    lsLoop k s [] true (field f ++ r) = lsLoop k s' [] true r := by
  rw [field_eq, loop_next k s f.1 _ hf, h, ok_bind, loop_spaces]

theorem loop_done (k : Clock) (s : Ls) (h : s.state = 8) : ∀ (r w : Text) (b : Bool), lsLoop k s w b r = .ok s
  | [], _, _ => rfl
  | c :: r, w, b => by
    rw [lsLoop]
    have hw : ∀ w r, lsWord k s w r = .ok s := by intro w r; unfold lsWord; rw [h]; rfl
    split
    · split
      · exact loop_done k s h r w true
      · rw [hw, ok_bind]; exact loop_done k s h r [] true
    · exact loop_done k s h r _ false

/-- The words before the month, from the size on. -/
theorem loop_more (k : Clock) (fs : List Spec.Ftp.Field) (f : Spec.Ftp.Field) (r : Text) (hf : Word f.1 ∧ Number f.1)
    (h1 : ∀ g ∈ fs, Word g.1 ∧ g.1.length ≤ 17) (h2 : ∀ g ∈ fs, ∀ m, ¬ Month g.1 m) : ∀ s : Ls, s.state = 5 →
    lsLoop k s [] true (fs.flatMap field ++ (field f ++ r)) = lsLoop k { s with size := (value f.1 : Int) } [] true r := by
  induction fs with
  | nil =>
    intro s hs
    rw [List.flatMap_nil, List.nil_append]
    refine loop_field k s _ f r hf.1 ?_
    intro r
    unfold lsWord
    rw [hs]
    simp only
    rw [getmonth_none _ (digits_not_month _ hf.2.1), getlong_number _ hf.2]
    rfl
  | cons g fs ih =>
    intro s hs
    obtain ⟨n, hn⟩ := getlong_short g.1 (h1 g (by simp)).2
    rw [List.flatMap_cons, List.append_assoc, loop_field k s { s with size := n } g _ (h1 g (by simp)).1,
      ih (fun x hx => h1 x (by simp [hx])) (fun x hx => h2 x (by simp [hx])) { s with size := n } hs]
    intro r
    unfold lsWord
    rw [hs]
    simp only
    rw [getmonth_none _ (h2 g (by simp)), hn]
    rfl

theorem loop_size (k : Clock) (fs : List Spec.Ftp.Field) (f : Spec.Ftp.Field) (r : Text) (hf : Word f.1 ∧ Number f.1)
    (h1 : ∀ g ∈ fs, Word g.1 ∧ g.1.length ≤ 17) (h2 : ∀ g ∈ fs.tail, ∀ m, ¬ Month g.1 m) (s : Ls) (hs : s.state = 4) :
    lsLoop k s [] true (fs.flatMap field ++ (field f ++ r)) = lsLoop k { s with state := 5, size := (value f.1 : Int) } [] true r := by
  cases fs with
  | nil =>
    rw [List.flatMap_nil, List.nil_append]
    refine loop_field k s _ f r hf.1 ?_
    intro r
    unfold lsWord
    rw [hs]
    simp only
    rw [getlong_number _ hf.2]
    rfl
  | cons g fs =>
    obtain ⟨n, hn⟩ := getlong_short g.1 (h1 g (by simp)).2
    rw [List.flatMap_cons, List.append_assoc, loop_field k s { s with state := 5, size := n } g _ (h1 g (by simp)).1,
      loop_more k fs f r hf (fun x hx => h1 x (by simp [hx])) h2 _ rfl]
    intro r
    unfold lsWord
    rw [hs]
    simp only
    rw [hn]
    rfl

theorem digit_number (t : Text) (h : ∀ c ∈ t, Spec.Ftp.isDigit c) (hl : t.length ≤ 2) : Number t := by
  refine ⟨h, ?_⟩
  have hc : ∀ c ∈ t, c.toNat - 48 ≤ 9 := fun c hc => (dig_signed c (h c hc)).2
  match t, hl with
  | [], _ => decide
  | [a], _ => have := hc a (by simp); simp [value]; omega
  | [a, b], _ =>
    have := hc a (by simp)
    have := hc b (by simp)
    simp [value]; omega

def time8 : When → Mtime
  | .year _ => .remoteDay
  | _ => .remoteMinute

/-- The last word. -/
theorem loop_time (start now : Int) (w : When) (hw : w.Ok) (s : Ls) (hs : s.state = 7) (d y : Nat) (hd : s.mday = d) (name : Text)
    (h0 : 0 ≤ start) (h1 : start ≤ now) (hc : yearOf start + 100 > y) (hv : w.Dated now y s.month d) :
    lsLoop ⟨now, yearOf start⟩ s [] true (w.text ++ ch ' ' :: name) = .ok (s.done (time8 w) (w.time y s.month d) name) := by
  have hword : Word w.text := by
    cases w with
    | short h m m' =>
      refine ⟨by simp [When.text], ?_⟩
      intro e
      simp only [When.text, List.mem_cons, List.not_mem_nil, or_false] at e
      obtain ⟨a1, a2, a3⟩ := hw
      rcases e with e | e | e | e
      · exact (dig_facts h a1).1 e.symm
      · exact absurd e (by decide)
      · exact (dig_facts m a2).1 e.symm
      · exact (dig_facts m' a3).1 e.symm
    | long h h' m m' =>
      refine ⟨by simp [When.text], ?_⟩
      intro e
      simp only [When.text, List.mem_cons, List.not_mem_nil, or_false] at e
      obtain ⟨a1, a2, a3, a4⟩ := hw
      rcases e with e | e | e | e | e
      · exact (dig_facts h a1).1 e.symm
      · exact (dig_facts h' a2).1 e.symm
      · exact absurd e (by decide)
      · exact (dig_facts m a3).1 e.symm
      · exact (dig_facts m' a4).1 e.symm
    | year ds =>
      refine ⟨?_, (no_char ds hw.1.1).1⟩
      intro e
      have := hw.2
      simp only [When.text] at e
      rw [e] at this; simp at this
  rw [loop_next _ s _ _ hword]
  have key : lsWord ⟨now, yearOf start⟩ s w.text name = .ok (s.done (time8 w) (w.time y s.month d) name) := by
    unfold lsWord
    rw [hs]
    simp only
    cases w with
    | short h m m' =>
      obtain ⟨a1, a2, a3⟩ := hw
      have g := C87_guess start now y s.month d h0 h1 hc hv.1 hv.2
      rw [if_pos (by simp [When.text])]
      simp only [When.text, List.take_succ_cons, List.take_zero, List.drop_succ_cons, List.drop_zero]
      rw [getlong_number [h] (digit_number _ (by simpa using a1) (by simp)), ok_bind,
        getlong_number [m, m'] (digit_number _ (by simp only [List.mem_cons, List.not_mem_nil, or_false]; rintro c (rfl | rfl) <;> assumption) (by simp)), ok_bind, hd, g]
      rfl
    | long h h' m m' =>
      obtain ⟨a1, a2, a3, a4⟩ := hw
      have g := C87_guess start now y s.month d h0 h1 hc hv.1 hv.2
      rw [if_neg (by simp [When.text]), if_pos (by simp [When.text])]
      simp only [When.text, List.take_succ_cons, List.take_zero, List.drop_succ_cons, List.drop_zero]
      rw [getlong_number [h, h'] (digit_number _ (by simp only [List.mem_cons, List.not_mem_nil, or_false]; rintro c (rfl | rfl) <;> assumption) (by simp)), ok_bind,
        getlong_number [m, m'] (digit_number _ (by simp only [List.mem_cons, List.not_mem_nil, or_false]; rintro c (rfl | rfl) <;> assumption) (by simp)), ok_bind, hd, g]
      rfl
    | year ds =>
      obtain ⟨a1, a2⟩ := hw
      have hcol := (no_char ds a1.1).2.2
      have et : (When.year ds).text = ds := rfl
      rw [et, if_neg (show ¬ (List.length ds = 4 ∧ ds[1]? = some (ch ':')) from fun e => hcol (List.mem_of_getElem? e.2)),
        if_neg (show ¬ (List.length ds = 5 ∧ ds[2]? = some (ch ':')) from fun e => hcol (List.mem_of_getElem? e.2)), if_pos a2, getlong_number ds a1, ok_bind, hd,
        C87_date _ _ _ hv.1 hv.2]
      rfl
  rw [key, ok_bind]
  exact loop_done _ _ rfl _ _ _

theorem flag (c a b : Byte) : (c == a || c == b) = decide (some c = some a ∨ some c = some b) := by
  rw [Bool.eq_iff_iff, decide_eq_true_eq, Bool.or_eq_true, beq_iff_eq, beq_iff_eq, Option.some.injEq, Option.some.injEq]

theorem cutLink_eq : ∀ t, cutLink t = beforeArrow t
  | [] => rfl
  | c :: t => by rw [cutLink, beforeArrow, cutLink_eq t]

theorem cutSpaces_eq (t : Text) : cutSpaces t = afterSpaces t := by
  unfold cutSpaces afterSpaces
  have : (3 < t.length ∧ t.take 3 = [ch ' ', ch ' ', ch ' ']) ↔ ((str [' ', ' ', ' ']).isPrefixOf t = true ∧ 3 < t.length) := by
    rw [List.isPrefixOf_iff_prefix, List.prefix_iff_eq_take]
    constructor
    · rintro ⟨a, b⟩; exact ⟨b.symm, a⟩
    · rintro ⟨a, b⟩; exact ⟨b, a.symm⟩
  by_cases h : 3 < t.length ∧ t.take 3 = [ch ' ', ch ' ', ch ' ']
  · rw [if_pos h, if_pos (this.mp h)]
  · rw [if_neg h, if_neg (fun e => h (this.mpr e))]

end FtpP

/-- C87: a line of `ls -l`. -/
theorem C87_unix (start now : Int) (l : Spec.Ftp.Ls) (h : l.Ok) (m y : Nat) (hm : Month l.month.1 m) (h0 : 0 ≤ start) (h1 : start ≤ now)
    (hc : yearOf start + 100 > y) (hd : l.time.Dated now y m (value l.mday.1)) :
    Says (parse ⟨now, yearOf start⟩ l.text) (l.info y m) := by
  obtain ⟨⟨hp1, hp2⟩, c, hpc, hcm⟩ := h.perm
  obtain ⟨p, hp⟩ : ∃ p, l.perm.1 = c :: p := by
    cases e : l.perm.1 with
    | nil => rw [e] at hpc; simp at hpc
    | cons x p => rw [e] at hpc; simp at hpc; exact ⟨p, by rw [hpc]⟩
  have hpp : ch ' ' ∉ p := fun e => hp2 (by rw [hp]; simp [e])
  obtain ⟨rest, hrest⟩ : ∃ rest, rest = field l.nlink ++ (field l.uid ++ (l.more.flatMap field ++ (field l.size ++ (field l.month ++ (field l.mday ++
    (l.time.text ++ ch ' ' :: l.name)))))) := ⟨_, rfl⟩
  have ht : l.text = c :: (p ++ ch ' ' :: (List.replicate l.perm.2 (ch ' ') ++ rest)) := by
    rw [hrest]
    unfold Spec.Ftp.Ls.text
    simp only [List.append_assoc]
    rw [field_eq l.perm, hp, List.cons_append]
  have hparse : parse ⟨now, yearOf start⟩ l.text = ls ⟨now, yearOf start⟩ c (p ++ ch ' ' :: (List.replicate l.perm.2 (ch ' ') ++ rest)) := by
    rw [ht]
    cases hl : p ++ ch ' ' :: (List.replicate l.perm.2 (ch ' ') ++ rest) with
    | nil => simp at hl
    | cons a q =>
      have hplus : ¬ (c == ch '+') = true := by
        intro e; rw [eq_of_beq e] at hcm; revert hcm; decide
      simp only [parse]
      rw [if_neg hplus, if_pos (show c ∈ [ch 'b', ch 'c', ch 'd', ch 'l', ch 'p', ch 's', ch '-'] from hcm)]
  rw [hparse]
  unfold ls
  simp only
  rw [loop_word _ _ p _ hpp]
  have e1 : ∀ (s : Ls) w r, s.state = 1 → lsWord ⟨now, yearOf start⟩ s w r = .ok { s with state := 2 } := by
    intro s w r hs; unfold lsWord; rw [hs]; rfl
  rw [e1 _ _ _ rfl, ok_bind, loop_spaces, hrest]
  rw [loop_field _ _ (⟨3, 0, 0, 0, _⟩ : Ls) l.nlink _ h.nlink.1 (by intro r; simp only [lsWord]; rw [if_neg h.nlink.2])]
  rw [loop_field _ _ (⟨4, 0, 0, 0, _⟩ : Ls) l.uid _ h.uid (by intro r; simp only [lsWord]; rfl)]
  rw [loop_size _ l.more l.size _ h.size h.more h.moreMonth _ rfl]
  rw [loop_field _ _ (⟨6, (value l.size.1 : Int), m, 0, _⟩ : Ls) l.month _ (month_word _ _ hm).1 (by
    intro r; simp only [lsWord]; rw [(getmonth_iff _ m).mpr hm])]
  rw [loop_field _ _ (⟨7, (value l.size.1 : Int), m, (value l.mday.1 : Int), _⟩ : Ls) l.mday _ h.mday.1 (by
    intro r; simp only [lsWord]; rw [getlong_number _ h.mday.2]; rfl)]
  rw [loop_time start now l.time h.time _ rfl (value l.mday.1) y rfl l.name h0 h1 hc hd, ok_bind]
  refine ⟨_, rfl, ?_⟩
  have hnw : ∀ R : Text, ((p ++ ch ' ' :: R).head? = some (ch ' ') ∨ (p ++ ch ' ' :: R).head? = some (ch '[')) ↔
      (l.perm.1.length = 1 ∨ l.perm.1[1]? = some (ch '[')) := by
    intro R
    rw [hp]
    cases p with
    | nil => simp
    | cons x p =>
      have hx : x ≠ ch ' ' := fun e => hpp (by simp [e])
      simp [hx]
  have hhead : l.perm.1.head? = some c := by rw [hp]; rfl
  have hprec : ∀ w : When, (match time8 w with | .unknown => Precision.unknown | .localTime => .exact | .remoteMinute => .minute | .remoteDay => .day) =
      w.precision := by intro w; cases w <;> rfl
  have hname : (if (c == ch 'l') = true then cutLink l.name else l.name) = (if l.perm.1.head? = some (ch 'l') then beforeArrow l.name else l.name) := by
    rw [hhead, cutLink_eq]
    by_cases e : c = ch 'l'
    · simp [e]
    · simp [e]
  unfold view Spec.Ftp.Ls.info
  simp only [Ls.done, Info.mk.injEq]
  refine ⟨?_, ?_, ?_, trivial, hprec _, trivial, rfl⟩
  · rw [hname, cutSpaces_eq]
    by_cases e : l.perm.1.length = 1 ∨ l.perm.1[1]? = some (ch '[')
    · rw [if_pos e, if_pos ((hnw _).mpr e)]
    · rw [if_neg e, if_neg (fun x => e ((hnw _).mp x))]
  · rw [hhead]; exact flag c _ _
  · rw [hhead]; exact flag c _ _

/-- "lrwxrwxrwx   1 root     other          7 Jan 25 00:17 bin -> usr/bin". -/
def FtpP.lsLine : Spec.Ftp.Ls :=
  ⟨(str ['l', 'r', 'w', 'x', 'r', 'w', 'x', 'r', 'w', 'x'], 2), (str ['1'], 0), (str ['r', 'o', 'o', 't'], 4), [(str ['o', 't', 'h', 'e', 'r'], 9)],
    (str ['7'], 0), (str ['J', 'a', 'n'], 0), (str ['2', '5'], 0), .long (ch '0') (ch '0') (ch '1') (ch '7'),
    str ['b', 'i', 'n', ' ', '-', '>', ' ', 'u', 's', 'r', '/', 'b', 'i', 'n']⟩

example : lsLine.Ok ∧ Month lsLine.month.1 0 ∧ lsLine.time.Dated 1706200000 2024 0 (value lsLine.mday.1) ∧ yearOf 1706200000 + 100 > 2024 ∧
    (lsLine.info 2024 0).name = str ['b', 'i', 'n'] := by
  have h1 := yearStart_eq 2024
  have nm : ∀ m, ¬ Month (str ['o', 't', 'h', 'e', 'r']) m := by
    intro m hm
    have h3 : ∀ n ∈ Spec.Ftp.monthNames, n.length = 3 := by decide +kernel
    have := h3 _ (List.mem_of_getElem? hm)
    revert this; decide
  refine ⟨⟨⟨⟨?_, ?_⟩, ch 'l', ?_, ?_⟩, ⟨⟨?_, ?_⟩, ?_⟩, ⟨?_, ?_⟩, ?_, ?_, ⟨⟨?_, ?_⟩, ⟨?_, ?_⟩⟩, ⟨0, ?_⟩, ⟨⟨?_, ?_⟩, ⟨?_, ?_⟩⟩, ?_⟩, ?_, ⟨?_, ?_⟩, ?_, ?_⟩
  case refine_10 => intro f hf; simp only [lsLine, List.mem_singleton] at hf; subst hf; exact ⟨⟨by decide, by decide⟩, by decide⟩
  case refine_11 => intro f hf; simp [lsLine] at hf
  case refine_21 => exact ⟨by unfold Spec.Ftp.isDigit; decide, by unfold Spec.Ftp.isDigit; decide, by unfold Spec.Ftp.isDigit; decide, by unfold Spec.Ftp.isDigit; decide⟩
  case refine_24 =>
    simp only [Near, seconds_eq, day, Spec.Ftp.monthStart]
    rw [show value lsLine.mday.1 = 25 by decide]
    constructor <;> omega
  all_goals (try unfold Digits) <;> (try unfold Valid) <;> (try unfold Month) <;> decide +kernel

/-! ### MSDOS and VMS -/

namespace FtpP

theorem num_head (t : Text) (h : Number t) (hne : t ≠ []) : ∃ c r, t = c :: r ∧ ch '0' ≤ c ∧ c ≤ ch '9' := by
  cases t with
  | nil => exact absurd rfl hne
  | cons c r => exact ⟨c, r, rfl, h.1 c (by simp)⟩

/-- A number up to a dash, and the dash. -/
theorem until_while (c x : Byte) (t r : Text) (n : Nat) (ht : c ∉ t) (hx : x ≠ c) :
    until1 c (t ++ (List.replicate (n + 1) c ++ x :: r)) = .ok (t, List.replicate (n + 1) c ++ x :: r) ∧
    while1 c (List.replicate (n + 1) c ++ x :: r) = .ok (List.replicate (n + 1) c, x :: r) := by
  refine ⟨?_, while_ok c (n + 1) x r hx⟩
  rw [List.replicate_succ, List.cons_append]
  exact until_ok c t _ ht

theorem century_eq (y : Nat) : century (y : Int) = ((Spec.Ftp.century y : Nat) : Int) ∧ 401 ≤ Spec.Ftp.century y := by
  unfold century Spec.Ftp.century
  by_cases h1 : y < 50
  · rw [if_pos h1]; simp only; rw [if_pos (show (y : Int) < 50 by omega), if_neg (by omega)]; omega
  · rw [if_neg h1]
    simp only
    rw [if_neg (show ¬ (y : Int) < 50 by omega)]
    by_cases h2 : y < 1000
    · rw [if_pos h2, if_pos (by omega)]; omega
    · rw [if_neg h2, if_neg (by omega)]; omega

theorem dos_end (l : Spec.Ftp.Dos) (h : l.Ok) : ∃ fp, dosEnd (field l.what ++ l.name) = .ok fp ∧ fp.name = l.name ∧ fp.flagtrycwd = l.dir ∧
    fp.flagtryretr = !l.dir ∧ fp.size = (if l.dir then none else some (value l.what.1 : Int)) ∧ fp.id = none := by
  obtain ⟨⟨hw1, hw2⟩, hw3⟩ := h.what
  obtain ⟨hn1, hn2⟩ := h.name
  obtain ⟨x, name, hx⟩ : ∃ x name, l.name = x :: name := by
    cases e : l.name with
    | nil => exact absurd e hn1
    | cons x name => exact ⟨x, name, rfl⟩
  have hxs : x ≠ ch ' ' := by rw [hx] at hn2; simpa using hn2
  obtain ⟨c, w, hc⟩ : ∃ c w, l.what.1 = c :: w := by
    cases e : l.what.1 with
    | nil => exact absurd e hw1
    | cons c w => exact ⟨c, w, rfl⟩
  have hf : field l.what ++ l.name = l.what.1 ++ (List.replicate (l.what.2 + 1) (ch ' ') ++ x :: name) := by
    rw [hx]; simp [field, spaces]
  obtain ⟨u1, u2⟩ := until_while (ch ' ') x l.what.1 name l.what.2 hw2 hxs
  rw [hf]
  have hshape : l.what.1 ++ (List.replicate (l.what.2 + 1) (ch ' ') ++ x :: name) = c :: (w ++ (List.replicate (l.what.2 + 1) (ch ' ') ++ x :: name)) := by
    rw [hc]; rfl
  unfold dosEnd
  rw [hshape]
  simp only
  rw [← hshape, u1, ok_bind, ok_bind]
  cases hd : l.dir with
  | true =>
    rw [hd, if_pos rfl, hc] at hw3
    have : c = ch '<' := by simpa using hw3
    rw [if_pos (by simp [this]), ok_bind, u2, ok_bind]
    exact ⟨_, rfl, hx.symm, rfl, rfl, rfl, rfl⟩
  | false =>
    rw [hd, if_neg (by simp)] at hw3
    have := (dig_facts c (hw3.1 c (by rw [hc]; simp))).2.2.2.2.2.2.2.2.1
    rw [if_neg (by simpa using this), getlong_number _ hw3, ok_bind, ok_bind, u2, ok_bind]
    exact ⟨_, rfl, hx.symm, rfl, rfl, rfl, rfl⟩

end FtpP

/-- C87: a line in the format of MSDOS. -/
theorem C87_msdos (k : Clock) (l : Spec.Ftp.Dos) (h : l.Ok) (hv : Valid (Spec.Ftp.century (value l.year.1)) (value l.month - 1) (value l.mday)) :
    Says (parse k l.text) l.info := by
  obtain ⟨m0, mt, hm, hm0⟩ := num_head _ h.month.1 h.month.2.1
  obtain ⟨d0, dt, hd, hd0⟩ := num_head _ h.mday.1 h.mday.2
  obtain ⟨y0, yt, hy, hy0⟩ := num_head _ h.year.1 h.year.2
  obtain ⟨h0, ht, hh, hh0⟩ := num_head _ h.hour.1 h.hour.2
  obtain ⟨w0, wt, hw⟩ : ∃ c w, l.what.1 = c :: w := by
    cases e : l.what.1 with
    | nil => exact absurd e h.what.1.1
    | cons c w => exact ⟨c, w, rfl⟩
  have hw0 : w0 ≠ ch ' ' := fun e => h.what.1.2 (by rw [hw, e]; simp)
  have hparse : parse k l.text = dos l.text := by
    have hshape : ∃ x r, l.text = m0 :: x :: r := by
      unfold Spec.Ftp.Dos.text
      rw [hm]
      cases mt with
      | nil => exact ⟨_, _, rfl⟩
      | cons a b => exact ⟨_, _, rfl⟩
    obtain ⟨x, r, hs⟩ := hshape
    have hsemi := h.noSemi
    rw [hs] at hsemi ⊢
    have f := dig_facts m0 hm0
    simp only [parse]
    rw [if_neg (by simpa using f.2.2.2.2.2.1), if_neg f.2.2.2.2.2.2.2.2.2, if_neg hsemi, if_pos hm0]
  rw [hparse]
  obtain ⟨fp, he, hf1, hf2, hf3, hf4, hf5⟩ := dos_end l h
  unfold dos Spec.Ftp.Dos.text
  rw [until_ok (ch '-') l.month _ (no_char _ h.month.1.1).2.1, ok_bind, getlong_number _ h.month.1, ok_bind]
  rw [show ∀ q, l.mday ++ q = d0 :: (dt ++ q) by intro q; rw [hd]; rfl]
  rw [while_one _ _ _ (dig_facts d0 hd0).2.1, ok_bind]
  rw [show ∀ q, d0 :: (dt ++ q) = l.mday ++ q by intro q; rw [hd]; rfl]
  rw [until_ok (ch '-') l.mday _ (no_char _ h.mday.1.1).2.1, ok_bind, getlong_number _ h.mday.1, ok_bind]
  rw [show ∀ q, field l.year ++ q = y0 :: (yt ++ (spaces l.year.2 ++ q)) by intro q; simp [field, hy]]
  rw [while_one _ _ _ (dig_facts y0 hy0).2.1, ok_bind]
  obtain ⟨u1, u2⟩ := until_while (ch ' ') h0 l.year.1 (ht ++ ch ':' :: (l.minute ++ (if l.pm then ch 'P' else ch 'A') :: ch 'M' ::
    (spaces l.gap ++ (field l.what ++ l.name)))) l.year.2 (no_char _ h.year.1.1).1 (dig_facts h0 hh0).1
  rw [show ∀ q, y0 :: (yt ++ (spaces l.year.2 ++ (l.hour ++ q))) = l.year.1 ++ (List.replicate (l.year.2 + 1) (ch ' ') ++ h0 :: (ht ++ q)) by
    intro q; simp [spaces, hy, hh]]
  rw [u1, ok_bind, getlong_number _ h.year.1, ok_bind, u2, ok_bind]
  rw [show ∀ q, h0 :: (ht ++ q) = l.hour ++ q by intro q; rw [hh]; rfl]
  rw [until_ok (ch ':') l.hour _ (no_char _ h.hour.1.1).2.2, ok_bind, getlong_number _ h.hour.1, ok_bind]
  have hwc : ∀ q, while1 (ch ':') (ch ':' :: (l.minute ++ (if l.pm then ch 'P' else ch 'A') :: q)) =
      .ok ([ch ':'], l.minute ++ (if l.pm then ch 'P' else ch 'A') :: q) := by
    intro q
    cases e : l.minute with
    | nil => exact while_one _ _ _ (by cases l.pm <;> decide)
    | cons a b =>
      have := h.minute.1 a (by rw [e]; simp)
      exact while_one _ _ _ (dig_facts a this).2.2.1
  rw [hwc, ok_bind]
  rw [skip_ok _ l.minute (if l.pm then ch 'P' else ch 'A') _ (fun a ha => by
    have := dig_facts a (h.minute.1 a ha); simp [this.2.2.2.1, this.2.2.2.2.1]) (by cases l.pm <;> decide), ok_bind, getlong_number _ h.minute, ok_bind]
  have o1 : ∀ q, opt (ch 'A') ((if l.pm then ch 'P' else ch 'A') :: ch 'M' :: q) = .ok (!l.pm, if l.pm then ch 'P' :: ch 'M' :: q else ch 'M' :: q) := by
    intro q; cases l.pm <;> rfl
  have o2 : ∀ q, opt (ch 'P') (if l.pm then ch 'P' :: ch 'M' :: q else ch 'M' :: q) = .ok (l.pm, ch 'M' :: q) := by
    intro q; cases l.pm <;> rfl
  have o3 : ∀ q, q ≠ [] → opt (ch 'M') (ch 'M' :: q) = .ok (true, q) := by
    intro q hq; rw [opt, if_pos (by decide), if_neg hq]
  rw [o1, ok_bind, o2, ok_bind, o3 _ (by simp [spaces]), ok_bind]
  rw [show spaces l.gap ++ (field l.what ++ l.name) = List.replicate (l.gap + 1) (ch ' ') ++ w0 :: (wt ++ (spaces l.what.2 ++ l.name)) by
    simp [field, hw]; rfl]
  rw [while_ok _ _ _ _ hw0, ok_bind, show w0 :: (wt ++ (spaces l.what.2 ++ l.name)) = field l.what ++ l.name by simp [field, hw], he, ok_bind]
  refine ⟨_, rfl, ?_⟩
  obtain ⟨c1, c2⟩ := century_eq (value l.year.1)
  have hdate := C87_date _ _ _ c2 hv
  rw [show ((value l.month - 1 : Nat) : Int) = (value l.month : Int) - 1 by have := h.month.2.2; omega] at hdate
  unfold view Spec.Ftp.Dos.info
  simp only [Info.mk.injEq]
  refine ⟨hf1, hf2, hf3, ?_, trivial, ?_, hf5⟩
  · rw [hf4]
  · rw [c1, hdate]
    by_cases h12 : value l.hour = 12
    · rw [if_pos h12, if_pos (by omega)]; rfl
    · rw [if_neg h12, if_neg (by omega)]

/-- "04-27-00  09:09PM       <DIR>          licensed". -/
def FtpP.dosLine : Spec.Ftp.Dos :=
  ⟨str ['0', '4'], str ['2', '7'], (str ['0', '0'], 1), str ['0', '9'], str ['0', '9'], true, 6, true, (str ['<', 'D', 'I', 'R', '>'], 9),
    str ['l', 'i', 'c', 'e', 'n', 's', 'e', 'd']⟩

example : dosLine.Ok ∧ Valid (Spec.Ftp.century (value dosLine.year.1)) (value dosLine.month - 1) (value dosLine.mday) := by
  refine ⟨⟨⟨⟨?_, ?_⟩, ?_, ?_⟩, ⟨⟨?_, ?_⟩, ?_⟩, ⟨⟨?_, ?_⟩, ?_⟩, ⟨⟨?_, ?_⟩, ?_⟩, ⟨?_, ?_⟩, ⟨⟨?_, ?_⟩, ?_⟩, ⟨?_, ?_⟩, ?_⟩, ?_⟩ <;>
    (try unfold Digits) <;> (try unfold Valid) <;> first | exact rfl | decide +kernel

/-- C87: a line in the format of VMS. -/
theorem C87_vms (k : Clock) (l : Spec.Ftp.Vms) (h : l.Ok) (m : Nat) (hm : Month l.month m) (hy : 401 ≤ value l.year.1)
    (hv : Valid (value l.year.1) m (value l.mday)) (dir : Option Text) (hd : l.Dir dir) : Says (parse k l.text) (l.info m dir) := by
  obtain ⟨d0, dt, hd1, hd0⟩ := num_head _ h.mday.1 h.mday.2
  obtain ⟨y0, yt, hy1, hy0⟩ := num_head _ h.year.1 h.year.2
  obtain ⟨h0, ht, hh, hh0⟩ := num_head _ h.hour.1 h.hour.2
  obtain ⟨n0, nt, hn, hn0⟩ := num_head _ h.minute.1 h.minute.2
  obtain ⟨b0, bt, hb⟩ : ∃ c w, l.blocks.1 = c :: w := by
    cases e : l.blocks.1 with
    | nil => exact absurd e h.blocks.1
    | cons c w => exact ⟨c, w, rfl⟩
  have hb0 : b0 ≠ ch ' ' := fun e => h.blocks.2 (by rw [hb, e]; simp)
  obtain ⟨hmw, hmd⟩ := month_word _ _ hm
  obtain ⟨m0, mt, hm1⟩ : ∃ c w, l.month = c :: w := by
    cases e : l.month with
    | nil => exact absurd e hmw.1
    | cons c w => exact ⟨c, w, rfl⟩
  have hm0 : m0 ≠ ch '-' := fun e => hmd (by rw [hm1, e]; simp)
  obtain ⟨r0, rt, hr, hr0⟩ := h.rest
  obtain ⟨tail, htail⟩ : ∃ t, t = field l.version ++ (field l.blocks ++ (l.mday ++ ch '-' :: (l.month ++ ch '-' :: (field l.year ++
    (l.hour ++ ch ':' :: (l.minute ++ l.rest)))))) := ⟨_, rfl⟩
  have htext : l.text = l.name ++ ch ';' :: tail := by rw [htail]; rfl
  have htk : l.text.takeWhile (· != ch ';') = l.name ∧ l.text.dropWhile (· != ch ';') = ch ';' :: tail := by
    rw [htext]
    have hall : ∀ x ∈ l.name, (x != ch ';') = true := by
      intro x hx; simp only [bne_iff_ne, ne_eq]; intro e; exact h.name.1 (e ▸ hx)
    rw [List.takeWhile_append_of_pos hall, List.dropWhile_append_of_pos hall]
    simp
  have hparse : parse k l.text = vms l.name (ch ';' :: tail) := by
    have hmem : ch ';' ∈ l.text := by rw [htext]; simp
    have hfirst : ∃ c x r, l.text = c :: x :: r ∧ c ≠ ch '+' ∧ c ∉ [ch 'b', ch 'c', ch 'd', ch 'l', ch 'p', ch 's', ch '-'] := by
      have ht0 : ∃ a b, tail = a :: b := by
        cases e : tail with
        | nil => rw [htail] at e; simp [field, spaces] at e
        | cons a b => exact ⟨a, b, rfl⟩
      obtain ⟨a, b, hab⟩ := ht0
      cases e : l.name with
      | nil => exact ⟨ch ';', a, b, by rw [htext, e, hab]; rfl, by decide, by decide⟩
      | cons c n =>
        have := h.name.2 c (by rw [e]; simp)
        have hc : c ≠ ch '+' ∧ c ∉ [ch 'b', ch 'c', ch 'd', ch 'l', ch 'p', ch 's', ch '-'] := by
          simp only [str, List.map_cons, List.map_nil, List.mem_cons, List.not_mem_nil, or_false, not_or] at this ⊢
          exact ⟨this.1, this.2⟩
        cases n with
        | nil => exact ⟨c, ch ';', tail, by rw [htext, e]; rfl, hc⟩
        | cons x n => exact ⟨c, x, n ++ ch ';' :: tail, by rw [htext, e]; rfl, hc⟩
    obtain ⟨c, x, r, hs, hc1, hc2⟩ := hfirst
    rw [← htk.1, ← htk.2]
    rw [hs] at hmem ⊢
    simp only [parse]
    rw [if_neg (by simpa using hc1), if_neg hc2, if_pos hmem]
  rw [hparse]
  have hdir : (decide (4 < l.name.length) && l.name.drop (l.name.length - 4) == [ch '.', ch 'D', ch 'I', ch 'R']) = dir.isSome ∧
      ∀ n, dir = some n → l.name.take (l.name.length - 4) = n := by
    cases dir with
    | some n =>
      obtain ⟨e1, e2⟩ := hd
      have hl : l.name.length - 4 = n.length := by rw [e2]; simp [str]
      have hpos : 0 < n.length := List.length_pos_iff.mpr e1
      rw [hl]
      constructor
      · rw [e2]; simp [str, hpos]
      · intro n' hn'; injection hn' with hn'; rw [e2, List.take_left, hn']
    | none =>
      refine ⟨?_, by simp⟩
      rw [Option.isSome_none, ← Bool.not_eq_true, Bool.and_eq_true, decide_eq_true_eq, beq_iff_eq]
      rintro ⟨e1, e2⟩
      refine hd (l.name.take (l.name.length - 4)) ?_ ?_
      · intro e
        have := congrArg List.length e
        rw [List.length_take] at this
        simp at this; omega
      · have := List.take_append_drop (l.name.length - 4) l.name
        rw [e2] at this
        exact this.symm
  unfold vms
  simp only []
  rw [hdir.1, htail]
  rw [show ∀ q, ch ';' :: (field l.version ++ (field l.blocks ++ q)) = (ch ';' :: l.version.1) ++ (List.replicate (l.version.2 + 1) (ch ' ') ++ b0 ::
    (bt ++ (spaces l.blocks.2 ++ q))) by intro q; simp [field, spaces, hb]]
  obtain ⟨u1, u2⟩ := until_while (ch ' ') b0 (ch ';' :: l.version.1) (bt ++ (spaces l.blocks.2 ++ (l.mday ++ ch '-' :: (l.month ++ ch '-' :: (field l.year ++
    (l.hour ++ ch ':' :: (l.minute ++ l.rest))))))) l.version.2 (by
      intro e; rw [List.mem_cons] at e; rcases e with e | e
      · exact absurd e (by decide)
      · exact h.version e) hb0
  rw [u1, ok_bind, u2, ok_bind]
  rw [show ∀ q, b0 :: (bt ++ (spaces l.blocks.2 ++ (l.mday ++ q))) = l.blocks.1 ++ (List.replicate (l.blocks.2 + 1) (ch ' ') ++ d0 :: (dt ++ q)) by
    intro q; simp [spaces, hb, hd1]]
  obtain ⟨v1, v2⟩ := until_while (ch ' ') d0 l.blocks.1 (dt ++ ch '-' :: (l.month ++ ch '-' :: (field l.year ++ (l.hour ++ ch ':' :: (l.minute ++ l.rest)))))
    l.blocks.2 h.blocks.2 (dig_facts d0 hd0).1
  rw [v1, ok_bind, v2, ok_bind]
  rw [show ∀ q, d0 :: (dt ++ q) = l.mday ++ q by intro q; rw [hd1]; rfl]
  rw [until_ok (ch '-') l.mday _ (no_char _ h.mday.1.1).2.1, ok_bind, getlong_number _ h.mday.1, ok_bind]
  rw [show ∀ q, l.month ++ q = m0 :: (mt ++ q) by intro q; rw [hm1]; rfl]
  rw [while_one _ _ _ hm0, ok_bind]
  rw [show ∀ q, m0 :: (mt ++ q) = l.month ++ q by intro q; rw [hm1]; rfl]
  rw [until_ok (ch '-') l.month _ hmd, ok_bind, (getmonth_iff _ m).mpr hm]
  simp only []
  rw [show ∀ q, field l.year ++ q = y0 :: (yt ++ (spaces l.year.2 ++ q)) by intro q; simp [field, hy1]]
  rw [while_one _ _ _ (dig_facts y0 hy0).2.1, ok_bind]
  obtain ⟨w1, w2⟩ := until_while (ch ' ') h0 l.year.1 (ht ++ ch ':' :: (l.minute ++ l.rest)) l.year.2 (no_char _ h.year.1.1).1 (dig_facts h0 hh0).1
  rw [show ∀ q, y0 :: (yt ++ (spaces l.year.2 ++ (l.hour ++ q))) = l.year.1 ++ (List.replicate (l.year.2 + 1) (ch ' ') ++ h0 :: (ht ++ q)) by
    intro q; simp [spaces, hy1, hh]]
  rw [w1, ok_bind, getlong_number _ h.year.1, ok_bind, w2, ok_bind]
  rw [show ∀ q, h0 :: (ht ++ q) = l.hour ++ q by intro q; rw [hh]; rfl]
  rw [until_ok (ch ':') l.hour _ (no_char _ h.hour.1.1).2.2, ok_bind, getlong_number _ h.hour.1, ok_bind]
  rw [show ∀ q, l.minute ++ q = n0 :: (nt ++ q) by intro q; rw [hn]; rfl]
  rw [while_one _ _ _ (dig_facts n0 hn0).2.2.1, ok_bind]
  rw [show ∀ q, n0 :: (nt ++ q) = l.minute ++ q by intro q; rw [hn]; rfl]
  rw [hr, skip_ok _ l.minute r0 _ (fun a ha => by have := dig_facts a (h.minute.1.1 a ha); simp [this.2.2.1, this.1]) (by
    rcases hr0 with e | e <;> simp [e]), ok_bind, getlong_number _ h.minute.1, ok_bind]
  refine ⟨_, rfl, ?_⟩
  have hdate := C87_date _ _ _ hy hv
  unfold view Spec.Ftp.Vms.info
  simp only [Info.mk.injEq]
  rw [hdate]
  cases dir with
  | none => exact ⟨rfl, rfl, rfl, rfl, trivial, rfl, rfl⟩
  | some n => exact ⟨hdir.2 n rfl, rfl, rfl, rfl, trivial, rfl, rfl⟩

/-- "CORE.DIR;1     1  8-SEP-1996 16:09 [SYSTEM]". -/
def FtpP.vmsLine : Spec.Ftp.Vms :=
  ⟨str ['C', 'O', 'R', 'E', '.', 'D', 'I', 'R'], (str ['1'], 4), (str ['1'], 1), str ['8'], str ['S', 'E', 'P'], (str ['1', '9', '9', '6'], 0),
    str ['1', '6'], str ['0', '9'], str [' ', '[', 'S', 'Y', 'S', 'T', 'E', 'M', ']']⟩

example : vmsLine.Ok ∧ Month vmsLine.month 8 ∧ 401 ≤ value vmsLine.year.1 ∧ Valid (value vmsLine.year.1) 8 (value vmsLine.mday) ∧
    vmsLine.Dir (some (str ['C', 'O', 'R', 'E'])) := by
  refine ⟨⟨⟨?_, ?_⟩, ?_, ⟨?_, ?_⟩, ⟨⟨?_, ?_⟩, ?_⟩, ⟨8, ?_⟩, ⟨⟨?_, ?_⟩, ?_⟩, ⟨⟨?_, ?_⟩, ?_⟩, ⟨⟨?_, ?_⟩, ?_⟩, ⟨_, _, rfl, .inr rfl⟩⟩, ?_, ?_, ?_, ?_, ?_⟩ <;>
    (try unfold Digits) <;> (try unfold Valid) <;> (try unfold Month) <;> decide +kernel

/-! ### Any line -/

namespace FtpP

/-- No read behind the end, and what is returned satisfies `P`. -/
def Good {α : Type} (P : α → Prop) (o : Out α) : Prop := o ≠ .oob ∧ ∀ a, o = .ok a → P a

theorem good_ok {α : Type} {P : α → Prop} {a : α} (h : P a) : Good P (.ok a) :=
  ⟨by simp, fun b hb => by injection hb with hb; exact hb ▸ h⟩

theorem good_no {α : Type} {P : α → Prop} : Good P (.no : Out α) := ⟨by simp, by simp⟩

theorem good_bind {α β : Type} {P : α → Prop} {Q : β → Prop} {o : Out α} {f : α → Out β} (h : Good P o) (hf : ∀ a, P a → Good Q (f a)) :
    Good Q (o.bind f) := by
  cases o with
  | ok a => exact hf a (h.2 a rfl)
  | no => exact good_no
  | oob => exact absurd rfl h.1
  | overflow => exact ⟨by simp [Out.bind], by simp [Out.bind]⟩

theorem good_mono {α : Type} {P Q : α → Prop} {o : Out α} (h : Good P o) (hi : ∀ a, P a → Q a) : Good Q o := ⟨h.1, fun a ha => hi a (h.2 a ha)⟩

theorem good_long (t : Text) : Good (fun _ => True) (getlong t) := ⟨getlong_safe t, fun _ _ => trivial⟩

/-- A place in the line that is not the end. -/
def Place (buf s : Text) : Prop := s ≠ [] ∧ s <:+ buf

theorem good_skip (p : Byte → Bool) (buf s : Text) (h : Place buf s) : Good (fun a : Text × Text => Place buf a.2) (skip p s) := by
  obtain ⟨h1, h2⟩ := skip_safe p s h.1
  refine ⟨h1, ?_⟩
  intro a ha
  obtain ⟨e1, e2⟩ := h2 a ha
  exact ⟨e1, List.IsSuffix.trans ⟨a.1, e2.symm⟩ h.2⟩

theorem good_opt (c : Byte) (buf s : Text) (h : Place buf s) : Good (fun a : Bool × Text => Place buf a.2) (opt c s) := by
  obtain ⟨h1, h2⟩ := opt_safe c s h.1
  refine ⟨h1, ?_⟩
  intro a ha
  obtain ⟨e1, e2⟩ := h2 a ha
  exact ⟨e1, List.IsSuffix.trans e2 h.2⟩

/-- The name and the identifier are parts of the line. -/
def Within (buf : Text) (f : Fp) : Prop := f.name <:+: buf ∧ ∀ i ∈ f.id, i <:+: buf

theorem within_new (buf : Text) : Within buf Fp.new := ⟨List.nil_infix, by simp [Fp.new]⟩

theorem eplf_good (buf : Text) : ∀ (s pre w : Text) (fp : Fp), buf = pre ++ w ++ s → Within buf fp → Good (Within buf) (eplf fp w s)
  | [], _, _, _, _, _ => good_no
  | c :: r, pre, w, fp, hb, hw => by
    rw [eplf]
    by_cases h1 : (c == 9) = true
    · rw [if_pos h1]
      exact good_ok ⟨⟨pre ++ w ++ [c], [], by rw [hb]; simp⟩, hw.2⟩
    · rw [if_neg h1]
      by_cases h2 : (c == ch ',') = true
      · rw [if_pos h2]
        refine good_bind (P := Within buf) ?_ (fun fp' hfp' => eplf_good buf r (pre ++ w ++ [c]) [] fp' (by rw [hb]; simp) hfp')
        have hwi : w <:+: buf := ⟨pre, c :: r, hb.symm⟩
        cases w with
        | nil => exact good_ok hw
        | cons x t =>
          have ht : t <:+: buf := List.IsInfix.trans (List.suffix_cons x t).isInfix hwi
          rw [fact]
          split
          · exact good_ok hw
          · split
            · exact good_ok hw
            · split
              · exact good_bind (good_long t) (fun n _ => good_ok hw)
              · split
                · exact good_bind (good_long t) (fun n _ => good_ok hw)
                · split
                  · exact good_ok ⟨hw.1, by intro i hi; simp at hi; exact hi ▸ ht⟩
                  · exact good_ok hw
      · rw [if_neg h2]
        exact eplf_good buf r pre (w ++ [c]) fp (by rw [hb]; simp) hw

theorem lsWord_good (k : Clock) (buf : Text) (s : Ls) (w r : Text) (hs : Within buf s.fp) (hr : r <:+ buf) :
    Good (fun s : Ls => Within buf s.fp) (lsWord k s w r) := by
  have hdone : ∀ t time, Within buf (s.done t time r).fp := fun t time => ⟨hr.isInfix, hs.2⟩
  unfold lsWord
  split
  · exact good_ok hs
  · exact good_ok hs
  · exact good_ok hs
  · exact good_bind (good_long w) (fun n _ => good_ok hs)
  · split
    · exact good_ok hs
    · exact good_bind (good_long w) (fun n _ => good_ok hs)
  · exact good_bind (good_long w) (fun n _ => good_ok hs)
  · split
    · exact good_bind (good_long _) (fun _ _ => good_bind (good_long _) (fun _ _ => good_ok (hdone _ _)))
    · split
      · exact good_bind (good_long _) (fun _ _ => good_bind (good_long _) (fun _ _ => good_ok (hdone _ _)))
      · split
        · exact good_bind (good_long _) (fun _ _ => good_ok (hdone _ _))
        · exact good_no
  · exact good_ok hs

theorem lsLoop_good (k : Clock) (buf : Text) : ∀ (l w : Text) (s : Ls) (b : Bool), Within buf s.fp → l <:+ buf →
    Good (fun s : Ls => Within buf s.fp) (lsLoop k s w b l)
  | [], _, _, _, hs, _ => good_ok hs
  | c :: r, w, s, b, hs, hl => by
    have hr : r <:+ buf := List.IsSuffix.trans (List.suffix_cons c r) hl
    rw [lsLoop]
    split
    · split
      · exact lsLoop_good k buf r w s true hs hr
      · exact good_bind (lsWord_good k buf s w r hs hr) (fun s' hs' => lsLoop_good k buf r [] s' true hs' hr)
    · exact lsLoop_good k buf r _ s false hs hr

theorem cutLink_prefix : ∀ t, cutLink t <+: t
  | [] => List.prefix_refl _
  | c :: t => by
    rw [cutLink]
    split
    · exact List.nil_prefix
    · exact List.cons_prefix_cons.mpr ⟨rfl, cutLink_prefix t⟩

theorem cutSpaces_suffix (t : Text) : cutSpaces t <:+ t := by
  unfold cutSpaces
  split
  · exact List.drop_suffix _ _
  · exact List.suffix_refl _

theorem ls_good (k : Clock) (c : Byte) (r : Text) : Good (Within (c :: r)) (ls k c r) := by
  unfold ls
  refine good_bind (lsLoop_good k (c :: r) r [c] _ false ⟨List.nil_infix, by simp [Fp.new]⟩ (List.suffix_cons c r)) ?_
  intro s hs
  split
  · exact good_no
  · refine good_ok ⟨?_, hs.2⟩
    have h1 : (if (c == ch 'l') = true then cutLink s.fp.name else s.fp.name) <:+: c :: r := by
      split
      · exact List.IsInfix.trans (cutLink_prefix _).isInfix hs.1
      · exact hs.1
    simp only
    split
    · exact List.IsInfix.trans (cutSpaces_suffix _).isInfix h1
    · exact h1

theorem vms_good (buf name s : Text) (hn : name <:+: buf) (hs : Place buf s) : Good (Within buf) (vms name s) := by
  unfold vms
  refine good_bind (good_skip _ buf _ hs) fun _ h => good_bind (good_skip _ buf _ h) fun _ h => good_bind (good_skip _ buf _ h) fun _ h =>
    good_bind (good_skip _ buf _ h) fun _ h => good_bind (good_skip _ buf _ h) fun _ h => good_bind (good_long _) fun _ _ =>
    good_bind (good_skip _ buf _ h) fun _ h => good_bind (good_skip _ buf _ h) fun _ h => ?_
  split
  · exact good_no
  · refine good_bind (good_skip _ buf _ h) fun _ h => good_bind (good_skip _ buf _ h) fun _ h => good_bind (good_long _) fun _ _ =>
      good_bind (good_skip _ buf _ h) fun _ h => good_bind (good_skip _ buf _ h) fun _ h => good_bind (good_long _) fun _ _ =>
      good_bind (good_skip _ buf _ h) fun _ h => good_bind (good_skip _ buf _ h) fun _ h => good_bind (good_long _) fun _ _ => good_ok ?_
    split
    · exact ⟨List.IsInfix.trans (List.take_prefix _ _).isInfix hn, by simp [Fp.new]⟩
    · exact ⟨hn, by simp [Fp.new]⟩

theorem dosEnd_good (buf s : Text) (hs : Place buf s) : Good (Within buf) (dosEnd s) := by
  cases s with
  | nil => exact absurd rfl hs.1
  | cons c r =>
    unfold dosEnd
    simp only
    refine good_bind (P := fun a : Fp × Text => a.1.id = none ∧ Place buf a.2) ?_ ?_
    · split
      · exact good_bind (good_skip _ buf _ hs) fun _ h => good_ok ⟨rfl, h⟩
      · exact good_bind (good_skip _ buf _ hs) fun _ h => good_bind (good_long _) fun _ _ => good_ok ⟨rfl, h⟩
    · rintro a ⟨ha, h⟩
      exact good_bind (good_skip _ buf _ h) fun _ h => good_ok ⟨h.2.isInfix, by simp [ha]⟩

theorem dos_good (s : Text) (hs : s ≠ []) : Good (Within s) (dos s) := by
  have hs : Place s s := ⟨hs, List.suffix_refl _⟩
  unfold dos
  exact good_bind (good_skip _ s _ hs) fun _ h => good_bind (good_long _) fun _ _ => good_bind (good_skip _ s _ h) fun _ h =>
    good_bind (good_skip _ s _ h) fun _ h => good_bind (good_long _) fun _ _ => good_bind (good_skip _ s _ h) fun _ h =>
    good_bind (good_skip _ s _ h) fun _ h => good_bind (good_long _) fun _ _ => good_bind (good_skip _ s _ h) fun _ h =>
    good_bind (good_skip _ s _ h) fun _ h => good_bind (good_long _) fun _ _ => good_bind (good_skip _ s _ h) fun _ h =>
    good_bind (good_skip _ s _ h) fun _ h => good_bind (good_long _) fun _ _ => good_bind (good_opt _ s _ h) fun _ h =>
    good_bind (good_opt _ s _ h) fun _ h => good_bind (good_opt _ s _ h) fun _ h => good_bind (good_skip _ s _ h) fun _ h =>
    good_bind (dosEnd_good s _ h) fun _ h => good_ok h

theorem parse_good (k : Clock) (buf : Text) : Good (Within buf) (parse k buf) := by
  match buf with
  | [] => exact good_no
  | [_] => exact good_no
  | c :: x :: r =>
    simp only [parse]
    split
    · exact eplf_good _ (x :: r) [c] [] Fp.new rfl (within_new _)
    · split
      · exact ls_good k c (x :: r)
      · split
        · rename_i hmem
          refine vms_good _ _ _ (List.takeWhile_prefix _).isInfix ⟨?_, List.dropWhile_suffix _⟩
          intro e
          have h2 := List.takeWhile_append_dropWhile (p := (· != ch ';')) (l := c :: x :: r)
          rw [e, List.append_nil] at h2
          rw [← h2] at hmem
          have := List.all_takeWhile (p := (· != ch ';')) (l := c :: x :: r)
          have := List.all_eq_true.mp this _ hmem
          simp at this
        · split
          · exact dos_good _ (by simp)
          · exact good_no

end FtpP

/-- C87: whatever the line is, nothing behind its end is read, and the name and the identifier that are returned are parts of it. -/
theorem C87_safe (k : Clock) (buf : Text) : parse k buf ≠ .oob ∧
    ∀ f, parse k buf = .ok f → f.name <:+: buf ∧ ∀ i ∈ f.id, i <:+: buf := parse_good k buf

namespace FtpP

theorem bind_ok {α β : Type} {o : Out α} {f : α → Out β} {b : β} (h : o.bind f = .ok b) : ∃ a, o = .ok a ∧ f a = .ok b := by
  cases o with
  | ok a => exact ⟨a, rfl, h⟩
  | no => cases h
  | oob => cases h
  | overflow => cases h

theorem lsWord_state (k : Clock) (s t : Ls) (w r : List Byte) (h : lsWord k s w r = .ok t) :
    t.state ≤ s.state + 1 ∨ (s.state = 2 ∧ t.state = 4) := by
  unfold lsWord at h
  split at h
  all_goals first
    | (injection h with h; subst h; simp_all; done)
    | skip
  · injection h with h
    subst h
    rename_i hs
    dsimp only
    split
    · exact Or.inr ⟨hs, rfl⟩
    · left; omega
  · obtain ⟨a, _, h⟩ := bind_ok h
    injection h with h
    subst h
    left; dsimp only; omega
  · split at h
    · injection h with h
      subst h
      left; dsimp only; omega
    · obtain ⟨a, _, h⟩ := bind_ok h
      injection h with h
      subst h
      left; dsimp only; omega
  · obtain ⟨a, _, h⟩ := bind_ok h
    injection h with h
    subst h
    left; dsimp only; omega
  · rename_i hs
    split at h
    · obtain ⟨a, _, h⟩ := bind_ok h
      obtain ⟨a, _, h⟩ := bind_ok h
      injection h with h
      subst h
      left; unfold Ls.done; dsimp only; omega
    · split at h
      · obtain ⟨a, _, h⟩ := bind_ok h
        obtain ⟨a, _, h⟩ := bind_ok h
        injection h with h
        subst h
        left; unfold Ls.done; dsimp only; omega
      · split at h
        · obtain ⟨a, _, h⟩ := bind_ok h
          injection h with h
          subst h
          left; unfold Ls.done; dsimp only; omega
        · cases h

theorem lsLoop_state (k : Clock) (r : List Byte) : ∀ (s t : Ls) (w : List Byte) (sp : Bool), lsLoop k s w sp r = .ok t →
    t.state ≤ s.state + r.count (ch ' ') + (if s.state ≤ 2 then 1 else 0) := by
  induction r with
  | nil =>
    intro s t w sp h
    rw [lsLoop] at h
    injection h with h
    subst h
    omega
  | cons c r ih =>
    intro s t w sp h
    rw [lsLoop] at h
    rw [List.count_cons]
    split at h
    · rename_i hc
      simp only [hc, if_true]
      split at h
      · have := ih _ _ _ _ h
        omega
      · obtain ⟨u, hu, h⟩ := bind_ok h
        have h1 := lsWord_state k s u w r hu
        have h2 := ih _ _ _ _ h
        split at h2 <;> split <;> omega
    · rename_i hc
      simp only [hc]
      have := ih _ _ _ _ h
      simpa using this

end FtpP

/-- C87: a line like those of `ls` that has fewer than six spaces, so that it ends before a name can begin, is refused (or has a number too large to read). -/
theorem C87_short (k : Clock) (c : Byte) (r : Text) (hc : c ∈ [ch 'b', ch 'c', ch 'd', ch 'l', ch 'p', ch 's', ch '-']) (hr : r.count (ch ' ') < 6) (f : Fp) :
    parse k (c :: r) ≠ .ok f := by
  intro h
  cases r with
  | nil => cases h
  | cons x r =>
    have hp : (c == ch '+') = false := by
      simp only [List.mem_cons, List.not_mem_nil, or_false] at hc
      rcases hc with h | h | h | h | h | h | h <;> rw [h] <;> rfl
    unfold parse at h
    simp only [hp, Bool.false_eq_true, if_false, hc, if_true] at h
    unfold ls at h
    dsimp only at h
    obtain ⟨s, hs, h⟩ := FtpP.bind_ok h
    have := FtpP.lsLoop_state k _ _ _ _ _ hs
    dsimp only at this
    rw [if_pos (by omega)] at this
    rw [if_pos (by omega)] at h
    cases h

example (k : Clock) (f : Fp) := C87_short k (ch 'd') (str ['r', 'w', 'x', ' ', '1', ' ', 'm', 'e', ' ', '5', ' ', 'J', 'a', 'n', ' ', '1']) (by decide) (by decide) f

/-- C87: but a number of many digits overflows a signed integer, which is undefined. -/
theorem C87_overflow_fails (k : Clock) : parse k (str ['+', 's', '9', '9', '9', '9', '9', '9', '9', '9', '9', '9', '9', '9', '9', '9', '9', '9', '9', '9', '9', ','] ++
    9 :: str ['f']) = .overflow := by
  simp only [parse, str, List.map_cons, List.map_nil, List.cons_append, List.nil_append]
  rfl

/-- C87: nor need a day exist: the 29th of February 2023 is taken for that of 2020. -/
theorem C87_leap_fails : ¬ Valid 2023 1 29 ∧ base + totai 2023 1 29 = seconds 2020 1 29 := by
  refine ⟨by unfold Valid; decide, ?_⟩
  rw [← C87_date 2020 1 29 (by decide) (by unfold Valid; decide)]
  decide +kernel

end Props
