import Verif.Model.Http
import Verif.Lemmas.Basic
/- The texts in answers of a web server. -/
namespace Wv.Http
open Spec.Http

/-! ## Lines -/

theorem split_unique (x : Byte) (a a' c c' : Bytes) (h : a ++ x :: c = a' ++ x :: c') (ha : x ∉ a) (ha' : x ∉ a') :
    a = a' ∧ c = c' := by
  induction a generalizing a' with
  | nil =>
    cases a' with
    | nil => simp at h; exact ⟨rfl, h⟩
    | cons b a' => simp at h ha'; exact absurd h.1 ha'.1
  | cons b a ih =>
    cases a' with
    | nil => simp at h ha; exact absurd h.1.symm ha.1
    | cons b' a' =>
      simp at h ha ha'
      have := ih a' h.2 ha.2 ha'.2
      exact ⟨by rw [h.1, this.1], this.2⟩

theorem before_first (x : Byte) (b : Bytes) (h : x ∈ b) :
    b = b.takeWhile (· != x) ++ x :: (b.dropWhile (· != x)).drop 1 ∧ x ∉ b.takeWhile (· != x) := by
  induction b with
  | nil => simp at h
  | cons c b ih =>
    by_cases hc : c = x
    · subst hc; simp
    · have hx : x ∈ b := by
        rcases List.mem_cons.mp h with h | h
        · exact absurd h.symm hc
        · exact h
      have := ih hx
      have hb : (c != x) = true := by simpa using hc
      rw [List.takeWhile_cons, List.dropWhile_cons]
      simp only [hb, if_true]
      refine ⟨?_, ?_⟩
      · rw [List.cons_append, ← this.1]
      · intro hm
        rcases List.mem_cons.mp hm with hm | hm
        · exact hc hm.symm
        · exact this.2 hm

/-- The first line of what has arrived is the first line of all there is. -/
theorem first_line (b p l rest : Bytes) (h : b ++ p = l ++ 13 :: 10 :: rest) (hl : (10 : Byte) ∉ l) (hb : (10 : Byte) ∈ b) :
    b.takeWhile (· != 10) = l ++ [13] ∧ (b.dropWhile (· != 10)).drop 1 ++ p = rest := by
  have hs := before_first 10 b hb
  have h2 : b.takeWhile (· != 10) ++ 10 :: ((b.dropWhile (· != 10)).drop 1 ++ p) = (l ++ [13]) ++ 10 :: rest := by
    have : b ++ p = (b.takeWhile (· != 10) ++ 10 :: (b.dropWhile (· != 10)).drop 1) ++ p := by rw [← hs.1]
    rw [h] at this
    simp only [List.append_assoc, List.cons_append, List.nil_append] at this ⊢
    exact this.symm
  exact split_unique 10 _ _ _ _ h2 hs.2 (by simpa using hl)

theorem takeWhile_all (x : Byte) (l : Bytes) (h : x ∉ l) : l.takeWhile (· != x) = l := by
  induction l with
  | nil => rfl
  | cons c l ih =>
    simp at h
    rw [List.takeWhile_cons]
    have : (c != x) = true := by simpa using fun hh => h.1 hh.symm
    rw [if_pos this, ih h.2]

theorem take_first (x : Byte) (a c : Bytes) (ha : x ∉ a) :
    (a ++ x :: c).takeWhile (· != x) = a ∧ ((a ++ x :: c).dropWhile (· != x)).drop 1 = c := by
  have h := before_first x (a ++ x :: c) (by simp)
  have := split_unique x _ _ _ _ h.1 ha h.2
  exact ⟨this.1.symm, this.2.symm⟩

theorem after_first (x : Byte) (a c : Bytes) (ha : x ∉ a) : after x (a ++ x :: c) = some c := by
  unfold after
  rw [if_pos (by simp), (take_first x a c ha).2]

theorem after_none (x : Byte) (a : Bytes) (ha : x ∉ a) : after x a = none := by
  unfold after; rw [if_neg ha]

/-! ## White space around a text -/

theorem head?_append_ne (a b : Bytes) (h : a ≠ []) : (a ++ b).head? = a.head? := by
  cases a with
  | nil => exact absurd rfl h
  | cons x a => rfl

theorem getLast?_append_ne (a b : Bytes) (h : b ≠ []) : (a ++ b).getLast? = b.getLast? := by
  rw [List.getLast?_append]
  cases hb : b.getLast? with
  | none => exact absurd (List.getLast?_eq_none_iff.mp hb) h
  | some x => rfl

theorem dropWhile_spaces (sp x : Bytes) (hsp : ∀ b ∈ sp, isspace b = true) :
    (sp ++ x).dropWhile isspace = x.dropWhile isspace := by
  induction sp with
  | nil => rfl
  | cons b sp ih =>
    rw [List.cons_append, List.dropWhile_cons, if_pos (hsp b (by simp))]
    exact ih (fun c hc => hsp c (by simp [hc]))

theorem dropWhile_id (x : Bytes) (h : ∀ b, x.head? = some b → isspace b = false) : x.dropWhile isspace = x := by
  cases x with
  | nil => rfl
  | cons b x =>
    rw [List.dropWhile_cons, if_neg (by rw [h b rfl]; decide)]

theorem trim_pad (a x b : Bytes) (hx : Trimmed x) (ha : ∀ c ∈ a, isspace c = true) (hb : ∀ c ∈ b, isspace c = true) :
    trimString (a ++ x ++ b) = x := by
  unfold trimString
  rw [List.reverse_append, dropWhile_spaces _ _ (by simpa using hb), List.reverse_append]
  by_cases h0 : x = []
  · subst h0
    have : ((a.reverse ++ []).dropWhile isspace) = [] := by
      rw [dropWhile_spaces _ _ (by simpa using ha)]; rfl
    simp only [List.reverse_nil, List.nil_append, List.append_nil] at this ⊢
    rw [this]; rfl
  · have h1 : (x.reverse ++ a.reverse).dropWhile isspace = x.reverse ++ a.reverse := by
      apply dropWhile_id
      intro b hb
      have hh : (x.reverse ++ a.reverse).head? = x.getLast? := by
        rw [head?_append_ne _ _ (by simpa using h0)]; simp
      rw [hh] at hb
      exact hx.2 b hb
    rw [h1, List.reverse_append, List.reverse_reverse, List.reverse_reverse, dropWhile_spaces _ _ ha, dropWhile_id _ hx.1]

theorem trim_cr (x : Bytes) (hx : Trimmed x) : trimString (x ++ [13]) = x := by
  have := trim_pad [] x [13] hx (by simp) (by decide)
  simpa using this

theorem trim_sp_cr (x : Bytes) (hx : Trimmed x) : trimString (x ++ [32, 13]) = x := by
  have := trim_pad [] x [32, 13] hx (by simp) (by decide)
  simpa using this

theorem trim_sp (x : Bytes) (hx : Trimmed x) : trimString (32 :: x) = x := by
  have := trim_pad [32] x [] hx (by decide) (by simp)
  simpa using this

theorem trimmed_nil : Trimmed [] := by constructor <;> simp

/-! ## Characters -/

theorem digit_char (c : Byte) : isdigit c = true →
    isspace c = false ∧ isxdigit c = true ∧ c ≠ 0 ∧ c ≠ 10 ∧ c ≠ 13 ∧ c ≠ 58 ∧ c ≠ 32 ∧ c ≠ 45 ∧ c ≠ 43 ∧ digit c = c.toNat - 48 := by
  revert c; apply forall_byte; decide +kernel

theorem xdigit_char (c : Byte) : isxdigit c = true →
    isspace c = false ∧ c ≠ 0 ∧ c ≠ 10 ∧ c ≠ 13 ∧ c ≠ 58 ∧ c ≠ 32 ∧ c ≠ 45 ∧ c ≠ 43 ∧ tolower c ≠ 120 ∧ digit c < 16 := by
  revert c; apply forall_byte; decide +kernel

theorem lower_colon (c : Byte) : tolower c = 58 ↔ c = 58 := by
  revert c; apply forall_byte; decide +kernel

theorem space_char (c : Byte) : isspace c = false → c ≠ 10 ∧ c ≠ 13 ∧ c ≠ 32 := by
  revert c; apply forall_byte; decide +kernel

/-! ## Numbers -/

theorem digits_value (t r : Bytes) (n : Nat) (ht : ∀ b ∈ t, isdigit b = true) (hr : ∀ b, r.head? = some b → isdigit b = false) :
    Num.digits n (t ++ r) = t.foldl (fun n b => n * 10 + digit b) n := by
  induction t generalizing n with
  | nil =>
    cases r with
    | nil => rfl
    | cons b r =>
      simp only [List.nil_append, Num.digits, hr b rfl, List.foldl_nil]
      simp
  | cons b t ih =>
    have hb := ht b (by simp)
    simp only [List.cons_append, Num.digits, hb, if_true, List.foldl_cons]
    rw [ih _ (fun c hc => ht c (by simp [hc])), (digit_char b hb).2.2.2.2.2.2.2.2.2]

/-- `atoi` of a number that is followed by something else. -/
theorem num_value (t r : Bytes) (h0 : t ≠ []) (ht : ∀ b ∈ t, isdigit b = true) (hr : ∀ b, r.head? = some b → isdigit b = false)
    (hv : value 10 t < 2 ^ 31) : Num.num (t ++ r) = some (value 10 t : Int) := by
  obtain ⟨b, t', rfl⟩ := List.exists_cons_of_ne_nil h0
  have hb := digit_char b (ht b (by simp))
  have hd := digits_value (b :: t') r 0 ht hr
  unfold Num.num
  have h1 : (b :: t' ++ r).dropWhile isspace = b :: t' ++ r := by
    apply dropWhile_id; simp; exact hb.1
  rw [h1]
  simp only [List.cons_append] at hd ⊢
  have hm : (b == ch '-') = false := by
    simp; intro h; exact hb.2.2.2.2.2.2.2.1 (by rw [h]; decide)
  have hp : (b == ch '+') = false := by
    simp; intro h; exact hb.2.2.2.2.2.2.2.2.1 (by rw [h]; decide)
  simp only [hm, hp, hd]
  have hval : (b :: t').foldl (fun n b => n * 10 + digit b) 0 = value 10 (b :: t') := rfl
  simp only [hval]
  have : Num.inRange 32 (value 10 (b :: t') : Int) := by
    unfold Num.inRange; constructor <;> omega
  simp [this]

theorem hexDigits_value (t r : Bytes) (n : Nat) (ht : ∀ b ∈ t, isxdigit b = true)
    (hr : ∀ b, r.head? = some b → isxdigit b = false) :
    hexDigits n (t ++ r) = t.foldl (fun n b => n * 16 + digit b) n := by
  induction t generalizing n with
  | nil =>
    cases r with
    | nil => rfl
    | cons b r =>
      simp only [List.nil_append, hexDigits, hr b rfl, List.foldl_nil]
      simp
  | cons b t ih =>
    simp only [List.cons_append, hexDigits, ht b (by simp), if_true, List.foldl_cons]
    rw [ih _ (fun c hc => ht c (by simp [hc]))]

/-- `strtoul` of the length of a chunk. -/
theorem strtoul_value (size ext : Bytes) (n : Nat) (h : SizeOk size ext n) : strtoul16 (size ++ ext) = n := by
  obtain ⟨h0, hd, hv, hn, -, he, -⟩ := h
  have hx : ∀ b, ext.head? = some b → isxdigit b = false := by
    intro b hb; rw [he b hb]; decide
  obtain ⟨b, t, rfl⟩ := List.exists_cons_of_ne_nil h0
  have hb := xdigit_char b (hd b (by simp))
  unfold strtoul16
  have h1 : (b :: t ++ ext).dropWhile isspace = b :: t ++ ext := by
    apply dropWhile_id; simp; exact hb.1
  rw [h1]
  have hm : (some b = some (ch '-')) = False := by
    simp; intro h; exact hb.2.2.2.2.2.2.1 (by rw [h]; decide)
  have hp : (some b = some (ch '+')) = False := by
    simp; intro h; exact hb.2.2.2.2.2.2.2.1 (by rw [h]; decide)
  have hxx : ((t ++ ext).head?.map tolower = some (ch 'x')) = False := by
    simp only [Option.map_eq_some_iff, eq_iff_iff, iff_false, not_exists, not_and]
    intro c hc
    cases t with
    | nil => rw [he c hc]; decide
    | cons c' t =>
      simp at hc; subst hc
      have := (xdigit_char c' (hd c' (by simp))).2.2.2.2.2.2.2.2.1
      exact this
  simp only [List.cons_append, List.head?_cons, hm, hp, hxx, List.drop_succ_cons, List.drop_zero, decide_false, Bool.or_false,
    Bool.and_false, Bool.false_and, if_false, Bool.false_eq_true]
  have := hexDigits_value (b :: t) ext 0 hd hx
  rw [List.cons_append] at this
  have hval : (b :: t).foldl (fun n b => n * 16 + digit b) 0 = value 16 (b :: t) := rfl
  rw [this, hval, hv, if_neg (by omega)]

/-! ## Headers -/

theorem lower_take (n : Nat) (s : Bytes) : (s.take n).map tolower = (lower s).take n := by
  simp [lower, List.map_take]

theorem lower_not_colon (t : Bytes) (h : (58 : Byte) ∉ t) : (58 : Byte) ∉ lower t := by
  intro hm
  unfold lower at hm
  obtain ⟨c, hc, he⟩ := List.mem_map.mp hm
  rw [lower_colon] at he
  exact h (he ▸ hc)

/-- A line begins with a given header, as told by `strncasecmp`, only if the names are the same up to case. -/
theorem ciPrefix_name (name rest p v : Bytes) (hn : (58 : Byte) ∉ name) (hp : (58 : Byte) ∉ p)
    (h : ciPrefix (p ++ 58 :: v) (name ++ 58 :: rest) = true) : lower name = lower p := by
  unfold ciPrefix at h
  rw [beq_iff_eq, lower_take] at h
  have h1 : ∃ q, lower (name ++ 58 :: rest) = lower (p ++ 58 :: v) ++ q := by
    refine ⟨(lower (name ++ 58 :: rest)).drop (p ++ 58 :: v).length, ?_⟩
    have := List.take_append_drop (p ++ 58 :: v).length (lower (name ++ 58 :: rest))
    rw [h] at this
    exact this.symm
  obtain ⟨q, hq⟩ := h1
  have e1 : lower (name ++ 58 :: rest) = lower name ++ 58 :: lower rest := by
    simp only [lower, List.map_append, List.map_cons]; rfl
  have e2 : lower (p ++ 58 :: v) ++ q = lower p ++ 58 :: (lower v ++ q) := by
    simp only [lower, List.map_append, List.map_cons, List.append_assoc, List.cons_append]; rfl
  rw [e1, e2] at hq
  exact (split_unique 58 _ _ _ _ hq (lower_not_colon _ hn) (lower_not_colon _ hp)).1

theorem ciPrefix_same (name p v rest : Bytes) (h : lower name = lower p) :
    ciPrefix (p ++ v) (name ++ (v ++ rest)) = true := by
  unfold ciPrefix
  have hl : name.length = p.length := by
    have := congrArg List.length h
    simpa [lower] using this
  rw [beq_iff_eq]
  have : (name ++ (v ++ rest)).take (p ++ v).length = name ++ v := by
    rw [← List.append_assoc]
    apply List.take_left'
    simp [hl]
  rw [this]
  simp only [List.map_append]
  unfold lower at h
  rw [h]

/-- The line of a header, as it is after trimming. -/
def shown (h : Hdr) : Bytes := h.1 ++ 58 :: (if h.2 = [] then [] else 32 :: h.2)

theorem trimmed_append (a b : Bytes) (ha0 : a ≠ []) (ha : ∀ c, a.head? = some c → isspace c = false) (hb0 : b ≠ [])
    (hb : ∀ c, b.getLast? = some c → isspace c = false) : Trimmed (a ++ b) := by
  constructor
  · intro c hc; rw [head?_append_ne _ _ ha0] at hc; exact ha c hc
  · intro c hc; rw [getLast?_append_ne _ _ hb0] at hc; exact hb c hc

theorem trim_hdr (h : Hdr) (ok : HdrOk h) : trimString (hdrLine h ++ [13]) = shown h := by
  obtain ⟨⟨hn0, hn⟩, -, hv⟩ := ok
  have hh : ∀ c, h.1.head? = some c → isspace c = false := by
    intro c hc; exact (hn c (List.mem_of_mem_head? hc)).2.2
  unfold hdrLine shown
  by_cases h0 : h.2 = []
  · rw [h0, if_pos rfl]
    have := trim_sp_cr (h.1 ++ [58]) (trimmed_append _ _ hn0 hh (by simp) (by simp; decide))
    simpa using this
  · rw [if_neg h0]
    apply trim_cr
    apply trimmed_append _ _ hn0 hh (by simp)
    intro c hc
    apply hv.2
    have : (58 :: 32 :: h.2).getLast? = h.2.getLast? := by
      rw [show (58 :: 32 :: h.2) = [58, 32] ++ h.2 from rfl, getLast?_append_ne _ _ h0]
    rw [← this]; exact hc

theorem shown_ne (h : Hdr) : shown h ≠ [] := by simp [shown]

theorem hdrLine_line (h : Hdr) (ok : HdrOk h) : Line (hdrLine h) := by
  obtain ⟨⟨-, hn⟩, hl, -⟩ := ok
  intro b hb
  unfold hdrLine at hb
  simp at hb
  rcases hb with hb | rfl | rfl | hb
  · have := hn b hb; have h2 := space_char b this.2.2; exact ⟨this.1, h2.1, h2.2.1⟩
  · decide
  · decide
  · exact hl b hb

theorem after_shown (h : Hdr) (ok : HdrOk h) :
    ∃ v, after 58 (shown h) = some v ∧ trimString v = h.2 ∧ (shown h).takeWhile (· != 58) = h.1 := by
  obtain ⟨⟨-, hn⟩, -, hv⟩ := ok
  have h58 : (58 : Byte) ∉ h.1 := fun hm => (hn 58 hm).2.1 rfl
  refine ⟨_, after_first 58 h.1 _ h58, ?_, (take_first 58 h.1 _ h58).1⟩
  by_cases h0 : h.2 = []
  · rw [h0, if_pos rfl]; rfl
  · rw [if_neg h0]; exact trim_sp _ hv

/-! ## What a stream makes of a line -/

theorem ciPrefix_ne (p s : Bytes) (name rest q v : Bytes) (hs : s = name ++ 58 :: rest) (hp : p = q ++ 58 :: v)
    (hn : (58 : Byte) ∉ name) (hq : (58 : Byte) ∉ q) (h : lower name ≠ lower q) : ciPrefix p s = false := by
  cases hc : ciPrefix p s with
  | false => rfl
  | true => subst hs; subst hp; exact absurd (ciPrefix_name _ _ _ _ hn hq hc) h

theorem framing_other (s : St) (h : Hdr) (ok : HdrOk h) (h1 : lower h.1 ≠ contentLength) (h2 : lower h.1 ≠ transferEncoding) :
    ∃ b, s.framing (shown h) = some { s with keep := b } := by
  have h58 : (58 : Byte) ∉ h.1 := fun hm => (ok.1.2 58 hm).2.1 rfl
  have c1 : ciPrefix lContentLength (shown h) = false :=
    ciPrefix_ne _ _ h.1 _ (str ['C', 'o', 'n', 't', 'e', 'n', 't', '-', 'l', 'e', 'n', 'g', 't', 'h']) [32] rfl (by decide) h58
      (by decide) (fun e => h1 (by rw [e]; decide))
  have c2 : ciPrefix lTransferEncoding (shown h) = false :=
    ciPrefix_ne _ _ h.1 _ (str ['T', 'r', 'a', 'n', 's', 'f', 'e', 'r', '-', 'E', 'n', 'c', 'o', 'd', 'i', 'n', 'g']) [32] rfl
      (by decide) h58 (by decide) (fun e => h2 (by rw [e]; decide))
  unfold St.framing
  rw [c1, c2]
  simp only [Bool.false_eq_true, if_false, Bool.false_and]
  by_cases k1 : ciPrefix lKeepAlive (shown h) = true
  · exact ⟨true, by rw [if_pos k1]⟩
  · rw [if_neg k1]
    by_cases k2 : ciPrefix lClose (shown h) = true
    · exact ⟨false, by rw [if_pos k2]⟩
    · exact ⟨s.keep, by rw [if_neg k2]⟩

theorem framing_length (s : St) (name text : Bytes) (n : Nat) (h1 : lower name = contentLength) (h0 : text ≠ [])
    (hd : ∀ b ∈ text, isdigit b = true) (hv : value 10 text = n) (hn : n < 2 ^ 31) :
    s.framing (shown (name, text)) = some { s with remaining := n, enc := .contentLength } := by
  have hl : name.length = 14 := by
    have := congrArg List.length h1
    simpa [lower, contentLength, str] using this
  have c1 : ciPrefix lContentLength (shown (name, text)) = true := by
    have := ciPrefix_same name (str ['C', 'o', 'n', 't', 'e', 'n', 't', '-', 'l', 'e', 'n', 'g', 't', 'h']) [58, 32] text
      (by rw [h1]; decide)
    unfold shown
    rw [if_neg h0]
    exact this
  unfold St.framing
  rw [if_pos c1]
  have h2 : (shown (name, text)).drop 16 = text := by
    unfold shown
    rw [if_neg h0, show (name ++ 58 :: 32 :: text) = (name ++ [58, 32]) ++ text by simp]
    apply List.drop_left'
    simp [hl]
  have h3 := num_value text [] h0 hd (by simp) (by omega)
  rw [List.append_nil] at h3
  rw [h2, h3, hv]
  simp only [Option.map_some]
  congr 2
  omega

theorem framing_chunked (s : St) (name : Bytes) (h1 : lower name = transferEncoding) :
    s.framing (shown (name, str ['c', 'h', 'u', 'n', 'k', 'e', 'd'])) = some { s with enc := .chunked } := by
  have hl : name.length = 17 := by
    have := congrArg List.length h1
    simpa [lower, transferEncoding, str] using this
  have h58 : (58 : Byte) ∉ name := by
    intro hm
    have : tolower 58 ∈ lower name := List.mem_map_of_mem hm
    rw [h1] at this
    revert this; decide
  have c1 : ciPrefix lContentLength (shown (name, lChunked)) = false :=
    ciPrefix_ne _ _ name _ (str ['C', 'o', 'n', 't', 'e', 'n', 't', '-', 'l', 'e', 'n', 'g', 't', 'h']) [32] rfl (by decide) h58
      (by decide) (by rw [h1]; decide)
  have c2 : ciPrefix lTransferEncoding (shown (name, lChunked)) = true :=
    ciPrefix_same name (str ['T', 'r', 'a', 'n', 's', 'f', 'e', 'r', '-', 'E', 'n', 'c', 'o', 'd', 'i', 'n', 'g']) [58, 32] lChunked
      (by rw [h1]; decide)
  have h2 : (shown (name, lChunked)).drop 19 = lChunked := by
    have : shown (name, lChunked) = (name ++ [58, 32]) ++ lChunked := by
      unfold shown; simp [lChunked, str]
    rw [this]
    apply List.drop_left'
    simp [hl]
  show s.framing (shown (name, lChunked)) = _
  unfold St.framing
  rw [c1, c2, h2]
  have : strstr lChunked lChunked = true := by decide
  rw [this]
  rfl

/-- The first line, as it is after trimming. -/
def statusText (r : Resp) : Bytes :=
  str ['H', 'T', 'T', 'P', '/', '1', '.', '1', ' '] ++ (r.code ++ (if r.reason = [] then [] else 32 :: r.reason))

theorem trim_status (r : Resp) (h : Bool) (ok : r.Ok h) : trimString (r.statusLine ++ [13]) = statusText r := by
  obtain ⟨hc0, hc, -⟩ := ok.code
  have hl : ∀ c, r.code.getLast? = some c → isspace c = false := fun c hm => (digit_char c (hc c (List.mem_of_getLast? hm))).1
  unfold Resp.statusLine statusText
  by_cases h0 : r.reason = []
  · rw [h0, if_pos rfl]
    have := trim_sp_cr (str ['H', 'T', 'T', 'P', '/', '1', '.', '1', ' '] ++ r.code)
      (trimmed_append _ _ (by decide) (by decide) hc0 hl)
    simpa using this
  · rw [if_neg h0]
    apply trim_cr
    apply trimmed_append _ _ (by decide) (by decide) (by simp [hc0])
    intro c hm
    apply ok.reason.2
    rw [getLast?_append_ne _ _ (by simp), show (32 :: r.reason) = [32] ++ r.reason from rfl, getLast?_append_ne _ _ h0] at hm
    exact hm

theorem statusText_ne (r : Resp) : statusText r ≠ [] := by simp [statusText, str]

theorem status_line (r : Resp) (h : Bool) (ok : r.Ok h) : Line r.statusLine := by
  obtain ⟨hc0, hc, -⟩ := ok.code
  intro b hb
  unfold Resp.statusLine at hb
  rw [List.mem_append, List.mem_append, List.mem_cons] at hb
  rcases hb with hb | hb | rfl | hb
  · revert b; decide
  · have := digit_char b (hc b hb); exact ⟨this.2.2.1, this.2.2.2.1, this.2.2.2.2.1⟩
  · decide
  · have := ok.reason.1 b hb; exact ⟨this.1, this.2.1, this.2.2.1⟩

theorem status_no_colon (r : Resp) (h : Bool) (ok : r.Ok h) : after 58 (statusText r) = none := by
  apply after_none
  obtain ⟨hc0, hc, -⟩ := ok.code
  unfold statusText
  rw [List.mem_append, List.mem_append]
  rintro (hb | hb | hb)
  · revert hb; decide
  · exact (digit_char _ (hc _ hb)).2.2.2.2.2.1 rfl
  · by_cases h0 : r.reason = []
    · rw [if_pos h0] at hb; simp at hb
    · rw [if_neg h0, List.mem_cons] at hb
      rcases hb with hb | hb
      · revert hb; decide
      · exact (ok.reason.1 _ hb).2.2.2 rfl

theorem framing_status (s : St) (r : Resp) : s.framing (statusText r) = some s := by
  have hp : ∀ p : Bytes, p ≠ [] → (p.head?.map tolower ≠ some (ch 'h')) → ciPrefix p (statusText r) = false := by
    intro p h0 h1
    cases hc : ciPrefix p (statusText r) with
    | false => rfl
    | true =>
      exfalso
      obtain ⟨b, q, rfl⟩ := List.exists_cons_of_ne_nil h0
      unfold ciPrefix statusText at hc
      simp only [str, List.map_cons, List.map_nil, List.cons_append, List.length_cons, List.take_succ_cons, beq_iff_eq,
        List.cons.injEq] at hc
      apply h1
      simp only [List.head?_cons, Option.map_some]
      rw [← hc.1]
      decide
  unfold St.framing
  rw [hp lContentLength (by decide) (by decide), hp lTransferEncoding (by decide) (by decide),
    hp lKeepAlive (by decide) (by decide), hp lClose (by decide) (by decide)]
  rfl

theorem framing_nil (s : St) : s.framing [] = some s := by
  unfold St.framing
  rw [show ciPrefix lContentLength [] = false by decide, show ciPrefix lTransferEncoding [] = false by decide,
    show ciPrefix lKeepAlive [] = false by decide, show ciPrefix lClose [] = false by decide]
  rfl

theorem status_after (r : Resp) (h : Bool) (ok : r.Ok h) :
    ∃ v, after 32 (statusText r) = some v ∧ Num.num v = some (value 10 r.code : Int) ∧
      ((statusText r).takeWhile (· != 32)).drop 5 = str ['1', '.', '1'] := by
  obtain ⟨hc0, hc, hv⟩ := ok.code
  have e : statusText r = str ['H', 'T', 'T', 'P', '/', '1', '.', '1'] ++ 32 :: (r.code ++ (if r.reason = [] then [] else 32 :: r.reason)) := rfl
  rw [e]
  refine ⟨_, after_first 32 _ _ (by decide), ?_, ?_⟩
  · apply num_value _ _ hc0 hc _ (by omega)
    intro b hb
    by_cases h0 : r.reason = []
    · rw [if_pos h0] at hb; simp at hb
    · rw [if_neg h0] at hb; simp at hb; subst hb; decide
  · rw [(take_first 32 _ _ (by decide)).1]; decide

theorem status_http (r : Resp) : ciPrefix lHttp (statusText r) = true ∧ lHttp10.isPrefixOf (statusText r) = false := by
  constructor
  · unfold ciPrefix statusText; simp [str, lHttp]
  · unfold statusText; simp [str, lHttp10, List.isPrefixOf, show (ch '0' == ch '1') = false by decide]

theorem suspicious_some (s : St) (r : Resp) (h : Bool) (ok : r.Ok h) :
    ∃ b, s.suspicious (statusText r) = some b ∧ (b = true → s.lastTest = true) := by
  unfold St.suspicious
  by_cases h1 : s.lastTest = true
  · rw [if_pos h1]
    by_cases h2 : statusText r = s.testResponse
    · rw [if_pos h2]; exact ⟨true, rfl, fun _ => h1⟩
    · rw [if_neg h2, if_neg (statusText_ne r)]
      obtain ⟨v, e1, e2, -⟩ := status_after r h ok
      rw [e1]
      simp only [e2, Option.map_some]
      exact ⟨_, rfl, fun _ => h1⟩
  · rw [if_neg h1]; exact ⟨false, rfl, fun hh => by cases hh⟩

theorem header_status (s : St) (u : Req) (r : Resp) (h : Bool) (ok : r.Ok h) :
    s.header u (statusText r) =
      some (s.out u fun o => { o with version := str ['1', '.', '1'], status := value 10 r.code }) := by
  unfold St.header
  rw [status_no_colon r h ok]
  obtain ⟨v, e1, e2, e3⟩ := status_after r h ok
  simp only [(status_http r).1, if_true, e1, e2, e3, Option.map_some]
  cases u with
  | get id hd => rfl
  | test n => rfl

theorem header_hdr (s : St) (u : Req) (h : Hdr) (ok : HdrOk h) :
    s.header u (shown h) = some (s.out u fun o => { o with headers := o.headers ++ [h] }) := by
  unfold St.header
  obtain ⟨v, e1, e2, e3⟩ := after_shown h ok
  simp only [e1, e2, e3]

end Wv.Http
