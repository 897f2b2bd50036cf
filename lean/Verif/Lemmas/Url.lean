import Verif.Model.Url
import Verif.Lemmas.Basic
import Verif.Lemmas.HttpText
import Verif.Props.Num
/-!
Lemmas for Props/Url.
-/
namespace Wv.Url
open Spec.Url (Parts Proto PortText PathText protos text free noSpace Writable)
open Spec.Num (decimal)

theorem cut_first (c : Byte) (a b : List Byte) (h : c ∉ a) : cut c (a ++ c :: b) = some (a, b) := by
  induction a with
  | nil => simp [cut]
  | cons x a ih =>
    have hx : (x == c) = false := by
      simp only [beq_eq_false_iff_ne]; intro e; exact h (by simp [e])
    simp only [List.cons_append, cut, hx, ih (fun m => h (List.mem_cons_of_mem _ m)), Option.map_some]; rfl

theorem cut_none (c : Byte) (a : List Byte) (h : c ∉ a) : cut c a = none := by
  induction a with
  | nil => rfl
  | cons x a ih =>
    have hx : (x == c) = false := by
      simp only [beq_eq_false_iff_ne]; intro e; exact h (by simp [e])
    simp only [cut, hx, ih (fun m => h (List.mem_cons_of_mem _ m)), Option.map_none]; rfl

theorem cut_some (c : Byte) (s a b : List Byte) (h : cut c s = some (a, b)) : s = a ++ c :: b ∧ c ∉ a := by
  induction s generalizing a b with
  | nil => cases h
  | cons x s ih =>
    by_cases hx : x = c
    · subst hx
      simp only [cut, beq_self_eq_true, if_true, Option.some.injEq, Prod.mk.injEq] at h
      obtain ⟨rfl, rfl⟩ := h
      simp
    · have hx' : (x == c) = false := by simpa using hx
      simp only [cut, hx', Bool.false_eq_true, if_false, Option.map_eq_some_iff] at h
      obtain ⟨⟨a', b'⟩, h1, h2⟩ := h
      simp only [Prod.mk.injEq] at h2
      obtain ⟨rfl, rfl⟩ := h2
      obtain ⟨e, n⟩ := ih a' b' h1
      refine ⟨by rw [e]; rfl, ?_⟩
      simp only [List.mem_cons, not_or]
      exact ⟨fun e => hx e.symm, n⟩

theorem cut_eq_none (c : Byte) (s : List Byte) (h : cut c s = none) : c ∉ s := by
  intro m
  obtain ⟨a, b, e, n⟩ := List.append_of_mem m |>.elim fun a ⟨b, e⟩ => (⟨a, b, e, trivial⟩ : ∃ a b, s = a ++ c :: b ∧ True)
  clear n
  induction s generalizing a with
  | nil => cases m
  | cons x s ih =>
    by_cases hx : x = c
    · subst hx; simp [cut] at h
    · have hx' : (x == c) = false := by simpa using hx
      simp only [cut, hx', Bool.false_eq_true, if_false, Option.map_eq_none_iff] at h
      cases a with
      | nil => simp only [List.nil_append, List.cons.injEq] at e; exact hx e.1
      | cons y a =>
        simp only [List.cons_append, List.cons.injEq] at e
        exact ih h (by rw [e.2]; simp) a e.2

/-! ## The parts -/

/-- The text of user and password. -/
def uText (user pw : List Byte) : List Byte :=
  if user = [] then [] else if pw = [] then user ++ str ['@'] else user ++ str [':'] ++ pw ++ str ['@']

structure UserOk (user pw : List Byte) : Prop where
  at1 : ch '@' ∉ user
  at2 : ch '@' ∉ pw
  nouser : user = [] → pw = []
  colon : pw ≠ [] → ch ':' ∉ user
  last : pw = [] → ∀ a b, cut (ch ':') user = some (a, b) → b = []

theorem userPart_ok (user pw R : List Byte) (h : UserOk user pw) (hR : user = [] → ch '@' ∉ R) :
    userPart (uText user pw ++ R) = (user, pw, R) := by
  unfold userPart uText
  by_cases hu : user = []
  · rw [if_pos hu, List.nil_append, cut_none _ _ (hR hu), h.nouser hu, hu]
  · rw [if_neg hu]
    by_cases hp : pw = []
    · rw [if_pos hp, show user ++ str ['@'] ++ R = user ++ ch '@' :: R by simp [str], cut_first _ _ _ h.at1]
      dsimp only
      cases hc : cut (ch ':') user with
      | none => simp [hp]
      | some q =>
        obtain ⟨a, b⟩ := q
        have := h.last hp a b hc
        simp [this, hp]
    · have hc := h.colon hp
      have hn : ch '@' ∉ user ++ ch ':' :: pw := by
        simp only [List.mem_append, List.mem_cons, not_or]
        exact ⟨h.at1, by decide, h.at2⟩
      rw [if_neg hp, show user ++ str [':'] ++ pw ++ str ['@'] ++ R = (user ++ ch ':' :: pw) ++ ch '@' :: R by simp [str], cut_first _ _ _ hn]
      dsimp only
      rw [cut_first _ _ _ hc]
      simp [hp]

/-- The user and the password that are read. -/
theorem userPart_inv (w : List Byte) : let u := userPart w
    ch '@' ∉ u.1 ∧ ch '@' ∉ u.2.1 ∧ (u.2.1 ≠ [] → ch ':' ∉ u.1) ∧
    (u.2.1 = [] → ∀ a b, cut (ch ':') u.1 = some (a, b) → b = []) ∧
    (∀ c, c ∈ u.1 ∨ c ∈ u.2.1 ∨ c ∈ u.2.2 → c ∈ w) := by
  unfold userPart
  cases h : cut (ch '@') w with
  | none => simp [cut]
  | some p =>
    obtain ⟨a, b⟩ := p
    obtain ⟨e, n⟩ := cut_some _ _ _ _ h
    dsimp only
    cases h2 : cut (ch ':') a with
    | none =>
      dsimp only
      refine ⟨n, by simp, by simp, fun _ x y hx => ?_, ?_⟩
      · rw [h2] at hx; cases hx
      · rintro c (hc | hc | hc)
        · rw [e]; simp [hc]
        · simp at hc
        · rw [e]; simp [hc]
    | some q =>
      obtain ⟨u, p⟩ := q
      obtain ⟨e2, n2⟩ := cut_some _ _ _ _ h2
      dsimp only
      by_cases hp : p = []
      · simp only [hp, ne_eq, not_true, if_false]
        refine ⟨n, by simp, by simp, fun _ x y hx => ?_, ?_⟩
        · rw [h2] at hx; cases hx; exact hp
        · rintro c (hc | hc | hc)
          · rw [e]; simp [hc]
          · simp at hc
          · rw [e]; simp [hc]
      · simp only [hp, ne_eq, not_false_eq_true, if_true]
        have n3 : ch '@' ∉ u ∧ ch '@' ∉ p := by
          rw [e2] at n
          simp only [List.mem_append, List.mem_cons, not_or] at n
          exact ⟨n.1, n.2.2⟩
        refine ⟨n3.1, n3.2, fun _ => n2, fun hx => False.elim hx, ?_⟩
        rintro c (hc | hc | hc)
        · rw [e, e2]; simp [hc]
        · rw [e, e2]; simp [hc]
        · rw [e]; simp [hc]

theorem filePart_given (sl : Bool) (hp t : List Byte) (h : ch '/' ∉ hp) : filePart sl (hp ++ ch '/' :: t) = (hp, ch '/' :: t) := by
  unfold filePart; rw [cut_first _ _ _ h]

theorem filePart_none (sl : Bool) (hp : List Byte) (h : ch '/' ∉ hp) : filePart sl hp = (hp, if sl then str ['/'] else []) := by
  unfold filePart; rw [cut_none _ _ h]

theorem filePart_inv (sl : Bool) (w : List Byte) : let f := filePart sl w
    ch '/' ∉ f.1 ∧ ((f.2 = [] ∧ sl = false) ∨ ∃ t, f.2 = ch '/' :: t) ∧ (∀ c ∈ f.1, c ∈ w) ∧ (∀ c ∈ f.2, c ∈ w ∨ c = ch '/') := by
  unfold filePart
  cases h : cut (ch '/') w with
  | none =>
    have n := cut_eq_none _ _ h
    cases sl
    · refine ⟨n, Or.inl ⟨rfl, rfl⟩, fun c hc => hc, fun c hc => ?_⟩
      simp at hc
    · exact ⟨n, Or.inr ⟨[], rfl⟩, fun c hc => hc, fun c hc => by simp [str] at hc; exact Or.inr hc⟩
  | some p =>
    obtain ⟨a, b⟩ := p
    obtain ⟨e, n⟩ := cut_some _ _ _ _ h
    refine ⟨n, Or.inr ⟨b, rfl⟩, fun c hc => ?_, fun c hc => ?_⟩
    · rw [e]; simp [hc]
    · rw [e]; simp at hc ⊢; rcases hc with hc | hc <;> simp [hc]

theorem hostPart_default (proto host : List Byte) (h : ch ':' ∉ host) : hostPart proto host = some (host, defaultPort proto) := by
  unfold hostPart; rw [cut_none _ _ h]

theorem hostPart_given (proto host : List Byte) (n : Int) (h : ch ':' ∉ host) (hn : Num.inRange 32 n) :
    hostPart proto (host ++ ch ':' :: decimal n) = some (host, n) := by
  unfold hostPart; rw [cut_first _ _ _ h]
  dsimp only
  rw [Props.C32_num n hn]; rfl

theorem ite_inRange (v n : Int) (h : (if Num.inRange 32 v then some v else none) = some n) : Num.inRange 32 n := by
  by_cases hr : Num.inRange 32 v
  · rw [if_pos hr] at h; cases h; exact hr
  · rw [if_neg hr] at h; cases h

theorem num_inRange (s : List Byte) (n : Int) (h : Num.num s = some n) : Num.inRange 32 n := ite_inRange _ _ h

theorem decimal_chars (n : Int) (c : Byte) (h : c ∈ decimal n) : c ≠ ch '/' ∧ c ≠ ch '@' ∧ isspace c = false := by
  have hd : ∀ c : Byte, isdigit c = true → c ≠ ch '/' ∧ c ≠ ch '@' ∧ isspace c = false := by
    intro c; revert c; apply forall_byte; decide +kernel
  unfold decimal at h
  rw [List.mem_append] at h
  rcases h with h | h
  · split at h
    · simp at h; rw [h]; decide
    · simp at h
  · exact hd c (Num.dec_isdigit n.natAbs c h).1

theorem hostPart_inv (proto w : List Byte) (r : List Byte × Int) (h : hostPart proto w = some r) :
    ch ':' ∉ r.1 ∧ (∀ c ∈ r.1, c ∈ w) ∧ (r.2 = defaultPort proto ∨ Num.inRange 32 r.2) := by
  unfold hostPart at h
  cases hc : cut (ch ':') w with
  | none =>
    rw [hc] at h
    cases h
    exact ⟨cut_eq_none _ _ hc, fun c hc => hc, Or.inl rfl⟩
  | some p =>
    obtain ⟨a, b⟩ := p
    obtain ⟨e, n⟩ := cut_some _ _ _ _ hc
    rw [hc] at h
    dsimp only at h
    rw [Option.map_eq_some_iff] at h
    obtain ⟨k, hk, rfl⟩ := h
    exact ⟨n, fun c hc => by rw [e]; simp [hc], Or.inr (num_inRange _ _ hk)⟩

/-! ## The protocol -/

theorem isPrefixOf_colon (e p rest : List Byte) (h : ch ':' ∉ e) : e.isPrefixOf (p ++ ch ':' :: rest) = e.isPrefixOf p := by
  induction e generalizing p with
  | nil => simp
  | cons x e ih =>
    simp only [List.mem_cons, not_or] at h
    cases p with
    | nil =>
      have : (x == ch ':') = false := by simpa using fun e : x = ch ':' => h.1 e.symm
      rw [List.nil_append, List.isPrefixOf_cons₂, this]; rfl
    | cons y p =>
      simp only [List.cons_append, List.isPrefixOf_cons₂, ih p h.2]

theorem portmap_colon : ∀ e ∈ portmap, ch ':' ∉ e.proto := by decide +kernel

theorem find?_same {α : Type} (p q : α → Bool) (l : List α) (h : ∀ a ∈ l, p a = q a) : l.find? p = l.find? q := by
  induction l with
  | nil => rfl
  | cons a l ih =>
    simp only [List.find?_cons, h a (by simp), ih fun b hb => h b (List.mem_cons_of_mem _ hb)]

theorem lookup_colon (p rest : List Byte) : lookup (p ++ ch ':' :: rest) = lookup p := by
  unfold lookup
  exact find?_same _ _ _ fun e he => isPrefixOf_colon _ _ _ (portmap_colon e he)

theorem defaultPort_colon (p rest : List Byte) : defaultPort (p ++ ch ':' :: rest) = defaultPort p := by
  unfold defaultPort; rw [lookup_colon]

theorem protos_lookup : ∀ p ∈ protos, ch ':' ∉ p.name ∧ noSpace p.name ∧ p.name ≠ [] ∧
    defaultPort p.name = p.port ∧ usesSlashes p.name = p.slashes ∧ 0 ≤ p.port ∧ ch '@' ∉ p.name := by
  unfold noSpace; decide +kernel

theorem lookup_nonneg (t : List Byte) : defaultPort t < 0 ∨ (0 ≤ defaultPort t ∧ t ≠ [] ∧ defaultPort t < 65536 ∧ ∀ b, t.head? = some b → isspace b = false) := by
  unfold defaultPort
  cases h : lookup t with
  | none => left; decide
  | some e =>
    right
    unfold lookup at h
    have hm := List.mem_of_find?_eq_some h
    have hp := List.find?_some h
    have : ∀ e ∈ portmap, 0 ≤ e.port ∧ e.proto ≠ [] ∧ e.port < 65536 ∧ ∀ b ∈ e.proto, isspace b = false := by decide +kernel
    obtain ⟨h1, h2, h3, h4⟩ := this e hm
    dsimp only
    cases hq : e.proto with
    | nil => exact absurd hq h2
    | cons x q =>
      rw [hq] at hp h4
      cases t with
      | nil => simp at hp
      | cons y t =>
        simp only [List.isPrefixOf_cons₂, Bool.and_eq_true, beq_iff_eq] at hp
        refine ⟨h1, by simp, h3, fun b hb => ?_⟩
        simp at hb
        rw [← hb, ← hp.1]; exact h4 x (by simp)

/-- Reading a text that is made of parts. -/
theorem readWord_ok (proto u R f : List Byte) (user pw : List Byte) (hp path : List Byte) (host : List Byte) (port : Int)
    (h0 : ¬ defaultPort proto < 0) (hc : ch ':' ∉ proto)
    (hu : userPart u = (user, pw, R)) (hf : filePart (usesSlashes proto) R = (hp, path)) (hh : hostPart proto hp = some (host, port))
    (he : f = proto ++ ch ':' :: ((if usesSlashes proto then str ['/', '/'] else []) ++ u)) :
    readWord f = some ⟨proto, user, pw, host, port, path⟩ := by
  unfold readWord
  rw [he, defaultPort_colon, if_neg h0, cut_first _ _ _ hc]
  dsimp only
  cases hs : usesSlashes proto with
  | false =>
    rw [hs] at hf
    simp [hu, hf, hh]
  | true =>
    rw [hs] at hf
    simp [str, hu, hf, hh]

/-- What is read. -/
theorem readWord_inv (w : List Byte) (u : Parts) (h : readWord w = some u) (hok : u.port ≠ 0) :
    ¬ defaultPort u.proto < 0 ∧ ch ':' ∉ u.proto ∧
    ch '@' ∉ u.user ∧ ch '@' ∉ u.password ∧ (u.password ≠ [] → ch ':' ∉ u.user) ∧
    (u.password = [] → ∀ a b, cut (ch ':') u.user = some (a, b) → b = []) ∧
    ch '/' ∉ u.host ∧ ch ':' ∉ u.host ∧
    ((u.path = [] ∧ usesSlashes u.proto = false) ∨ ∃ t, u.path = ch '/' :: t) ∧
    (u.port = defaultPort u.proto ∨ Num.inRange 32 u.port) ∧
    (∀ c, c ∈ u.proto ∨ c ∈ u.user ∨ c ∈ u.password ∨ c ∈ u.host ∨ c ∈ u.path → c ∈ w ∨ c = ch '/') := by
  unfold readWord at h
  by_cases h0 : defaultPort w < 0
  · rw [if_pos h0] at h; cases h; exact absurd rfl hok
  · rw [if_neg h0] at h
    cases hc : cut (ch ':') w with
    | none => rw [hc] at h; cases h; exact absurd rfl hok
    | some p =>
      obtain ⟨proto, rest⟩ := p
      obtain ⟨e, n⟩ := cut_some _ _ _ _ hc
      rw [hc] at h
      dsimp only at h
      by_cases hs : (usesSlashes proto && decide (rest.length < 2)) = true
      · rw [if_pos hs] at h; cases h
      · rw [if_neg hs, Option.map_eq_some_iff] at h
        obtain ⟨r, hr, rfl⟩ := h
        generalize hv : (if usesSlashes proto = true then rest.drop 2 else rest) = v at *
        have hvw : ∀ c ∈ v, c ∈ w := by
          intro c hc
          rw [e]
          have : c ∈ rest := by
            rw [← hv] at hc
            by_cases hx : usesSlashes proto = true
            · rw [if_pos hx] at hc; exact List.mem_of_mem_drop hc
            · rw [if_neg hx] at hc; exact hc
          simp [this]
        obtain ⟨a1, a2, a3, a4, a5⟩ := userPart_inv v
        obtain ⟨b1, b2, b3, b4⟩ := filePart_inv (usesSlashes proto) (userPart v).2.2
        obtain ⟨c1, c2, c3⟩ := hostPart_inv _ _ _ hr
        dsimp only
        refine ⟨?_, n, a1, a2, a3, a4, fun m => b1 (c2 _ m), c1, ?_, c3, ?_⟩
        · rw [e, defaultPort_colon] at h0; exact h0
        · rcases b2 with b2 | b2
          · exact Or.inl b2
          · exact Or.inr b2
        · rintro c (hc | hc | hc | hc | hc)
          · left; rw [e]; simp [hc]
          · left; exact hvw _ (a5 c (Or.inl hc))
          · left; exact hvw _ (a5 c (Or.inr (Or.inl hc)))
          · left; exact hvw _ (a5 c (Or.inr (Or.inr (b3 c (c2 c hc)))))
          · rcases b4 c hc with m | m
            · left; exact hvw _ (a5 c (Or.inr (Or.inr m)))
            · exact Or.inr m

/-! ## White space -/

theorem stops_space (c : Byte) : stops c = true → isspace c = true := by
  revert c; apply forall_byte; decide +kernel

theorem space_stops (c : Byte) : isspace c = true → stops c = true ∨ c = 11 ∨ c = 12 := by
  revert c; apply forall_byte; decide +kernel

theorem takeWhile_word (t : List Byte) (h : noSpace t) : (t.takeWhile fun c => !stops c) = t := by
  induction t with
  | nil => rfl
  | cons x t ih =>
    have hx : stops x = false := by
      cases hs : stops x with
      | false => rfl
      | true => exact absurd (stops_space x hs) (by rw [h x (by simp)]; simp)
    rw [List.takeWhile_cons]
    simp only [hx, Bool.not_false, if_true]
    rw [ih fun c hc => h c (List.mem_cons_of_mem _ hc)]

theorem parse_word (a t b : List Byte) (h : noSpace t) (ha : ∀ c ∈ a, isspace c = true) (hb : ∀ c ∈ b, isspace c = true) :
    parse (a ++ t ++ b) = readWord t := by
  have ht : Spec.Http.Trimmed t := ⟨fun c hc => h c (List.mem_of_mem_head? hc), fun c hc => h c (List.mem_of_getLast? hc)⟩
  unfold parse
  rw [Http.trim_pad a t b ht ha hb, takeWhile_word t h]

theorem word_mem (s : List Byte) (c : Byte) (h : c ∈ (trimString s).takeWhile fun c => !stops c) : c ∈ s ∧ stops c = false := by
  have h1 : c ∈ trimString s := (List.takeWhile_prefix _).subset h
  refine ⟨?_, ?_⟩
  · unfold trimString at h1
    have h2 := (List.dropWhile_suffix _).subset h1
    rw [List.mem_reverse] at h2
    have h3 := (List.dropWhile_suffix _).subset h2
    rwa [List.mem_reverse] at h3
  · have := List.all_takeWhile (p := fun c => !stops c) (l := trimString s)
    rw [List.all_eq_true] at this
    simpa using this c h

end Wv.Url
