import Verif.Spec.Url
import Verif.Model.Url
import Verif.Lemmas.Url
/-!
C69: a URL is read into its parts, and printed so that it is read as the same URL again.
-/
namespace Props
open Wv Wv.Url
open Spec.Url (Parts Proto PortText PathText protos text free noSpace Writable)

namespace Url69

def bytes (s : String) : List Byte := s.toList.map ch

theorem noSpace_append (a b : List Byte) (ha : noSpace a) (hb : noSpace b) : noSpace (a ++ b) := by
  intro c hc; rw [List.mem_append] at hc; exact hc.elim (ha c) (hb c)

theorem uText_noSpace (u p : List Byte) (hu : noSpace u) (hp : noSpace p) : noSpace (uText u p) := by
  have h1 : noSpace (str ['@']) := by unfold noSpace; decide +kernel
  have h2 : noSpace (str [':']) := by unfold noSpace; decide +kernel
  unfold uText
  split
  · intro c hc; cases hc
  · split
    · exact noSpace_append _ _ hu h1
    · exact noSpace_append _ _ (noSpace_append _ _ (noSpace_append _ _ hu h2) hp) h1

theorem text_eq (p : Proto) (user pw host : List Byte) (port : PortText) (path : PathText) :
    text p user pw host port path = p.name ++ ch ':' :: ((if p.slashes then str ['/', '/'] else []) ++ (uText user pw ++
      (host ++ port.text ++ path.text))) := by
  unfold text uText; simp [str]

end Url69
open Url69

/-- C69 (reading): the parts of a URL are read from its text, with any white space before and after it: for every protocol of
    the list, with or without a user, a password, a port or a path. The URL is ok exactly if its port is not 0. Missing: a '@' in
    the path of a URL without a user (`C69_at_fails`). -/
theorem C69_parse_partial (p : Proto) (hp : p ∈ protos) (user pw host : List Byte) (port : PortText) (path : PathText)
    (h : Writable user pw host port path) (hat : ∀ t, path = .given t → user = [] → ch '@' ∉ t)
    (a b : List Byte) (ha : ∀ c ∈ a, isspace c = true) (hb : ∀ c ∈ b, isspace c = true) :
    parse (a ++ text p user pw host port path ++ b) = some ⟨p.name, user, pw, host, port.value p, path.value p⟩
    ∧ isok ⟨p.name, user, pw, host, port.value p, path.value p⟩ = decide (port.value p ≠ 0) := by
  obtain ⟨p1, p2, p3, p4, p5, p6, p7⟩ := protos_lookup p hp
  obtain ⟨⟨u1, u2⟩, ⟨w1, w2, w3⟩, ⟨h1, h2⟩, h4, h5⟩ := h
  refine ⟨?_, by simp [isok]⟩
  have hh : ch '@' ∉ host ∧ ch ':' ∉ host ∧ ch '/' ∉ host := ⟨h1 _ (by simp), h1 _ (by simp), h1 _ (by simp)⟩
  have hu : UserOk user pw := ⟨u1 _ (by simp), w1 _ (by simp), w3, fun _ => u1 _ (by simp), fun _ a b e => by
    rw [cut_none _ _ (u1 ':' (by simp))] at e; cases e⟩
  have hP : ∃ P, port.text = P
      ∧ ch '/' ∉ P ∧ ch '@' ∉ P ∧ noSpace P ∧ hostPart p.name (host ++ P) = some (host, port.value p) := by
    cases port with
    | default => exact ⟨[], rfl, by simp, by simp, fun c hc => (by cases hc), by
        rw [List.append_nil, hostPart_default _ _ hh.2.1, p4]; rfl⟩
    | given n =>
      have hn := h4 n rfl
      refine ⟨ch ':' :: Spec.Num.decimal n, rfl, ?_, ?_, ?_, hostPart_given _ _ _ hh.2.1 (by unfold Num.inRange; omega)⟩
      · intro m
        rcases List.mem_cons.mp m with m | m
        · revert m; decide
        · exact (decimal_chars _ _ m).1 rfl
      · intro m
        rcases List.mem_cons.mp m with m | m
        · revert m; decide
        · exact (decimal_chars _ _ m).2.1 rfl
      · intro c m
        rcases List.mem_cons.mp m with m | m
        · rw [m]; decide
        · exact (decimal_chars _ _ m).2.2
  obtain ⟨P, eP, P1, P2, P3, P4⟩ := hP
  have hF : ∃ F, path.text = F ∧ (user = [] → ch '@' ∉ F) ∧ noSpace F ∧
      filePart (usesSlashes p.name) (host ++ P ++ F) = (host ++ P, path.value p) := by
    have hHP : ch '/' ∉ host ++ P := by
      rw [List.mem_append]; exact fun m => m.elim hh.2.2 P1
    cases path with
    | none => exact ⟨[], rfl, fun _ => by simp, fun c hc => (by cases hc), by
        rw [List.append_nil, filePart_none _ _ hHP, p5]; rfl⟩
    | given t =>
      refine ⟨ch '/' :: t, rfl, fun he m => ?_, fun c m => ?_, by rw [filePart_given _ _ _ hHP]; rfl⟩
      · rcases List.mem_cons.mp m with m | m
        · revert m; decide
        · exact hat t rfl he m
      · rcases List.mem_cons.mp m with m | m
        · rw [m]; decide
        · exact h5 t rfl c m
  obtain ⟨F, eF, F1, F2, F3⟩ := hF
  have et := text_eq p user pw host port path
  rw [eP, eF] at et
  have hns : noSpace (text p user pw host port path) := by
    rw [et]
    have hs : noSpace (if p.slashes then str ['/', '/'] else []) := by
      cases p.slashes <;> (unfold noSpace; decide +kernel)
    refine noSpace_append _ _ p2 ?_
    intro c m
    rcases List.mem_cons.mp m with m | m
    · rw [m]; decide
    · exact noSpace_append _ _ hs (noSpace_append _ _ (uText_noSpace _ _ u2 w2) (noSpace_append _ _ (noSpace_append _ _ h2 P3) F2)) c m
  rw [parse_word a _ b hns ha hb]
  refine readWord_ok p.name _ _ _ user pw (host ++ P) _ host _ (by rw [p4]; omega) p1
    (userPart_ok user pw (host ++ P ++ F) hu fun e m => ?_) F3 P4 (by rw [et, p5])
  simp only [List.mem_append] at m
  rcases m with (m | m) | m
  · exact hh.1 m
  · exact P2 m
  · exact F1 e m

/-- The hypotheses are met: a URL with all its parts. -/
example : ∃ p ∈ protos, Writable (bytes "me") (bytes "a:b/c") (bytes "example.com") (.given 8080) (.given (bytes "x@y"))
    ∧ text p (bytes "me") (bytes "a:b/c") (bytes "example.com") (.given 8080) (.given (bytes "x@y"))
      = bytes "https://me:a:b/c@example.com:8080/x@y" := by
  refine ⟨⟨bytes "https", 443, true⟩, List.mem_iff_getElem?.mpr ⟨3, by decide +kernel⟩, ⟨?_, ?_, ?_, ?_, ?_⟩, by decide +kernel⟩
  · unfold free noSpace; decide +kernel
  · unfold free noSpace; decide +kernel
  · unfold free noSpace; decide +kernel
  · intro n e; cases e; decide
  · intro t e; cases e; unfold noSpace; decide +kernel

/-- C69 (printing): the text of a URL that was read is read as the same URL again: all its parts are the same, whatever the first
    text was. Missing: a password without a user, a '@' behind a user that is empty (`C69_password_fails`, `C69_noname_fails`),
    and the white space that is trimmed but does not end the URL, vertical tab and form feed (`C69_feed_fails`). -/
theorem C69_reparse_partial (s t : List Byte) (u : Parts) (h : parse s = some u) (hok : isok u = true) (ht : print u = some t)
    (hff : (11 : Byte) ∉ s ∧ (12 : Byte) ∉ s)
    (hu : u.user = [] → u.password = [] ∧ ch '@' ∉ u.host ∧ ch '@' ∉ u.path) :
    parse t = some u := by
  have hok' : u.port ≠ 0 := by simpa [isok] using hok
  obtain ⟨i1, i2, i3, i4, i5, i6, i7, i8, i9, i10, i11⟩ := readWord_inv _ u h hok'
  have hsp : ∀ c, c ∈ u.proto ∨ c ∈ u.user ∨ c ∈ u.password ∨ c ∈ u.host ∨ c ∈ u.path → isspace c = false := by
    intro c hc
    rcases i11 c hc with m | m
    · obtain ⟨m1, m2⟩ := word_mem _ _ m
      cases hs : isspace c with
      | false => rfl
      | true =>
        rcases space_stops c hs with x | x | x
        · rw [m2] at x; cases x
        · rw [x] at m1; exact absurd m1 hff.1
        · rw [x] at m1; exact absurd m1 hff.2
    · rw [m]; decide
  have hP : ∃ P, ch '/' ∉ P ∧ ch '@' ∉ P ∧ noSpace P ∧ hostPart u.proto (u.host ++ P) = some (u.host, u.port)
      ∧ t = u.proto ++ ch ':' :: ((if usesSlashes u.proto then str ['/', '/'] else []) ++ (uText u.user u.password ++ (u.host ++ P ++ u.path))) := by
    have ep : ∀ P, (if usesSlashes u.proto then u.proto ++ str [':', '/', '/'] else u.proto ++ str [':']) ++
        (if u.user ≠ [] then u.user ++ (if u.password ≠ [] then ch ':' :: u.password ++ str ['@'] else str ['@']) else []) ++
        u.host ++ P ++ u.path = u.proto ++ ch ':' :: ((if usesSlashes u.proto then str ['/', '/'] else []) ++ (uText u.user u.password ++ (u.host ++ P ++ u.path))) := by
      intro P
      unfold uText
      by_cases e1 : u.user = [] <;> by_cases e2 : u.password = [] <;> cases usesSlashes u.proto <;> simp [e1, e2, str]
    unfold print at ht
    dsimp only at ht
    by_cases hc : u.port ≠ 0 ∧ u.port ≠ defaultPort u.proto
    · rw [if_pos hc] at ht
      have hr : Num.inRange 32 u.port := i10.elim (fun e => absurd e hc.2) id
      have hmin : u.port ≠ -(2 ^ (32 - 1) : Nat) := by
        intro e
        rw [e, C32_print_smallest_undefined 32 (by omega)] at ht
        cases ht
      rw [C32_print_signed_partial 32 u.port hr hmin] at ht
      simp only [Option.map_some, Option.some.injEq] at ht
      refine ⟨ch ':' :: Spec.Num.decimal u.port, ?_, ?_, ?_, hostPart_given _ _ _ i8 hr, by rw [← ht, ep]⟩
      · intro m
        rcases List.mem_cons.mp m with m | m
        · revert m; decide
        · exact (decimal_chars _ _ m).1 rfl
      · intro m
        rcases List.mem_cons.mp m with m | m
        · revert m; decide
        · exact (decimal_chars _ _ m).2.1 rfl
      · intro c m
        rcases List.mem_cons.mp m with m | m
        · rw [m]; decide
        · exact (decimal_chars _ _ m).2.2
    · rw [if_neg hc] at ht
      have hd : u.port = defaultPort u.proto := Classical.byContradiction fun e => hc ⟨hok', e⟩
      simp only [Option.map_some, Option.some.injEq] at ht
      refine ⟨[], by simp, by simp, fun c hc => (by cases hc), ?_, by rw [← ht, ep]⟩
      rw [List.append_nil, hostPart_default _ _ i8, ← hd]
  obtain ⟨P, P1, P2, P3, P4, et⟩ := hP
  have hns : noSpace t := by
    rw [et]
    have hs : noSpace (if usesSlashes u.proto then str ['/', '/'] else []) := by
      cases usesSlashes u.proto <;> (unfold noSpace; decide +kernel)
    refine noSpace_append _ _ (fun c m => hsp c (Or.inl m)) ?_
    intro c m
    rcases List.mem_cons.mp m with m | m
    · rw [m]; decide
    · refine noSpace_append _ _ hs (noSpace_append _ _ (uText_noSpace _ _ ?_ ?_) (noSpace_append _ _ (noSpace_append _ _ ?_ P3) ?_)) c m
      · exact fun c m => hsp c (Or.inr (Or.inl m))
      · exact fun c m => hsp c (Or.inr (Or.inr (Or.inl m)))
      · exact fun c m => hsp c (Or.inr (Or.inr (Or.inr (Or.inl m))))
      · exact fun c m => hsp c (Or.inr (Or.inr (Or.inr (Or.inr m))))
  have hw := parse_word [] t [] hns (by simp) (by simp)
  rw [List.nil_append, List.append_nil] at hw
  rw [hw]
  have hHP : ch '/' ∉ u.host ++ P := by
    rw [List.mem_append]; exact fun m => m.elim i7 P1
  refine readWord_ok u.proto _ _ _ u.user u.password (u.host ++ P) u.path u.host u.port i1 i2
    (userPart_ok u.user u.password (u.host ++ P ++ u.path) ⟨i3, i4, fun e => (hu e).1, i5, i6⟩ fun e m => ?_) ?_ P4 et
  · simp only [List.mem_append] at m
    rcases m with (m | m) | m
    · exact (hu e).2.1 m
    · exact P2 m
    · exact (hu e).2.2 m
  · rcases i9 with ⟨e1, e2⟩ | ⟨r, e⟩
    · rw [e1, List.append_nil, filePart_none _ _ hHP, e2]; rfl
    · rw [e, filePart_given _ _ _ hHP]

/-- The hypotheses are met: a port that is not the default, a user, and white space around it. -/
example : ∃ u t, parse (bytes " ftp://me@host:2121 ") = some u ∧ isok u = true ∧ print u = some t ∧ t = bytes "ftp://me@host:2121/"
    ∧ u.user ≠ [] := by
  refine ⟨⟨bytes "ftp", bytes "me", [], bytes "host", 2121, bytes "/"⟩, bytes "ftp://me@host:2121/", ?_⟩
  decide +kernel

/-- C69: a '@' in the path makes a part of the path the host. The part before it is the user. -/
theorem C69_at_fails : ¬ ∀ (p : Proto) (user pw host : List Byte) (port : PortText) (path : PathText), p ∈ protos →
    Writable user pw host port path →
    parse (text p user pw host port path) = some ⟨p.name, user, pw, host, port.value p, path.value p⟩ := by
  intro hall
  have := hall ⟨bytes "http", 80, true⟩ [] [] (bytes "host") .default (.given (bytes "a@evil"))
    (List.mem_iff_getElem?.mpr ⟨2, by decide +kernel⟩) ⟨(by unfold free noSpace; decide +kernel), (by unfold free noSpace; decide +kernel),
      (by unfold free noSpace; decide +kernel), (by intro n e; cases e), (by intro t e; cases e; unfold noSpace; decide +kernel)⟩
  revert this
  decide +kernel

/-- C69: the URL of a file is never ok. -/
theorem C69_file_fails : ∃ u, parse (bytes "file:///etc/passwd") = some u ∧ isok u = false :=
  ⟨⟨bytes "file", [], [], [], 0, bytes "/etc/passwd"⟩, by decide +kernel⟩

/-- C69: the constructor looks behind the end of a short text. -/
theorem C69_short_fails : parse (bytes "http:") = none ∧ parse (bytes "ftp:/") = none := by decide +kernel

/-- C69: protocols that are not known are taken when they begin like one that is, and the slashes may be anything. -/
theorem C69_protocol_fails : ∃ u v, parse (bytes "httpfoo://host/") = some u ∧ isok u = true ∧ u.proto = bytes "httpfoo" ∧ u.port = 80
    ∧ parse (bytes "http:xyhost/") = some v ∧ isok v = true ∧ v.host = bytes "host" :=
  ⟨⟨bytes "httpfoo", [], [], bytes "host", 80, bytes "/"⟩, ⟨bytes "http", [], [], bytes "host", 80, bytes "/"⟩, by decide +kernel⟩

/-- C69: a port that no address can have is taken. -/
theorem C69_port_fails : ∃ u, parse (bytes "http://host:70000/") = some u ∧ isok u = true ∧ u.port = 70000 :=
  ⟨⟨bytes "http", [], [], bytes "host", 70000, bytes "/"⟩, by decide +kernel⟩

/-- C69: a password without a user is not printed. -/
theorem C69_password_fails : ∃ u v, parse (bytes "ftp://:secret@host/") = some u ∧ u.password = bytes "secret" ∧
    print u = some (bytes "ftp://host/") ∧ parse (bytes "ftp://host/") = some v ∧ v ≠ u :=
  ⟨⟨bytes "ftp", [], bytes "secret", bytes "host", 21, bytes "/"⟩, ⟨bytes "ftp", [], [], bytes "host", 21, bytes "/"⟩, by decide +kernel⟩

/-- C69: after an empty user a '@' in the path becomes the end of a user when the printed text is read again. -/
theorem C69_noname_fails : ∃ u v, parse (bytes "http://@host/a@b") = some u ∧ u.host = bytes "host" ∧
    print u = some (bytes "http://host/a@b") ∧ parse (bytes "http://host/a@b") = some v ∧ v.host = bytes "b" :=
  ⟨⟨bytes "http", [], [], bytes "host", 80, bytes "/a@b"⟩, ⟨bytes "http", bytes "host/a", [], bytes "b", 80, bytes "/"⟩, by decide +kernel⟩

/-- C69: a form feed before other white space stays at the end of the path, and is trimmed when the printed text is read. -/
theorem C69_feed_fails : ∃ u v t, parse (bytes "http://host/a" ++ [12] ++ bytes " b") = some u ∧ isok u = true ∧ print u = some t ∧
    u.user = [] ∧ u.password = [] ∧ parse t = some v ∧ v ≠ u :=
  ⟨⟨bytes "http", [], [], bytes "host", 80, bytes "/a" ++ [12]⟩, ⟨bytes "http", [], [], bytes "host", 80, bytes "/a"⟩,
    bytes "http://host/a" ++ [12], by decide +kernel⟩

end Props
