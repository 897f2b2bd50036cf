import Verif.Model.Auth
/-!
C124: authenticating users.
-/
namespace Props
open Wv Wv.Auth
open Spec.Auth

namespace AuP

theorem must_ok {lib : Lib} {s : St} {c : Call} (k : St → Bool × St) (h : (lib (s.trace ++ [c])).1 = 0) :
    s.must lib c k = k (s.call lib c) := by
  unfold St.must St.check St.call
  dsimp only
  rw [if_pos h]

/-- What is so after every failure. -/
def Refused (r : Bool × St) : Prop := r.1 = false ∧ r.2.err ≠ none ∧ r.2.user = none ∧ r.2.groups = [] ∧ r.2.status ≠ 0

theorem must_bad {lib : Lib} {s : St} {c : Call} (k : St → Bool × St) (h : (lib (s.trace ++ [c])).1 ≠ 0) :
    Refused (s.must lib c k) ∧ (s.must lib c k).2.trace = s.trace ++ [c] := by
  unfold St.must St.check St.call
  dsimp only
  rw [if_neg h]
  unfold St.seterr
  dsimp only
  split
  · exact ⟨⟨rfl, by simp, rfl, rfl, h⟩, rfl⟩
  · rename_i e
    exact ⟨⟨rfl, by simp [e], rfl, rfl, h⟩, rfl⟩

/-- `AllFine` of one call and the rest. -/
theorem allFine_cons {lib : Lib} {h : List Call} {c : Call} {l : List Call} : AllFine lib h (c :: l) ↔ (lib (h ++ [c])).1 = 0 ∧ AllFine lib (h ++ [c]) l := by
  constructor
  · intro f
    refine ⟨by simpa using f [] c l rfl, fun a d b e => ?_⟩
    have := f (c :: a) d b (by rw [e]; rfl)
    simpa using this
  · rintro ⟨f, g⟩ a d b e
    cases a with
    | nil =>
      simp only [List.nil_append, List.cons.injEq] at e
      rw [← e.1]; simpa using f
    | cons x a =>
      simp only [List.cons_append, List.cons.injEq] at e
      have := g a d b e.2
      rw [← e.1]; simpa using this

theorem isGiven_iff (u : Option Text) : isGiven u = true ↔ given u ≠ [] := by
  cases u with
  | none => simp [isGiven, given]
  | some t => cases t <;> simp [isGiven, given]

theorem given_some {t : Text} (h : isGiven (some t) = true) : given (some t) = [t] := by
  cases t with
  | nil => simp [isGiven] at h
  | cons c t => rfl

theorem given_no {t : Text} (h : ¬ isGiven (some t) = true) : given (some t) = [] := by
  cases t with
  | nil => rfl
  | cons c t => simp [isGiven] at h

/-- What a part of `authenticate` does that makes the calls `l` after `h`. -/
structure Does (lib : Lib) (h l : List Call) (r fin : Bool × St) : Prop where
  bad : ¬ AllFine lib h l → Refused r ∧ ∃ n, n ≤ l.length ∧ r.2.trace = h ++ l.take n
  fine : AllFine lib h l → r = fin

theorem Does.cons {lib : Lib} {s : St} {c : Call} {l : List Call} {k : St → Bool × St} {fin : Bool × St}
    (h : (lib (s.trace ++ [c])).1 = 0 → Does lib (s.trace ++ [c]) l (k (s.call lib c)) fin) : Does lib s.trace (c :: l) (s.must lib c k) fin := by
  by_cases hc : (lib (s.trace ++ [c])).1 = 0
  · rw [must_ok k hc]
    constructor
    · intro hb
      obtain ⟨h1, n, h2, h3⟩ := (h hc).bad (fun x => hb (allFine_cons.2 ⟨hc, x⟩))
      exact ⟨h1, n + 1, by simp; omega, by rw [h3]; simp⟩
    · intro hf
      exact (h hc).fine (allFine_cons.1 hf).2
  · obtain ⟨h1, h2⟩ := must_bad k hc
    constructor
    · intro _
      exact ⟨h1, 1, by simp, by rw [h2]; rfl⟩
    · intro hf
      exact absurd (allFine_cons.1 hf).1 hc

theorem Does.nil {lib : Lib} {h : List Call} {r : Bool × St} : Does lib h [] r r :=
  ⟨fun hb => absurd (fun a c b e => by cases a <;> cases e) hb, fun _ => rfl⟩

/-- The state at the end of an authentication that succeeds. -/
def fin (lib : Lib) (h : List Call) (u : Option Text) (g : List Text) : Bool × St :=
  if isGiven u = true then (true, ⟨h ++ login, 0, u, g, none⟩)
  else (true, ⟨h ++ login ++ [.who], 0, (lib (h ++ login ++ [.who])).2, g, none⟩)

theorem login_does (lib : Lib) (s : St) : Does lib s.trace (login ++ if given s.user = [] then [.who] else []) (s.login lib) (fin lib s.trace s.user s.groups) := by
  unfold St.login
  refine Does.cons fun _ => ?_
  refine Does.cons (s := s.call lib .authenticate) fun _ => ?_
  refine Does.cons (s := (s.call lib .authenticate).call lib .account) fun _ => ?_
  refine Does.cons (s := ((s.call lib .authenticate).call lib .account).call lib .credentials) fun h0 => ?_
  by_cases hg : isGiven s.user = true
  · have e : ((((s.call lib .authenticate).call lib .account).call lib .credentials).call lib .openSession).user = s.user := rfl
    rw [e, if_pos hg]
    have : ¬ given s.user = [] := (isGiven_iff _).1 hg
    simp only [List.drop, if_neg this]
    refine ⟨fun hb => absurd (fun a c b e => by cases a <;> cases e) hb, fun _ => ?_⟩
    unfold fin
    rw [if_pos hg]
    simp only [St.call, login] at h0 ⊢
    simp only [List.append_assoc, List.cons_append, List.nil_append] at h0 ⊢
    rw [h0]
  · have e : ((((s.call lib .authenticate).call lib .account).call lib .credentials).call lib .openSession).user = s.user := rfl
    rw [e, if_neg hg]
    have : given s.user = [] := Classical.byContradiction fun x => hg ((isGiven_iff _).2 x)
    rw [if_pos this]
    unfold St.who
    refine Does.cons (s := (((s.call lib .authenticate).call lib .account).call lib .credentials).call lib .openSession) fun h1 => ?_
    refine ⟨fun hb => absurd (fun a c b e => by cases a <;> cases e) hb, fun _ => ?_⟩
    unfold fin
    rw [if_neg hg]
    simp only [St.call, login] at h1 ⊢
    simp only [List.append_assoc, List.cons_append, List.nil_append] at h1 ⊢
    rw [h1]

/-- The calls from asking for the name on. -/
def rest (lib : Lib) (h : List Call) : List Call := .who :: (login ++ if given (lib (h ++ [.who])).2 = [] then [.who] else [])

theorem who_does (lib : Lib) (s : St) : Does lib s.trace (rest lib s.trace) (s.who lib fun s => s.login lib) (fin lib (s.trace ++ [.who]) (lib (s.trace ++ [.who])).2 s.groups) := by
  unfold St.who
  refine Does.cons fun _ => ?_
  exact login_does lib { s.call lib .who with user := (lib (s.trace ++ [.who])).2 }

theorem password_does (lib : Lib) (s : St) (p : Option Text) :
    let l : List Call := (given p).flatMap fun p => [.conv p, .token p]
    Does lib s.trace (l ++ rest lib (s.trace ++ l)) (s.password lib p) (fin lib (s.trace ++ l ++ [.who]) (lib (s.trace ++ l ++ [.who])).2 s.groups) := by
  dsimp only
  unfold St.password
  split
  · rename_i p
    split
    · rename_i hp
      rw [given_some hp]
      refine Does.cons fun _ => ?_
      refine Does.cons (s := s.call lib (.conv p)) fun _ => ?_
      have := who_does lib ((s.call lib (.conv p)).call lib (.token p))
      simp only [St.call] at this ⊢
      simpa using this
    · rename_i hp
      rw [given_no hp]
      simpa using who_does lib s
  · simpa [given] using who_does lib s

theorem user_does (lib : Lib) (s : St) (u p : Option Text) :
    let l : List Call := (given u).map .user ++ (given p).flatMap fun p => [.conv p, .token p]
    Does lib s.trace (l ++ rest lib (s.trace ++ l)) (s.asUser lib u p) (fin lib (s.trace ++ l ++ [.who]) (lib (s.trace ++ l ++ [.who])).2 s.groups) := by
  dsimp only
  unfold St.asUser
  split
  · rename_i u
    split
    · rename_i hu
      rw [given_some hu]
      refine Does.cons (s := { s with user := some u }) fun _ => ?_
      have := password_does lib (St.call lib { s with user := some u } (.user u)) p
      simp only [St.call] at this ⊢
      simpa using this
    · rename_i hu
      rw [given_no hu]
      simpa using password_does lib s p
  · simpa [given] using password_does lib s p

theorem auth_does (lib : Lib) (s : St) (r u p : Option Text) :
    Does lib s.trace (steps lib s.trace r u p) (s.authenticate lib r u p) (fin lib (s.trace ++ before r u p) (name lib s.trace r u p) s.groups) := by
  have key : let l : List Call := (given r).map .rhost ++ ((given u).map .user ++ (given p).flatMap fun p => [.conv p, .token p])
      Does lib s.trace (l ++ rest lib (s.trace ++ l)) (s.authenticate lib r u p) (fin lib (s.trace ++ l ++ [.who]) (lib (s.trace ++ l ++ [.who])).2 s.groups) := by
    dsimp only
    unfold St.authenticate
    split
    · rename_i r
      split
      · rename_i hr
        rw [given_some hr]
        refine Does.cons fun _ => ?_
        have := user_does lib (s.call lib (.rhost r)) u p
        simp only [St.call] at this ⊢
        simpa using this
      · rename_i hr
        rw [given_no hr]
        simpa using user_does lib s u p
    · simpa [given] using user_does lib s u p
  simp only [rest] at key
  unfold steps name before
  simpa only [List.append_assoc, List.cons_append, List.nil_append] using key

theorem fin_eq (lib : Lib) (h : List Call) (u : Option Text) (g : List Text) : (fin lib h u g).1 = true ∧ (fin lib h u g).2.err = none ∧ (fin lib h u g).2.status = 0 ∧
    (fin lib h u g).2.groups = g ∧ (fin lib h u g).2.trace = h ++ login ++ (if given u = [] then [.who] else []) ∧
    (fin lib h u g).2.user = (if given u = [] then (lib (h ++ login ++ [.who])).2 else u) := by
  unfold fin
  by_cases hg : isGiven u = true
  · have : ¬ given u = [] := (isGiven_iff _).1 hg
    simp [hg, this]
  · have : given u = [] := Classical.byContradiction fun x => hg ((isGiven_iff _).2 x)
    simp [hg, this]

theorem isMember_some (u : Text) (l : List Text) : isMember (some u) l = some (decide (u ∈ l)) := by
  induction l with
  | nil => rfl
  | cons m l ih =>
    unfold isMember
    dsimp only
    by_cases e : m = u
    · simp [e]
    · rw [if_neg e, ih]
      have : ¬ u = m := fun x => e x.symm
      simp [this]

theorem findGroups_some (u : Text) (g : Groups) : findGroups (some u) g = some (groupsOf g u) := by
  induction g with
  | nil => rfl
  | cons x g ih =>
    obtain ⟨n, ms⟩ := x
    unfold findGroups
    rw [isMember_some]
    by_cases h : u ∈ ms
    · simp [h, ih, groupsOf]
    · simp [h, ih, groupsOf]

theorem init_eq (lib : Lib) (app : Text) : (init lib app).err = some .notYet ∧ (init lib app).trace = [.start app] ∧ (init lib app).groups = [] := by
  unfold init St.check St.call St.seterr
  dsimp only
  split <;> exact ⟨rfl, rfl, rfl⟩

theorem getgroups_err {s t : St} {g : Groups} {l : List Text} (h : s.getgroups g = some (l, t)) : t.err = s.err ∧ t.user = s.user ∧ t.trace = s.trace ∧ t.status = s.status := by
  unfold St.getgroups at h
  split at h
  · cases hf : findGroups s.user g with
    | none => rw [hf] at h; cases h
    | some r =>
      rw [hf] at h
      simp only [Option.map_some, Option.some.injEq, Prod.mk.injEq] at h
      rw [← h.2]; exact ⟨rfl, rfl, rfl, rfl⟩
  · simp only [Option.some.injEq, Prod.mk.injEq] at h
    rw [← h.2]; exact ⟨rfl, rfl, rfl, rfl⟩

end AuP

/-- A library that knows one user, `bob`, with the password `pw`, who logs in from anywhere. -/
def AuP.sample : Lib := fun h =>
  let user := h.reverse.findSome? fun c => match c with | .user t => some t | _ => none
  let password := h.reverse.findSome? fun c => match c with | .token t => some t | _ => none
  match h.getLast? with
  | some .who => (0, user)
  | some .authenticate => (if user = some (str ['b', 'o', 'b']) && password = some (str ['p', 'w']) then 0 else 7, none)
  | _ => (0, none)

/-- A library that lets everybody in. -/
def AuP.open : Lib := fun h =>
  match h.getLast? with
  | some .who => (0, h.reverse.findSome? fun c => match c with | .user t => some t | _ => none)
  | _ => (0, none)

/-- C124 (who is let in): `authenticate` makes the calls of one authentication in order, and none after one that fails. It succeeds if and only if all of them succeed; then the user
    is validated, with the name the library gives. Otherwise the user is not validated, and there is no name and there are no groups. -/
theorem C124_auth (lib : Lib) (s : St) (rhost user password : Option Text) :
    let l := steps lib s.trace rhost user password
    let r := s.authenticate lib rhost user password
    (r.1 = true ↔ AllFine lib s.trace l) ∧
    (r.1 = true → r.2.err = none ∧ r.2.trace = s.trace ++ l ∧
      r.2.user = if given (name lib s.trace rhost user password) = [] then (lib (s.trace ++ l)).2 else name lib s.trace rhost user password) ∧
    (r.1 = false → r.2.err ≠ none ∧ r.2.user = none ∧ r.2.groups = [] ∧ ∃ n, n ≤ l.length ∧ r.2.trace = s.trace ++ l.take n) := by
  dsimp only
  have h := AuP.auth_does lib s rhost user password
  by_cases hf : AllFine lib s.trace (steps lib s.trace rhost user password)
  · have e := h.fine hf
    obtain ⟨f1, f2, f3, f4, f5, f6⟩ := AuP.fin_eq lib (s.trace ++ before rhost user password) (name lib s.trace rhost user password) s.groups
    rw [e]
    refine ⟨⟨fun _ => hf, fun _ => f1⟩, fun _ => ⟨f2, ?_, ?_⟩, fun x => by rw [f1] at x; cases x⟩
    · rw [f5]; unfold steps; simp only [List.append_assoc]
    · rw [f6]
      split
      · rename_i hn
        unfold steps
        rw [if_pos hn]
        simp only [List.append_assoc]
      · rfl
  · obtain ⟨⟨b1, b2, b3, b4, _⟩, b6⟩ := h.bad hf
    exact ⟨⟨fun x => (by rw [b1] at x; cases x), fun x => absurd x hf⟩, fun x => (by rw [b1] at x; cases x), fun _ => ⟨b2, b3, b4, b6⟩⟩

example : let s := init AuP.sample (str ['x'])
    (s.authenticate AuP.sample none (some (str ['b', 'o', 'b'])) (some (str ['p', 'w']))).1 = true ∧
    (s.authenticate AuP.sample none (some (str ['b', 'o', 'b'])) (some (str ['p', 'x']))).1 = false ∧
    (s.authenticate AuP.sample none (some (str ['b', 'o', 'b'])) (some (str ['p', 'w']))).2.user = some (str ['b', 'o', 'b']) := by decide +kernel

/-- The last authentication of a history, if there is one, and whether it succeeded. -/
def AuP.lastAuth (lib : Lib) (g : Groups) (s : St) (b : Bool) : List Op → Bool
  | [] => b
  | .auth r u p :: l => AuP.lastAuth lib g (s.authenticate lib r u p).2 (s.authenticate lib r u p).1 l
  | .groups :: l =>
    match s.getgroups g with
    | some (_, t) => AuP.lastAuth lib g t b l
    | none => b

theorem AuP.valid (lib : Lib) (g : Groups) : ∀ (l : List Op) (s t : St) (b : Bool), (s.err = none ↔ b = true) → s.run lib g l = some t → (t.err = none ↔ AuP.lastAuth lib g s b l = true) := by
  intro l
  induction l with
  | nil =>
    intro s t b h e
    simp only [St.run, Option.some.injEq] at e
    rw [← e]; exact h
  | cons o l ih =>
    intro s t b h e
    unfold St.run at e
    cases o with
    | auth r u p =>
      simp only [St.op, Option.bind_some] at e
      refine ih _ t (s.authenticate lib r u p).1 ?_ e
      obtain ⟨_, h2, h3⟩ := C124_auth lib s r u p
      cases hb : (s.authenticate lib r u p).1 with
      | true => simp [(h2 hb).1]
      | false => simp [(h3 hb).1]
    | groups =>
      unfold AuP.lastAuth
      cases hg : s.getgroups g with
      | none => simp [St.op, hg] at e
      | some x =>
        obtain ⟨r, t'⟩ := x
        simp only [St.op, hg, Option.map_some, Option.bind_some] at e
        dsimp only
        refine ih t' t b ?_ e
        rw [(AuP.getgroups_err hg).1]; exact h

/-- C124 (who is validated): after any history of an object, the user is validated if and only if the last authentication succeeded; before the first, they are not. -/
theorem C124_valid (lib : Lib) (g : Groups) (app : Text) (l : List Op) (t : St) (h : (init lib app).run lib g l = some t) :
    t.err = none ↔ AuP.lastAuth lib g (init lib app) false l = true :=
  AuP.valid lib g l _ t false (by rw [(AuP.init_eq lib app).1]; simp) h

example : ((init AuP.sample (str ['x'])).run AuP.sample [] [.auth none (some (str ['b', 'o', 'b'])) (some (str ['p', 'w'])), .groups, .auth none (some (str ['e', 'v', 'e'])) (some (str ['p', 'w']))]).map (·.err) =
    some (some (.failed .authenticate 7)) ∧
    ((init AuP.sample (str ['x'])).run AuP.sample [] [.auth none (some (str ['e', 'v', 'e'])) none, .auth none (some (str ['b', 'o', 'b'])) (some (str ['p', 'w'])), .groups]).map (·.err) = some none := by decide +kernel

/-- C124 (groups, the part that holds): when the user has a name and the groups were not asked for before, they are those of the database that have the user as a member, in order. -/
theorem C124_groups_partial (s : St) (g : Groups) (u : Text) (hu : s.user = some u) (hs : s.groups = []) :
    ∃ t, s.getgroups g = some (groupsOf g u, t) ∧ t.user = s.user ∧ t.err = s.err := by
  unfold St.getgroups
  rw [hs, hu, AuP.findGroups_some]
  exact ⟨_, rfl, hu.symm ▸ rfl, rfl⟩

example : ((St.mk [] 0 (some (str ['b'])) [] none).getgroups [(str ['x'], [str ['a'], str ['b']]), (str ['y'], [str ['a']]), (str ['z'], [str ['b']])]).map (·.1) = some [str ['x'], str ['z']] := by decide +kernel

/-- C124 (groups of somebody else): when an object that was asked for groups is used to authenticate another user, it gives the new user the groups of the first one. -/
theorem C124_stale_fails : let g : Groups := [(str ['r'], [str ['a']]), (str ['q'], [str ['b']])]
    let s := (init AuP.open (str ['x'])).run AuP.open g [.auth none (some (str ['a'])) none, .groups, .auth none (some (str ['b'])) none]
    s.map (fun s => (s.user, s.err)) = some (some (str ['b']), none) ∧ groupsOf g (str ['b']) = [str ['q']] ∧
    (s.bind fun s => (s.getgroups g).map (·.1)) = some [str ['r']] := by decide +kernel

/-- C124 (groups of nobody): asking for groups after an authentication that failed compares names with a null pointer, as soon as there is a group that has a member. -/
theorem C124_nobody_fails (lib : Lib) (s : St) (rhost user password : Option Text) (hf : (s.authenticate lib rhost user password).1 = false) (n m : Text) (ms : List Text) (g : Groups) :
    (s.authenticate lib rhost user password).2.getgroups ((n, m :: ms) :: g) = none := by
  obtain ⟨_, h2, h3, _⟩ := (C124_auth lib s rhost user password).2.2 hf
  unfold St.getgroups
  rw [h3, h2]
  rfl

example : ((init AuP.sample (str ['x'])).authenticate AuP.sample none (some (str ['e'])) none).1 = false := by decide +kernel

/-- C124 (why not): the first time that somebody is not let in, the object does not say why: it says that they are not yet authenticated, whatever failed. -/
theorem C124_why_fails (lib : Lib) (app : Text) (rhost user password : Option Text) (hf : ((init lib app).authenticate lib rhost user password).1 = false) :
    ((init lib app).authenticate lib rhost user password).2.err = some .notYet := by
  have must : ∀ (s : St) (c : Call) (k : St → Bool × St), s.err = some .notYet → (∀ t : St, t.err = some .notYet → (k t).1 = false → (k t).2.err = some .notYet) →
      (s.must lib c k).1 = false → (s.must lib c k).2.err = some .notYet := by
    intro s c k hs hk hm
    unfold St.must at hm ⊢
    unfold St.check at hm ⊢
    by_cases h0 : (s.call lib c).status = 0
    · rw [if_pos h0] at hm ⊢
      exact hk _ hs hm
    · rw [if_neg h0]
      show (St.seterr _ _).err = _
      have e : (s.call lib c).err = some .notYet := hs
      unfold St.seterr
      rw [e]
      exact e
  have who : ∀ (s : St) (k : St → Bool × St), s.err = some .notYet → (∀ t : St, t.err = some .notYet → (k t).1 = false → (k t).2.err = some .notYet) →
      (s.who lib k).1 = false → (s.who lib k).2.err = some .notYet := fun s k hs hk => must s .who _ hs (fun t ht => hk _ ht)
  have login : ∀ t : St, t.err = some .notYet → (t.login lib).1 = false → (t.login lib).2.err = some .notYet := by
    intro t ht
    refine must _ _ _ ht fun t ht => must _ _ _ ht fun t ht => must _ _ _ ht fun t ht => must _ _ _ ht fun t ht => ?_
    split
    · intro x; cases x
    · exact who _ _ ht fun t _ x => by cases x
  have pass : ∀ t : St, t.err = some .notYet → (t.password lib password).1 = false → (t.password lib password).2.err = some .notYet := by
    intro t ht
    unfold St.password
    split
    · split
      · exact must _ _ _ ht fun t ht => must _ _ _ ht fun t ht => who _ _ ht login
      · exact who _ _ ht login
    · exact who _ _ ht login
  have asU : ∀ t : St, t.err = some .notYet → (t.asUser lib user password).1 = false → (t.asUser lib user password).2.err = some .notYet := by
    intro t ht
    unfold St.asUser
    split
    · rename_i u
      split
      · exact must { t with user := some u } _ _ ht pass
      · exact pass t ht
    · exact pass t ht
  have hi := (AuP.init_eq lib app).1
  generalize init lib app = s at hi hf ⊢
  revert hf
  unfold St.authenticate
  split
  · split
    · exact must _ _ _ hi asU
    · exact asU s hi
  · exact asU s hi

/-- C124 (the end of a session, the part that holds): an object whose last authentication succeeded closes the session once and ends the library; one whose last authentication failed closes none. -/
theorem C124_end_partial (lib : Lib) (s : St) (rhost user password : Option Text) :
    let r := s.authenticate lib rhost user password
    (r.1 = true → r.2.end lib = r.2.trace ++ [.closeSession, .done 0]) ∧ (r.1 = false → ∃ n, n ≠ 0 ∧ r.2.end lib = r.2.trace ++ [.done n]) := by
  dsimp only
  have h := AuP.auth_does lib s rhost user password
  by_cases hf : AllFine lib s.trace (steps lib s.trace rhost user password)
  · have e := h.fine hf
    obtain ⟨f1, f2, f3, f4, f5, f6⟩ := AuP.fin_eq lib (s.trace ++ before rhost user password) (name lib s.trace rhost user password) s.groups
    rw [e]
    refine ⟨fun _ => ?_, fun x => (by rw [f1] at x; cases x)⟩
    unfold St.end
    rw [f3]
    simp
  · obtain ⟨⟨b1, b2, b3, b4, b5⟩, b6⟩ := h.bad hf
    refine ⟨fun x => (by rw [b1] at x; cases x), fun _ => ⟨_, b5, ?_⟩⟩
    unfold St.end
    rw [if_neg b5]

/-- C124 (sessions that are not closed, or not open): an object that was never used to authenticate closes a session it has not opened; and one that was used for one user and then for
    another one who is not let in does not close the session of the first. -/
theorem C124_session_fails :
    (init AuP.open []).end AuP.open = [.start [], .closeSession, .done 0] ∧
    (((init AuP.sample []).run AuP.sample [] [.auth none (some (str ['b', 'o', 'b'])) (some (str ['p', 'w'])), .auth none (some (str ['e'])) none]).map fun s =>
      (s.trace.count .openSession, (s.end AuP.sample).count .closeSession)) = some (1, 0) := by decide +kernel

/-- C124 (passwords): if the library refuses to be told a password by a program, nobody who gives one is let in, even with the right one. -/
theorem C124_token_fails (lib : Lib) (s : St) (rhost user : Option Text) (p : Text) (hp : p ≠ []) (hl : ∀ h, (lib (h ++ [.token p])).1 ≠ 0) :
    (s.authenticate lib rhost user (some p)).1 = false := by
  have h := (C124_auth lib s rhost user (some p)).1
  cases hb : (s.authenticate lib rhost user (some p)).1 with
  | false => rfl
  | true =>
    have hf := h.1 hb
    obtain ⟨c, t, rfl⟩ : ∃ c t, p = c :: t := by
      cases p with
      | nil => exact absurd rfl hp
      | cons c t => exact ⟨c, t, rfl⟩
    refine absurd (hf ((given rhost).map .rhost ++ (given user).map .user ++ [.conv (c :: t)]) (.token (c :: t))
      ([.who] ++ login ++ (if given (name lib s.trace rhost user (some (c :: t))) = [] then [.who] else [])) ?_) ?_
    · simp only [steps, before, given, List.flatMap_cons, List.flatMap_nil, List.append_assoc, List.cons_append, List.nil_append]
    · exact hl _

/-- C124 (the conversation): the password is the answer to the first message; other messages get none. -/
theorem C124_conv (n : Nat) (p : Text) (hn : 0 < n) : ∃ l, passconv n p = some l ∧ l.length = n ∧ l[0]? = some (some p) ∧ ∀ i, 0 < i → i < n → l[i]? = some none := by
  unfold passconv
  rw [if_neg (by omega)]
  refine ⟨_, rfl, by simp; omega, rfl, fun i hi hn' => ?_⟩
  obtain ⟨j, rfl⟩ : ∃ j, i = j + 1 := ⟨i - 1, by omega⟩
  rw [List.getElem?_cons_succ, List.getElem?_replicate, if_pos (by omega)]

/-- C124 (connections to a configuration daemon): a connection is served if and only if the host it comes from is let in, and then with the name the library gives and the groups of that name;
    otherwise it gets one line that says so, and no more. -/
theorem C124_conn (lib : Lib) (g : Groups) (rhost : Text) :
    let h : List Call := [.start (str ['u', 'n', 'i', 'c', 'o', 'n', 'f', 'd'])]
    let l := steps lib h (some rhost) none none
    let who := if given (name lib h (some rhost) none none) = [] then (lib (h ++ l)).2 else name lib h (some rhost) none none
    (¬ AllFine lib h l → conn lib g rhost = some (.refused (str "FAIL {Not Authorized}\n".toList))) ∧
    (AllFine lib h l → ∀ u, who = some u → conn lib g rhost = some (.served (some u) (groupsOf g u))) := by
  dsimp only
  obtain ⟨_, i2, i3⟩ := AuP.init_eq lib (str ['u', 'n', 'i', 'c', 'o', 'n', 'f', 'd'])
  have hd := AuP.auth_does lib (init lib (str ['u', 'n', 'i', 'c', 'o', 'n', 'f', 'd'])) (some rhost) (some []) none
  obtain ⟨a1, a2, a3⟩ := C124_auth lib (init lib (str ['u', 'n', 'i', 'c', 'o', 'n', 'f', 'd'])) (some rhost) (some []) none
  rw [i2] at a1 a2 a3 hd
  unfold conn
  dsimp only
  have hl : steps lib [.start (str ['u', 'n', 'i', 'c', 'o', 'n', 'f', 'd'])] (some rhost) (some []) none = steps lib [.start (str ['u', 'n', 'i', 'c', 'o', 'n', 'f', 'd'])] (some rhost) none none := rfl
  have hn : name lib [.start (str ['u', 'n', 'i', 'c', 'o', 'n', 'f', 'd'])] (some rhost) (some []) none = name lib [.start (str ['u', 'n', 'i', 'c', 'o', 'n', 'f', 'd'])] (some rhost) none none := rfl
  rw [hl] at a1 a2 a3 hd
  rw [hn] at a2 hd
  have hgr : AllFine lib [.start (str ['u', 'n', 'i', 'c', 'o', 'n', 'f', 'd'])] (steps lib [.start (str ['u', 'n', 'i', 'c', 'o', 'n', 'f', 'd'])] (some rhost) none none) →
      ((init lib (str ['u', 'n', 'i', 'c', 'o', 'n', 'f', 'd'])).authenticate lib (some rhost) (some []) none).2.groups = [] := by
    intro hf
    rw [hd.fine hf, (AuP.fin_eq _ _ _ _).2.2.2.1]; exact i3
  generalize (init lib (str ['u', 'n', 'i', 'c', 'o', 'n', 'f', 'd'])).authenticate lib (some rhost) (some []) none = r at a1 a2 a3 hgr ⊢
  obtain ⟨b, s⟩ := r
  constructor
  · intro hf
    cases b with
    | true => exact absurd (a1.1 rfl) hf
    | false => rfl
  · intro hf u hu
    cases b with
    | false => exact absurd (a1.2 hf) (by simp)
    | true =>
      have hsu : s.user = some u := (a2 rfl).2.2.trans hu
      obtain ⟨t, h1, _⟩ := C124_groups_partial s g u hsu (hgr hf)
      dsimp only
      rw [h1, hsu]
      rfl

example : conn AuP.sample [] (str ['h']) = some (.refused (str "FAIL {Not Authorized}\n".toList)) ∧
    conn (fun h => (0, if h.contains (.rhost (str ['h'])) then some (str ['b']) else none)) [(str ['x'], [str ['b']])] (str ['h']) = some (.served (some (str ['b'])) [str ['x']]) := by decide +kernel

/-- C124 (names of users, the part that holds): the name of a user there is, and the null string if it cannot be found out. -/
theorem C124_name_partial (pw : Nat → Found Text) (uid : Nat) : (∀ n, pw uid = .entry n → usernameFromUid pw uid = some (some n)) ∧ (pw uid = .failed → usernameFromUid pw uid = some none) := by
  constructor
  · intro n h
    simp [usernameFromUid, answer, h]
  · intro h
    simp [usernameFromUid, answer, h]

example : usernameFromUid (fun n => if n = 0 then .entry (str ['r']) else .missing) 0 = some (some (str ['r'])) := by decide +kernel

/-- C124 (users there are not): asking for the name of a user that does not exist follows a null pointer. -/
theorem C124_name_fails (pw : Nat → Found Text) (uid : Nat) (h : pw uid = .missing) : usernameFromUid pw uid = none := by simp [usernameFromUid, answer, h]

/-- C124 (numbers of users): `wv_uid_from_username` never gives the number of a user: for one that exists the result is the invalid number, and if it cannot be found out, a null
    pointer is followed. -/
theorem C124_uid_fails (pw : Text → Found Nat) (n : Text) : (∀ u, pw n = .entry u → uidFromUsername pw n = some (2 ^ 32 - 1)) ∧ (pw n = .missing → uidFromUsername pw n = some (2 ^ 32 - 1)) ∧
    (pw n = .failed → uidFromUsername pw n = none) := by
  refine ⟨fun u h => ?_, fun h => ?_, fun h => ?_⟩ <;> simp [uidFromUsername, answer, h, invalidUid]

namespace AuP

theorem salt_table : ∀ i : Fin 64, ∃ c, saltchars[i.val]? = some c ∧ SaltChar c ∧ ∀ j : Fin 64, saltchars[j.val]? = some c → j = i := by
  have h : ∀ i : Fin 64, SaltChar ((saltchars[i.val]?).getD 0) ∧ saltchars[i.val]? = some ((saltchars[i.val]?).getD 0) ∧ ∀ j : Fin 64, saltchars[j.val]? = saltchars[i.val]? → j = i := by decide +kernel
  intro i
  obtain ⟨h1, h2, h3⟩ := h i
  exact ⟨_, h2, h1, fun j hj => h3 j (hj.trans h2.symm)⟩

theorem saltchar_ok (r : Nat) : ∃ c, saltchar r = some c ∧ SaltChar c := by
  obtain ⟨c, h1, h2, _⟩ := salt_table ⟨r % 64, Nat.mod_lt _ (by decide)⟩
  exact ⟨c, h1, h2⟩

theorem saltchar_inj (a b : Nat) : saltchar a = saltchar b ↔ a % 64 = b % 64 := by
  constructor
  · intro h
    obtain ⟨c, h1, _, h3⟩ := salt_table ⟨a % 64, Nat.mod_lt _ (by decide)⟩
    have := h3 ⟨b % 64, Nat.mod_lt _ (by decide)⟩ (h.symm.trans h1)
    exact (congrArg Fin.val this).symm
  · intro h
    unfold saltchar
    rw [h]

end AuP

/-- C124 (salts): whatever the random numbers are, a salt is made of letters, digits, `.` and `/`: two, or `$1$` and eight. -/
theorem C124_salt (random : Nat → Nat) : (∃ a b, saltDes random = some [a, b] ∧ SaltChar a ∧ SaltChar b) ∧
    ∃ l, saltMd5 random = some (str ['$', '1', '$'] ++ l) ∧ l.length = 8 ∧ ∀ c ∈ l, SaltChar c := by
  constructor
  · obtain ⟨a, h1, h2⟩ := AuP.saltchar_ok (random 0)
    obtain ⟨b, h3, h4⟩ := AuP.saltchar_ok (random 1)
    exact ⟨a, b, by simp [saltDes, h1, h3], h2, h4⟩
  · obtain ⟨a, a1, a2⟩ := AuP.saltchar_ok (random 0)
    obtain ⟨b, b1, b2⟩ := AuP.saltchar_ok (random 1)
    obtain ⟨c, c1, c2⟩ := AuP.saltchar_ok (random 2)
    obtain ⟨d, d1, d2⟩ := AuP.saltchar_ok (random 3)
    obtain ⟨e, e1, e2⟩ := AuP.saltchar_ok (random 4)
    obtain ⟨f, f1, f2⟩ := AuP.saltchar_ok (random 5)
    obtain ⟨g, g1, g2⟩ := AuP.saltchar_ok (random 6)
    obtain ⟨h, h1, h2⟩ := AuP.saltchar_ok (random 7)
    refine ⟨[a, b, c, d, e, f, g, h], by simp [saltMd5, a1, b1, c1, d1, e1, f1, g1, h1], rfl, ?_⟩
    intro x hx
    simp only [List.mem_cons, List.not_mem_nil, or_false] at hx
    rcases hx with rfl | rfl | rfl | rfl | rfl | rfl | rfl | rfl <;> assumption

example : saltDes (fun i => 63 - i) = some (str ['/', '.']) ∧ saltMd5 (fun i => i * 60) = some (str ['$', '1', '$', 'a', '8', '4', '0', 'W', 'S', 'O', 'K']) := by decide +kernel

/-- C124 (different salts): two salts are different if two random numbers are, apart from multiples of 64: all 64 characters are used. -/
theorem C124_differ (r q : Nat → Nat) : saltDes r = saltDes q ↔ r 0 % 64 = q 0 % 64 ∧ r 1 % 64 = q 1 % 64 := by
  obtain ⟨a, a1, _⟩ := AuP.saltchar_ok (r 0)
  obtain ⟨b, b1, _⟩ := AuP.saltchar_ok (r 1)
  obtain ⟨c, c1, _⟩ := AuP.saltchar_ok (q 0)
  obtain ⟨d, d1, _⟩ := AuP.saltchar_ok (q 1)
  rw [← AuP.saltchar_inj, ← AuP.saltchar_inj, a1, b1, c1, d1]
  simp [saltDes, a1, b1, c1, d1]

/-- C124 (checking a password): a password is stored as what `crypt` makes of it and the salt. With a `crypt` that finds the salt in its own result, the password can be checked with what is stored. -/
theorem C124_passwd (salt : (Nat → Nat) → Option Text) (hs : salt = saltDes ∨ salt = saltMd5) (crypt : Text → Text → Option Text) (hc : ∀ p x r, crypt p x = some r → crypt p r = some r)
    (random : Nat → Nat) (p : Text) : ∃ x, salt random = some x ∧ (∀ r, crypt p x = some r → passwd salt crypt random p = some r ∧ crypt p r = some r) ∧
      (crypt p x = none → passwd salt crypt random p = some (str ['*'])) := by
  have : ∃ x, salt random = some x := by
    rcases hs with rfl | rfl
    · obtain ⟨a, b, h, _⟩ := (C124_salt random).1; exact ⟨_, h⟩
    · obtain ⟨l, h, _⟩ := (C124_salt random).2; exact ⟨_, h⟩
  obtain ⟨x, hx⟩ := this
  refine ⟨x, hx, fun r hr => ⟨?_, hc p x r hr⟩, fun hr => ?_⟩ <;> simp [passwd, hx, hr]

/-- C124 (the same password twice): what two encryptions of a string give is the same as soon as the random numbers are, apart from multiples of 64, unlike what the comment says. -/
theorem C124_same_fails (crypt : Text → Text → Option Text) (r q : Nat → Nat) (p : Text) (h0 : r 0 % 64 = q 0 % 64) (h1 : r 1 % 64 = q 1 % 64) :
    passwd saltDes crypt r p = passwd saltDes crypt q p := by
  unfold passwd
  rw [(C124_differ r q).2 ⟨h0, h1⟩]

end Props
