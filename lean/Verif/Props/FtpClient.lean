import Verif.Model.FtpClient
import Verif.Model.Url
import Verif.Props.Addr
/-
C108: the FTP client.
-/
namespace Props
open Wv Wv.FtpClient Spec.FtpClient

namespace FtpCliP

theorem has_begins (cs : List Char) (l : Wv.FtpClient.Text) (h : hasPrefix cs l = true) : begins cs l := by
  unfold hasPrefix at h
  rw [List.isPrefixOf_iff_prefix] at h
  obtain ⟨t, ht⟩ := h
  exact ⟨t, ht.symm⟩

theorem ended_append (a b : List Ev) : ended (a ++ b) = ended a ++ ended b := by
  induction a with
  | nil => rfl
  | cons e a ih => cases e <;> simp [ended, ih]

/-- What holds of each event and of what was before it. -/
def Okay (U P : List Byte) (added : List Req) (pre : List Ev) (e : Ev) : Prop :=
  (∀ c, e = .cmd c → Allowed U P added pre c) ∧ (∀ i, e.carries = some i → ∃ t, ids added = ended pre ++ i :: t)

def All (U P : List Byte) (added : List Req) (log : List Ev) : Prop := ∀ pre e post, log = pre ++ e :: post → Okay U P added pre e

theorem all_snoc (U P : List Byte) (added : List Req) (log : List Ev) (e : Ev) (h : All U P added log) (he : Okay U P added log e) :
    All U P added (log ++ [e]) := by
  intro pre x post hx
  rcases List.eq_nil_or_concat post with rfl | ⟨post', y, rfl⟩
  · obtain ⟨h1, h2⟩ := List.append_inj' hx rfl
    have h3 := (List.cons.inj h2).1
    subst h1; subst h3
    exact he
  · rw [List.concat_eq_append, ← List.cons_append, ← List.append_assoc] at hx
    obtain ⟨h1, h2⟩ := List.append_inj' hx rfl
    exact h pre x post' h1

/-- Nothing has to be known of this event. -/
def plain : Ev → Bool
  | .reply _ | .dial _ _ | .eof _ => true
  | _ => false

theorem okay_plain (U P : List Byte) (added : List Req) (log : List Ev) (e : Ev) (h : plain e = true) : Okay U P added log e := by
  constructor
  · rintro c rfl; simp [plain] at h
  · intro i hi; cases e <;> simp [plain, Ev.carries] at h hi

theorem allowed_mono (U P : List Byte) (added : List Req) (r : Req) (pre : List Ev) (c : List Byte) (h : Allowed U P added pre c) :
    Allowed U P (added ++ [r]) pre c := by
  cases h with
  | user g hb hg => exact .user g hb hg
  | pass g r hb hg hr => exact .pass g r hb hg hr
  | type hb => exact .type hb
  | file r' c hr hb hc => exact .file r' c (by simp [hr]) hb hc

theorem all_mono (U P : List Byte) (added : List Req) (r : Req) (log : List Ev) (h : All U P added log) : All U P (added ++ [r]) log := by
  intro pre e post hx
  obtain ⟨h1, h2⟩ := h pre e post hx
  refine ⟨fun c hc => allowed_mono _ _ _ _ _ _ (h1 c hc), fun i hi => ?_⟩
  obtain ⟨t, ht⟩ := h2 i hi
  exact ⟨t ++ [r.id], by simp [ids] at ht ⊢; rw [ht]; simp⟩

/-- The outcome is defined when `W` holds, and then it is so. -/
def Ok (W : Prop) {α : Type} (o : Option α) (Q : α → Prop) : Prop := match o with
  | none => ¬W
  | some x => Q x

theorem Ok.bind {W : Prop} {α β : Type} {o : Option α} {Q : α → Prop} {f : α → Option β} {R : β → Prop} (h : Ok W o Q)
    (hf : ∀ x, Q x → Ok W (f x) R) : Ok W (o.bind f) R := by
  cases o with
  | none => exact h
  | some x => exact hf x h

theorem Ok.map {W : Prop} {α β : Type} {o : Option α} {Q : α → Prop} {f : α → β} {R : β → Prop} (h : Ok W o Q)
    (hf : ∀ x, Q x → R (f x)) : Ok W (o.map f) R := by
  cases o with
  | none => exact h
  | some x => exact hf x h

theorem Ok.imp {W : Prop} {α : Type} {o : Option α} {Q R : α → Prop} (h : Ok W o Q) (hf : ∀ x, Q x → R x) : Ok W o R := by
  cases o with
  | none => exact h
  | some x => exact hf x h

/-- The server's lines are long enough, and the numbers in them small enough. -/
def Wf (l : List Byte) : Prop := 3 ≤ l.length ∧ parsePasv l ≠ none

structure B (W : Prop) (U P : List Byte) (added : List Req) (s : St) : Prop where
  name : s.userName = U
  pass : s.passText = P
  all : All U P added s.log
  dead : ∀ i, i ∈ s.dead ↔ i ∈ ended s.log
  queue : ids added = ended s.log ++ ids (s.urls ++ s.waiting) ∨
    ∃ r t, s.urls ++ s.waiting = r :: t ∧ r.id ∈ s.dead ∧ ids added = ended s.log ++ ids t
  curl : ∀ r, s.curl = some r → (s.urls ++ s.waiting).head? = some r
  err : s.err = true → s.closed = true
  wf : W → ∀ l ∈ s.ctl, Wf l
  sub : ∀ r ∈ s.urls ++ s.waiting, r ∈ added

/-- The queue holds what has not come to its end. -/
def Live (added : List Req) (s : St) : Prop := ids added = ended s.log ++ ids (s.urls ++ s.waiting)

variable {W : Prop} {U P : List Byte} {added : List Req} {s s' : St}

theorem B.of (h : B W U P added s) (h1 : s'.user = s.user) (h2 : s'.password = s.password) (h3 : s'.log = s.log) (h4 : s'.dead = s.dead)
    (h5 : s'.urls = s.urls) (h6 : s'.waiting = s.waiting) (h7 : s'.curl = s.curl) (h8 : s'.err = true → s'.closed = true)
    (h9 : ∀ l ∈ s'.ctl, l ∈ s.ctl) : B W U P added s' where
  name := by have := h.name; unfold St.userName at *; rw [h1]; exact this
  pass := by have := h.pass; unfold St.passText at *; rw [h2]; exact this
  all := h3 ▸ h.all
  dead := by rw [h3, h4]; exact h.dead
  queue := by rw [h3, h4, h5, h6]; exact h.queue
  curl := by rw [h5, h6, h7]; exact h.curl
  err := h8
  wf := fun w l hl => h.wf w l (h9 l hl)
  sub := by rw [h5, h6]; exact h.sub

theorem ended_plain (e : Ev) (h : ∀ i, e ≠ .eof i) : ended [e] = [] := by
  cases e <;> simp [ended] at *

theorem B.event (h : B W U P added s) (e : Ev) (he : Okay U P added s.log e) (hn : ∀ i, e ≠ .eof i) :
    B W U P added { s with log := s.log ++ [e] } where
  name := h.name
  pass := h.pass
  all := all_snoc _ _ _ _ _ h.all he
  dead := by simp only [ended_append, ended_plain e hn, List.append_nil]; exact h.dead
  queue := by simp only [ended_append, ended_plain e hn, List.append_nil]; exact h.queue
  curl := h.curl
  err := h.err
  wf := h.wf
  sub := h.sub

theorem Live.event (h : Live added s) (e : Ev) (hn : ∀ i, e ≠ .eof i) : Live added { s with log := s.log ++ [e] } := by
  unfold Live at *
  simp only [ended_append, ended_plain e hn, List.append_nil]; exact h

/-- A request at the head of the queue that has come to its end is there once. -/
theorem head_dead (hn : (ids added).Nodup) (h : B W U P added s) (r : Req) (t : List Req) (hq : s.urls ++ s.waiting = r :: t) :
    (r.id ∈ s.dead → ids added = ended s.log ++ ids t) ∧ (r.id ∉ s.dead → ids added = ended s.log ++ r.id :: ids t) := by
  rcases h.queue with hl | ⟨r', t', h1, h2, h3⟩
  · rw [hq] at hl
    simp only [ids, List.map_cons] at hl
    refine ⟨fun hd => ?_, fun _ => hl⟩
    have := (h.dead _).1 hd
    simp only [ids] at hn
    rw [hl, List.nodup_append] at hn
    exact absurd rfl (hn.2.2 _ this _ (by simp))
  · rw [hq] at h1
    obtain ⟨rfl, rfl⟩ := List.cons.inj h1
    exact ⟨fun _ => h3, fun hd => absurd h2 hd⟩

theorem head_cons {l : List Req} {r : Req} (h : l.head? = some r) : ∃ t, l = r :: t := by
  cases l with
  | nil => simp at h
  | cons a t => simp at h; exact ⟨t, by rw [h]⟩

theorem live_dead (hn : (ids added).Nodup) (h : B W U P added s) (hl : Live added s) (r : Req) (hr : (s.urls ++ s.waiting).head? = some r) :
    r.id ∉ s.dead := by
  obtain ⟨t, hq⟩ := head_cons hr
  intro hd
  have := (h.dead _).1 hd
  unfold Live at hl
  rw [hq] at hl
  rw [hl, List.nodup_append] at hn
  exact absurd rfl (hn.2.2 _ this _ (by simp [ids]))

theorem done_B (hn : (ids added).Nodup) (h : B W U P added s) (r : Req) (hr : (s.urls ++ s.waiting).head? = some r) : B W U P added (s.done r) := by
  obtain ⟨t, hq⟩ := head_cons hr
  unfold St.done
  by_cases hd : r.id ∈ s.dead
  · rw [if_pos hd]; exact h
  · rw [if_neg hd]
    have hl := (head_dead hn h r t hq).2 hd
    exact {
      name := h.name
      pass := h.pass
      all := all_snoc _ _ _ _ _ h.all (okay_plain _ _ _ _ _ rfl)
      dead := by
        intro i
        simp only [ended_append, ended, List.mem_cons, List.mem_append, List.not_mem_nil, or_false, h.dead i]
        exact Or.comm
      queue := .inr ⟨r, t, hq, by simp, by simp only [ended_append, ended, List.append_assoc]; exact hl⟩
      curl := h.curl
      err := h.err
      wf := h.wf
      sub := h.sub }

theorem done_dead (s : St) (r : Req) : r.id ∈ (s.done r).dead := by
  unfold St.done
  by_cases hd : r.id ∈ s.dead
  · rw [if_pos hd]; exact hd
  · rw [if_neg hd]; simp

/-- What is kept: only events are added. -/
structure Keep (s s' : St) : Prop where
  urls : s'.urls = s.urls
  waiting : s'.waiting = s.waiting
  logged : s'.loggedIn = s.loggedIn
  log : ∃ x, s'.log = s.log ++ x
  curl : ∀ r, s.curl = some r → s'.curl = some r

theorem Keep.refl (s : St) : Keep s s := ⟨rfl, rfl, rfl, ⟨[], by simp⟩, fun _ h => h⟩

theorem Keep.trans {a b c : St} (h : Keep a b) (h' : Keep b c) : Keep a c := by
  obtain ⟨x, hx⟩ := h.log
  obtain ⟨y, hy⟩ := h'.log
  exact ⟨h'.urls.trans h.urls, h'.waiting.trans h.waiting, h'.logged.trans h.logged, ⟨x ++ y, by rw [hy, hx, List.append_assoc]⟩,
    fun r hr => h'.curl r (h.curl r hr)⟩

theorem done_keep (s : St) (r : Req) : Keep s (s.done r) ∧ (s.done r).closed = s.closed := by
  unfold St.done
  split
  · exact ⟨.refl s, rfl⟩
  · exact ⟨⟨rfl, rfl, rfl, ⟨_, rfl⟩, fun _ h => h⟩, rfl⟩

theorem B.setcurl (h : B W U P added s) (c : Option Req) (hc : ∀ r, c = some r → (s.urls ++ s.waiting).head? = some r) :
    B W U P added { s with curl := c } :=
  { name := h.name, pass := h.pass, all := h.all, dead := h.dead, queue := h.queue, curl := hc, err := h.err, wf := h.wf, sub := h.sub }

theorem finishCurl (hn : (ids added).Nodup) (h : B W U P added s) :
    B W U P added (match s.curl with | some r => s.done r | none => s) ∧
    (match s.curl with | some r => s.done r | none => s).closed = s.closed ∧
    Keep s (match s.curl with | some r => s.done r | none => s) := by
  cases hc : s.curl with
  | none => exact ⟨h, rfl, .refl s⟩
  | some r => exact ⟨done_B hn h r (h.curl r hc), (done_keep s r).2, (done_keep s r).1⟩

theorem close_B (hn : (ids added).Nodup) (h : B W U P added s) (e : Bool) : B W U P added { s with err := e }.close ∧
    { s with err := e }.close.closed = true ∧ Keep s { s with err := e }.close := by
  unfold St.close
  have h0 : B W U P added { s with err := e, closed := true } := h.of rfl rfl rfl rfl rfl rfl rfl (fun _ => rfl) (fun _ h => h)
  dsimp only
  cases e with
  | true =>
    rw [if_pos rfl]
    have h1 : B W U P added { { s with err := true, closed := true } with curl := (s.curl.or s.urls.head?).or s.waiting.head? } := by
      refine h0.setcurl _ fun r hr => ?_
      cases hc : s.curl with
      | some x =>
        rw [hc] at hr; simp at hr; subst hr
        exact h.curl x hc
      | none =>
        rw [hc] at hr
        cases hu : s.urls with
        | cons a us => rw [hu] at hr; simp at hr ⊢; exact hr
        | nil => rw [hu] at hr; simp at hr ⊢; exact hr
    obtain ⟨h2, c2, k2⟩ := finishCurl hn h1
    obtain ⟨h3, c3, k3⟩ := finishCurl hn h2
    refine ⟨h3, c3.trans c2, Keep.trans ?_ (k2.trans k3)⟩
    exact ⟨rfl, rfl, rfl, ⟨[], by simp⟩, fun r hr => by simp [hr]⟩
  | false =>
    rw [if_neg (by simp)]
    obtain ⟨h3, c3, k3⟩ := finishCurl hn h0
    exact ⟨h3, c3, Keep.trans (b := { s with err := false, closed := true }) ⟨rfl, rfl, rfl, ⟨[], by simp⟩, fun r hr => hr⟩ k3⟩

theorem close_B' (hn : (ids added).Nodup) (h : B W U P added s) : B W U P added s.close ∧ s.close.closed = true ∧ Keep s s.close :=
  close_B hn h s.err

theorem seterr_B (hn : (ids added).Nodup) (h : B W U P added s) : B W U P added s.seterr ∧ s.seterr.closed = true ∧ Keep s s.seterr := by
  unfold St.seterr
  split
  · rename_i he
    exact ⟨h, h.err he, .refl s⟩
  · exact close_B hn h true

theorem important_ok : ∀ (c : List (List Byte)), (W → ∀ l ∈ c, Wf l) → Ok W (important c) fun
    | none => True
    | some (l, ls) => l ∈ c ∧ ∀ x ∈ ls, x ∈ c
  | [], _ => trivial
  | l :: c, h => by
    unfold important
    split
    · rename_i hl
      intro w
      have := (h w l (by simp)).1
      omega
    · split
      · refine (important_ok c fun w x hx => h w x (by simp [hx])).imp ?_
        rintro (_ | ⟨l, ls⟩) hx
        · trivial
        · exact ⟨by simp [hx.1], fun x h' => by simp [hx.2 x h']⟩
      · exact ⟨by simp, fun x hx => by simp [hx]⟩

/-- What comes of reading a line. -/
def Lined (W : Prop) (U P : List Byte) (added : List Req) (s : St) (x : Option (List Byte) × St) : Prop :=
  B W U P added x.2 ∧ Keep s x.2 ∧ (x.1 = none → x.2.closed = true) ∧
  ∀ l, x.1 = some l → (W → Wf l) ∧ ∃ ls, x.2 = { s with ctl := ls, log := s.log ++ [.reply l] }

theorem line_ok (hn : (ids added).Nodup) (h : B W U P added s) : Ok W s.line (Lined W U P added s) := by
  unfold St.line
  have hi := important_ok (W := W) s.ctl h.wf
  cases hx : important s.ctl with
  | none => rw [hx] at hi; exact hi
  | some y =>
    rw [hx] at hi
    cases y with
    | none =>
      have h0 : B W U P added { s with ctl := [] } := h.of rfl rfl rfl rfl rfl rfl rfl h.err (by simp)
      have k0 : Keep s { s with ctl := [] } := ⟨rfl, rfl, rfl, ⟨[], by simp⟩, fun _ h => h⟩
      dsimp only
      split
      · obtain ⟨a, b, c⟩ := seterr_B hn h0
        exact ⟨a, k0.trans c, fun _ => b, by simp⟩
      · obtain ⟨a, b, c⟩ := close_B' hn h0
        exact ⟨a, k0.trans c, fun _ => b, by simp⟩
    | some p =>
      obtain ⟨l, ls⟩ := p
      refine ⟨?_, ⟨rfl, rfl, rfl, ⟨_, rfl⟩, fun _ h => h⟩, by simp, ?_⟩
      · have h0 : B W U P added { s with ctl := ls } := h.of rfl rfl rfl rfl rfl rfl rfl h.err hi.2
        exact h0.event (.reply l) (okay_plain _ _ _ _ _ rfl) (by simp)
      · intro l' hl'
        simp at hl'
        subst hl'
        exact ⟨fun w => h.wf w _ hi.1, ls, rfl⟩

theorem send_B (h : B W U P added s) (c : List Byte) (hc : Allowed U P added s.log c) : B W U P added (s.send c) :=
  h.event (.cmd c) ⟨by intro c' e; cases e; exact hc, by intro i hi; simp [Ev.carries] at hi⟩ (by simp)

theorem cUser_eq (a : List Byte) : cUser a = line ['U', 'S', 'E', 'R'] a := by simp [cUser, line, str, crlf]
theorem cPass_eq (a : List Byte) : cPass a = line ['P', 'A', 'S', 'S'] a := by simp [cPass, line, str, crlf]
theorem cCwd_eq (a : List Byte) : cCwd a = line ['C', 'W', 'D'] a := by simp [cCwd, line, str, crlf]
theorem cList_eq (a : List Byte) : cList a = line ['L', 'I', 'S', 'T'] a := by simp [cList, line, str, crlf]
theorem cRetr_eq (a : List Byte) : cRetr a = line ['R', 'E', 'T', 'R'] a := by simp [cRetr, line, str, crlf]
theorem cStor_eq (a : List Byte) : cStor a = line ['S', 'T', 'O', 'R'] a := by simp [cStor, line, str, crlf]
theorem cMkd_eq (a : List Byte) : cMkd a = line ['M', 'K', 'D'] a := by simp [cMkd, line, str, crlf]
theorem cPasv_eq : cPasv = str ['P', 'A', 'S', 'V', '\r', '\n'] := by decide

/-- A state that is not closed and has no current request. -/
structure Idle (W : Prop) (U P : List Byte) (added : List Req) (s : St) : Prop where
  b : B W U P added s
  op : s.closed = false
  live : Live added s
  curl : s.curl = none

theorem Idle.send (h : Idle W U P added s) (c : List Byte) (hc : Allowed U P added s.log c) : Idle W U P added (s.send c) :=
  ⟨send_B h.b c hc, h.op, h.live.event _ (by simp), h.curl⟩

theorem Idle.reply (h : Idle W U P added s) {x : Option (List Byte) × St} (hx : Lined W U P added s x) (l : List Byte) (hl : x.1 = some l) :
    Idle W U P added x.2 ∧ x.2.log = s.log ++ [.reply l] ∧ x.2.loggedIn = s.loggedIn := by
  obtain ⟨h1, h2, h3, h4⟩ := hx
  obtain ⟨_, ls, e⟩ := h4 l hl
  refine ⟨⟨h1, by rw [e]; exact h.op, ?_, by rw [e]; exact h.curl⟩, by rw [e], by rw [e]⟩
  have : Live added { s with log := s.log ++ [.reply l] } := h.live.event _ (by simp)
  rw [e]; exact this

/-- What comes of the login. -/
def Logged (W : Prop) (U P : List Byte) (added : List Req) (x : Bool × St) : Prop :=
  B W U P added x.2 ∧ (x.1 = false → x.2.closed = true) ∧
  (x.1 = true → Idle W U P added x.2 ∧ x.2.loggedIn = true ∧ Ready U P x.2.log)

theorem typeI_ok (hn : (ids added).Nodup) (h : Idle W U P added s) (hl : LoggedIn U P s.log) : Ok W s.typeI (Logged W U P added) := by
  unfold St.typeI
  have h0 : Idle W U P added { s with loggedIn := true } := ⟨h.b.of rfl rfl rfl rfl rfl rfl rfl h.b.err (fun _ h => h), h.op, h.live, h.curl⟩
  have e : cType = typeI := by decide
  have h1 := h0.send cType (by rw [e]; exact .type hl)
  refine (line_ok hn h1.b).bind ?_
  rintro ⟨x, t⟩ hx
  cases x with
  | none => exact ⟨hx.1, fun _ => hx.2.2.1 rfl, by simp⟩
  | some l =>
    obtain ⟨h2, h3, h4⟩ := h1.reply hx l rfl
    dsimp only
    split
    · rename_i hp
      refine ⟨h2.b, by simp, fun _ => ⟨h2, h4, s.log, l, [], ?_, hl, has_begins _ _ hp⟩⟩
      rw [← e]
      rw [h3]
      simp [St.send]
    · obtain ⟨a, b, c⟩ := seterr_B hn h2.b
      exact ⟨a, fun _ => b, by simp⟩

theorem login_ok (hn : (ids added).Nodup) (h : Idle W U P added s) (hl : s.log = []) : Ok W s.login (Logged W U P added) := by
  have fail : ∀ t, B W U P added t → Logged W U P added (false, t.seterr) := fun t ht =>
    ⟨(seterr_B hn ht).1, fun _ => (seterr_B hn ht).2.1, by simp⟩
  have gone : ∀ a t, Lined W U P added a (none, t) → Logged W U P added (false, t) := fun a t ht => ⟨ht.1, fun _ => ht.2.2.1 rfl, by simp⟩
  unfold St.login
  refine (line_ok hn h.b).bind ?_
  rintro ⟨_ | g, s1⟩ hx
  · exact fail _ hx.1
  · obtain ⟨h1, e1, _⟩ := h.reply hx g rfl
    rw [hl, List.nil_append] at e1
    dsimp only at e1 h1
    dsimp only
    split
    · rename_i hg
      have hg := has_begins _ _ hg
      have eu : cUser s1.userName = line ['U', 'S', 'E', 'R'] U := by rw [h1.b.name]; exact cUser_eq _
      have h2 := h1.send (cUser s1.userName) (by rw [eu]; exact .user g e1 hg)
      refine (line_ok hn h2.b).bind ?_
      rintro ⟨_ | r, s2⟩ hx
      · exact gone _ _ hx
      · obtain ⟨h3, e3, _⟩ := h2.reply hx r rfl
        have e3 : s2.log = [.reply g, .cmd (line ['U', 'S', 'E', 'R'] U), .reply r] := by rw [e3, ← eu]; simp [St.send, e1]
        dsimp only at h3 ⊢
        split
        · rename_i hr
          exact typeI_ok hn h3 (by rw [e3]; exact .open_ g r hg (has_begins _ _ hr))
        · split
          · rename_i hr
            have hr := has_begins _ _ hr
            unfold St.pass
            have ep : cPass s2.passText = line ['P', 'A', 'S', 'S'] P := by rw [h3.b.pass]; exact cPass_eq _
            have h4 := h3.send (cPass s2.passText) (by rw [ep]; exact .pass g r e3 hg hr)
            refine (line_ok hn h4.b).bind ?_
            rintro ⟨_ | p, s3⟩ hx
            · exact gone _ _ hx
            · obtain ⟨h5, e5, _⟩ := h4.reply hx p rfl
              dsimp only
              split
              · rename_i hp
                refine typeI_ok hn h5 ?_
                have e5 : s3.log = [.reply g, .cmd (line ['U', 'S', 'E', 'R'] U), .reply r, .cmd (line ['P', 'A', 'S', 'S'] P), .reply p] := by
                  rw [e5, ← ep]; simp [St.send, e3]
                rw [e5]
                refine .pass g r p hg hr ?_
                cases p with
                | nil => simp at hp
                | cons c p => simp at hp; exact ⟨p, by rw [hp]; rfl⟩
              · exact fail _ h5.b
          · exact fail _ h3.b
    · exact fail _ h1.b

theorem ready_append {l : List Ev} (h : Ready U P l) (x : List Ev) : Ready U P (l ++ x) := by
  obtain ⟨a, t, r, e, h1, h2⟩ := h
  exact ⟨a, t, r ++ x, by rw [e]; simp, h1, h2⟩

/-- What holds between two runs of the stream. -/
structure G (W : Prop) (U P : List Byte) (added : List Req) (s : St) : Prop where
  b : B W U P added s
  live : s.closed = false → Live added s
  new : s.closed = false → s.loggedIn = false → s.log = [] ∧ s.curl = none
  ready : s.closed = false → s.loggedIn = true → Ready U P s.log
  cur : s.closed = false → ∀ r, s.curl = some r → s.data.isSome = true ∧ s.urls.head? = some r ∧ (s.isDir = true → r.put = none)

theorem G.ofClosed (h : B W U P added s) (hc : s.closed = true) : G W U P added s :=
  ⟨h, by simp [hc], by simp [hc], by simp [hc], by simp [hc]⟩

/-- A request is under way. -/
structure D (W : Prop) (U P : List Byte) (added : List Req) (r : Req) (s : St) : Prop where
  b : B W U P added s
  curl : s.curl = some r
  urls : s.urls.head? = some r
  logged : s.loggedIn = true
  ready : Ready U P s.log

structure M (W : Prop) (U P : List Byte) (added : List Req) (r : Req) (s : St) : Prop where
  d : D W U P added r s
  op : s.closed = false
  live : Live added s

variable {r : Req}

theorem D.keep (h : D W U P added r s) (hb : B W U P added s') (hk : Keep s s') : D W U P added r s' := by
  obtain ⟨x, hx⟩ := hk.log
  exact ⟨hb, hk.curl r h.curl, by rw [hk.urls]; exact h.urls, by rw [hk.logged]; exact h.logged, by rw [hx]; exact ready_append h.ready x⟩

theorem mem_of_D (h : D W U P added r s) : r ∈ added := by
  obtain ⟨t, ht⟩ := head_cons h.urls
  exact h.b.sub r (by simp [ht])

theorem M.send (h : M W U P added r s) (c : List Byte) (hc : Fetch r c) : M W U P added r (s.send c) := by
  have hb := send_B h.d.b c (.file r c (mem_of_D h.d) h.d.ready hc)
  exact ⟨h.d.keep hb ⟨rfl, rfl, rfl, ⟨_, rfl⟩, fun _ h => h⟩, h.op, h.live.event _ (by simp)⟩

theorem M.reply (h : M W U P added r s) {x : Option (List Byte) × St} (hx : Lined W U P added s x) (l : List Byte) (hl : x.1 = some l) :
    M W U P added r x.2 ∧ (W → Wf l) ∧ x.2.isDir = s.isDir ∧ x.2.data = s.data := by
  obtain ⟨h1, h2, h3, h4⟩ := hx
  obtain ⟨hw, ls, e⟩ := h4 l hl
  refine ⟨⟨h.d.keep h1 h2, by rw [e]; exact h.op, ?_⟩, hw, by rw [e], by rw [e]⟩
  have : Live added { s with log := s.log ++ [.reply l] } := h.live.event _ (by simp)
  rw [e]; exact this

theorem requestNext_same (s : St) : s.requestNext.urls ++ s.requestNext.waiting = s.urls ++ s.waiting ∧ s.requestNext.log = s.log ∧
    s.requestNext.dead = s.dead ∧ s.requestNext.curl = s.curl ∧ s.requestNext.closed = s.closed ∧ s.requestNext.err = s.err ∧
    s.requestNext.ctl = s.ctl ∧ s.requestNext.user = s.user ∧ s.requestNext.password = s.password ∧ s.requestNext.loggedIn = s.loggedIn ∧
    s.requestNext.data = s.data ∧ s.requestNext.isDir = s.isDir ∧ (∀ r, s.urls.head? = some r → s.requestNext.urls.head? = some r) := by
  unfold St.requestNext
  split
  · simp
  · rename_i u ws hw
    split
    · simp
    · rename_i hc
      simp only [Bool.or_eq_true, Bool.not_eq_true', not_or] at hc
      have : s.urls = [] := by
        have := hc.2
        simpa using this
      simp [hw, this]

theorem requestNext_B (h : B W U P added s) : B W U P added s.requestNext := by
  obtain ⟨h1, h2, h3, h4, h5, h6, h7, h8, h9, h10, h11, h12, h13⟩ := requestNext_same s
  exact {
    name := by have := h.name; unfold St.userName at *; rw [h8]; exact this
    pass := by have := h.pass; unfold St.passText at *; rw [h9]; exact this
    all := by rw [h2]; exact h.all
    dead := by rw [h2, h3]; exact h.dead
    queue := by rw [h1, h2, h3]; exact h.queue
    curl := by rw [h1, h4]; exact h.curl
    err := by rw [h5, h6]; exact h.err
    wf := by rw [h7]; exact h.wf
    sub := by rw [h1]; exact h.sub }

theorem close_none (s : St) (h : s.curl = none) (hu : s.urls = []) (hw : s.waiting = []) : s.close.curl = none := by
  unfold St.close
  cases he : s.err <;> simp [h, hu, hw, he]

theorem doneurl_ok' (hn : (ids added).Nodup) (h : D W U P added r s) : Ok W s.doneurl fun x => G W U P added x ∧ x.curl = none := by
  unfold St.doneurl
  rw [h.curl]
  dsimp only
  obtain ⟨t, ht⟩ := head_cons h.urls
  have hb := done_B hn h.b r (h.b.curl r h.curl)
  have hk := (done_keep s r).1
  have hd := h.keep hb hk
  have hu : (s.done r).urls = r :: t := by rw [hk.urls]; exact ht
  have hl := (head_dead hn hb r (t ++ (s.done r).waiting) (by rw [hu]; rfl)).1 (done_dead s r)
  have h1 : B W U P added { s.done r with curl := none, data := none, urls := (s.done r).urls.tail } := {
    name := hb.name
    pass := hb.pass
    all := hb.all
    dead := hb.dead
    queue := .inl (by rw [hu]; exact hl)
    curl := by intro r hr; cases hr
    err := hb.err
    wf := hb.wf
    sub := by
      intro x hx
      refine hb.sub x ?_
      simp only [hu, List.tail_cons, List.mem_append, List.mem_cons] at hx ⊢
      rcases hx with hx | hx
      · exact .inl (.inr hx)
      · exact .inr hx }
  have h2 := requestNext_B h1
  have hs := requestNext_same { s.done r with curl := none, data := none, urls := (s.done r).urls.tail }
  show G W U P added _ ∧ _
  split
  · rename_i he
    simp only [Bool.and_eq_true, List.isEmpty_iff] at he
    refine ⟨.ofClosed (close_B' hn h2).1 (close_B' hn h2).2.1, close_none _ ?_ he.1 he.2⟩
    rw [hs.2.2.2.1]
  · refine ⟨?_, by rw [hs.2.2.2.1]⟩
    refine ⟨h2, fun _ => ?_, fun _ hx => ?_, fun _ _ => ?_, fun _ x hx => ?_⟩
    · unfold Live
      rw [hs.1, hs.2.1]
      simp only [hu, List.tail_cons]
      exact hl
    · rw [hs.2.2.2.2.2.2.2.2.2.1] at hx
      have := hd.logged
      rw [this] at hx
      cases hx
    · rw [hs.2.1]; exact hd.ready
    · rw [hs.2.2.2.1] at hx
      cases hx

theorem doneurl_ok (hn : (ids added).Nodup) (h : D W U P added r s) : Ok W s.doneurl (G W U P added) :=
  (doneurl_ok' hn h).imp fun _ hx => hx.1

/-- What comes of the beginning of a request. -/
def Begun (W : Prop) (U P : List Byte) (added : List Req) (r : Req) (x : Bool × St) : Prop :=
  (x.1 = false → B W U P added x.2 ∧ x.2.closed = true) ∧
  (x.1 = true → M W U P added r x.2 ∧ x.2.data.isSome = true ∧ (x.2.isDir = true → r.put = none))

theorem begun_gone {a t : St} (h : Lined W U P added a (none, t)) : Begun W U P added r (false, t) :=
  ⟨fun _ => ⟨h.1, h.2.2.1 rfl⟩, by simp⟩

/-- What is kept by the commands that make directories. -/
def Making (W : Prop) (U P : List Byte) (added : List Req) (r : Req) (s : St) (x : Bool × St) : Prop :=
  (x.1 = false → B W U P added x.2 ∧ x.2.closed = true) ∧
  (x.1 = true → M W U P added r x.2 ∧ x.2.isDir = s.isDir ∧ x.2.data = s.data)

theorem lastSlash_mem : ∀ (s p q : List Byte), TextUtil.lastSlash s = some (p, q) → ∀ c ∈ p, c ∈ s
  | [], p, q, h => by simp [TextUtil.lastSlash] at h
  | x :: s, p, q, h => by
    unfold TextUtil.lastSlash at h
    cases hs : TextUtil.lastSlash s with
    | some y =>
      rw [hs] at h
      simp only [Option.some.injEq, Prod.mk.injEq] at h
      obtain ⟨rfl, rfl⟩ := h
      intro c hc
      rcases List.mem_cons.1 hc with rfl | hc
      · simp
      · exact List.mem_cons_of_mem _ (lastSlash_mem s y.1 y.2 hs c hc)
    | none =>
      rw [hs] at h
      dsimp only at h
      split at h
      · simp only [Option.some.injEq, Prod.mk.injEq] at h
        rw [← h.1]; simp
      · cases h

theorem dirname_made (n : Nat) : ∀ s : List Byte, MadeOf s (TextUtil.getdirnameLoop n s) := by
  induction n with
  | zero => exact fun s c hc => .inl hc
  | succ n ih =>
    intro s
    unfold TextUtil.getdirnameLoop
    split
    · exact fun c hc => .inl hc
    · split
      · intro c hc; simp [str] at hc; exact .inr (.inl hc)
      · rename_i p hp
        intro c hc
        rcases ih p c hc with h | h
        · exact .inl (lastSlash_mem s p _ hp c h)
        · exact .inr h
      · rename_i p q _ hp
        split
        · intro c hc; simp [str] at hc; exact .inr (.inr hc)
        · exact fun c hc => .inl (lastSlash_mem s p _ hp c hc)

theorem splitLoop_mem (cs : List Byte) : ∀ (fuel : Nat) (limit : Int) (fr : Bool) (s w : List Byte), w ∈ Split.splitLoop cs fuel limit fr s →
    ∀ c ∈ w, c ∈ s := by
  intro fuel
  induction fuel with
  | zero => intro _ _ s w h; simp [Split.splitLoop] at h
  | succ n ih =>
    intro limit fr s w h
    have hsk : ∀ c ∈ (if fr = true then s else Split.skip cs s), c ∈ s := by
      intro c hc
      split at hc
      · exact hc
      · exact (List.dropWhile_sublist _).subset hc
    unfold Split.splitLoop at h
    split at h
    · simp at h
    · dsimp only at h
      split at h
      · simp only [Split.upto, List.mem_cons] at h
        rcases h with rfl | h
        · exact fun c hc => hsk c ((List.takeWhile_sublist _).subset hc)
        · exact fun c hc => hsk c ((List.dropWhile_sublist _).subset (ih _ _ _ w h c hc))
      · rcases List.mem_cons.1 h with rfl | h
        · exact hsk
        · exact fun c hc => absurd (ih _ _ _ w h c hc) (by simp)

theorem split_mem (cs s w : List Byte) (h : w ∈ Split.split cs 0 s) : ∀ c ∈ w, c ∈ s := by
  unfold Split.split at h
  split at h
  · simp at h; subst h; simp
  · exact splitLoop_mem cs _ _ _ s w h

theorem mkdirs_ok (hn : (ids added).Nodup) (hp : r.put ≠ none) (hm : r.mkdirs = true) : ∀ (ds : List (List Byte)) (cur : List Byte) (s : St),
    (∀ d ∈ ds, MadeOf r.path d) → MadeOf r.path cur →
    M W U P added r s → Ok W (St.mkdirs ds cur s) (Making W U P added r s)
  | [], _, s, _, _, h => ⟨by simp, fun _ => ⟨h, rfl, rfl⟩⟩
  | d :: ds, cur, s, hds, hcur, h => by
    unfold St.mkdirs
    have hcur' : MadeOf r.path (cur ++ ch '/' :: d) := by
      intro c hc
      simp only [List.mem_append, List.mem_cons] at hc
      rcases hc with hc | rfl | hc
      · exact hcur c hc
      · exact .inr (.inr rfl)
      · exact hds d (by simp) c hc
    have h1 := h.send (cMkd (cur ++ ch '/' :: d)) (by rw [cMkd_eq]; exact .mkd _ hp hm hcur')
    refine (line_ok hn h1.d.b).bind ?_
    rintro ⟨_ | l, t⟩ hx
    · exact ⟨fun _ => ⟨hx.1, hx.2.2.1 rfl⟩, by simp⟩
    · obtain ⟨h2, _, e1, e2⟩ := h1.reply hx l rfl
      refine (mkdirs_ok hn hp hm ds _ t (fun d hd => hds d (by simp [hd])) hcur' h2).imp ?_
      rintro y ⟨y1, y2⟩
      exact ⟨y1, fun hy => ⟨(y2 hy).1, (y2 hy).2.1.trans e1, (y2 hy).2.2.trans e2⟩⟩

theorem store_ok (hn : (ids added).Nodup) (hp : r.put ≠ none) (h : M W U P added r s) : Ok W (s.store r) (Making W U P added r s) := by
  have stor : ∀ t, M W U P added r t → M W U P added r (t.send (cStor r.path)) := fun t ht => ht.send _ (by rw [cStor_eq]; exact .stor hp)
  unfold St.store
  split
  · rename_i hm
    have h1 := h.send (cCwd (TextUtil.getdirname r.path)) (by rw [cCwd_eq]; exact .dir _ hp hm (dirname_made _ _))
    refine (line_ok hn h1.d.b).bind ?_
    rintro ⟨_ | l, t⟩ hx
    · exact ⟨fun _ => ⟨hx.1, hx.2.2.1 rfl⟩, by simp⟩
    · obtain ⟨h2, _, e1, e2⟩ := h1.reply hx l rfl
      have h3 : Ok W (if hasPrefix ['2', '5', '0'] l then some (true, t)
          else St.mkdirs (Split.split [ch '/'] 0 (TextUtil.getdirname r.path)) [] t) (Making W U P added r t) := by
        split
        · exact ⟨by simp, fun _ => ⟨h2, rfl, rfl⟩⟩
        · refine mkdirs_ok hn hp hm _ _ _ ?_ (by intro c hc; simp at hc) h2
          exact fun d hd c hc => dirname_made _ _ c (split_mem _ _ d hd c hc)
      refine h3.map ?_
      rintro ⟨_ | _, y⟩ ⟨y1, y2⟩
      · exact ⟨y1, by simp⟩
      · obtain ⟨a, b, c⟩ := y2 rfl
        exact ⟨by simp, fun _ => ⟨stor y a, b.trans e1, c.trans e2⟩⟩
  · exact ⟨by simp, fun _ => ⟨stor s h, rfl, rfl⟩⟩

theorem command_ok (hn : (ids added).Nodup) (h : M W U P added r s) (hd : s.data.isSome = true) :
    Ok W (s.command r) fun x => (x.1 = false → G W U P added x.2) ∧
      (x.1 = true → M W U P added r x.2 ∧ x.2.data.isSome = true ∧ (x.2.isDir = true → r.put = none)) := by
  unfold St.command
  split
  · rename_i hi
    split
    · rename_i hp
      have hp : r.put = none := by simpa using hp
      exact ⟨by simp, fun _ => ⟨h.send _ (by rw [cList_eq]; exact .list hp), hd, fun _ => hp⟩⟩
    · obtain ⟨a, b, c⟩ := seterr_B hn h.d.b
      refine (doneurl_ok hn (h.d.keep a c)).map ?_
      exact fun x hx => ⟨fun _ => hx, by simp⟩
  · rename_i hi
    split
    · rename_i hp
      have hp : r.put = none := by simpa using hp
      exact ⟨by simp, fun _ => ⟨h.send _ (by rw [cRetr_eq]; exact .retr hp), hd, fun _ => hp⟩⟩
    · rename_i hp
      have hp : r.put ≠ none := by simpa using hp
      refine (store_ok hn hp h).imp ?_
      rintro x ⟨x1, x2⟩
      refine ⟨fun hx => .ofClosed (x1 hx).1 (x1 hx).2, fun hx => ?_⟩
      obtain ⟨a, b, c⟩ := x2 hx
      exact ⟨a, by rw [c]; exact hd, fun hy => by rw [b] at hy; exact absurd hy hi⟩

theorem answer_ok (hn : (ids added).Nodup) (h : M W U P added r s) (hd : s.data.isSome = true) (hi : s.isDir = true → r.put = none) :
    Ok W s.answer fun x => G W U P added x ∧ (x.closed = true → x.curl = none) := by
  unfold St.answer
  refine (line_ok hn h.d.b).bind ?_
  rintro ⟨_ | l, t⟩ hx
  · exact (doneurl_ok' hn (h.d.keep hx.1 hx.2.1)).imp fun _ hx => ⟨hx.1, fun _ => hx.2⟩
  · obtain ⟨h2, _, e1, e2⟩ := h.reply hx l rfl
    dsimp only at h2 e1 e2 ⊢
    split
    · refine ⟨?_, fun hx => by rw [h2.op] at hx; cases hx⟩
      refine ⟨h2.d.b, fun _ => h2.live, fun _ hx => ?_, fun _ _ => h2.d.ready, fun _ x hx => ?_⟩
      · rw [h2.d.logged] at hx; cases hx
      · rw [h2.d.curl] at hx
        cases hx
        exact ⟨by rw [e2]; exact hd, h2.d.urls, fun hy => hi (by rw [← e1]; exact hy)⟩
    · obtain ⟨a, b, c⟩ := seterr_B hn h2.d.b
      exact (doneurl_ok' hn (h2.d.keep a c)).imp fun _ hx => ⟨hx.1, fun _ => hx.2⟩

theorem M.upd (h : M W U P added r s) (h1 : s'.user = s.user) (h2 : s'.password = s.password) (h3 : s'.log = s.log) (h4 : s'.dead = s.dead)
    (h5 : s'.urls = s.urls) (h6 : s'.waiting = s.waiting) (h7 : s'.curl = s.curl) (h8 : s'.err = s.err) (h9 : s'.ctl = s.ctl)
    (h10 : s'.closed = s.closed) (h11 : s'.loggedIn = s.loggedIn) : M W U P added r s' := by
  have hb : B W U P added s' := h.d.b.of h1 h2 h3 h4 h5 h6 h7 (by rw [h8, h10]; exact h.d.b.err) (by rw [h9]; exact fun _ h => h)
  exact ⟨⟨hb, by rw [h7]; exact h.d.curl, by rw [h5]; exact h.d.urls, by rw [h11]; exact h.d.logged, by rw [h3]; exact h.d.ready⟩,
    by rw [h10]; exact h.op, by unfold Live; rw [h3, h5, h6]; exact h.live⟩

theorem start_ok (hn : (ids added).Nodup) (h : Idle W U P added s) (hl : s.loggedIn = true) (hr : Ready U P s.log) (hu : s.urls.head? = some r) :
    Ok W (s.start r) fun x => G W U P added x.2 ∧ (x.1 = true → x.2.closed = true → x.2.curl = none) := by
  obtain ⟨t, ht⟩ := head_cons hu
  have gone : ∀ a t, Lined W U P added a (none, t) → G W U P added t ∧ (false = true → t.closed = true → t.curl = none) :=
    fun a t ht => ⟨.ofClosed ht.1 (ht.2.2.1 rfl), by simp⟩
  have h0 : M W U P added r { s with curl := some r, isDir := false } := by
    refine ⟨⟨?_, rfl, hu, hl, hr⟩, h.op, h.live⟩
    have := h.b.setcurl (some r) (by intro x hx; cases hx; rw [ht]; rfl)
    exact this.of rfl rfl rfl rfl rfl rfl rfl this.err (fun _ h => h)
  unfold St.start
  have h1 := h0.send (cCwd r.path) (by rw [cCwd_eq]; exact .cwd)
  refine (line_ok hn h1.d.b).bind ?_
  rintro ⟨_ | l, t⟩ hx
  · exact gone _ _ hx
  obtain ⟨h2, _, e1, e2⟩ := h1.reply hx l rfl
  have h3 : M W U P added r { t with isDir := hasPrefix ['2', '5', '0'] l } := h2.upd rfl rfl rfl rfl rfl rfl rfl rfl rfl rfl rfl
  have h4 := h3.send cPasv (by rw [cPasv_eq]; exact .pasv)
  dsimp only
  refine (line_ok hn h4.d.b).bind ?_
  rintro ⟨_ | l2, t2⟩ hx
  · exact gone _ _ hx
  obtain ⟨h5, hw, _, _⟩ := h4.reply hx l2 rfl
  dsimp only at h5 ⊢
  have hp : Ok W (parsePasv l2) fun _ => True := by
    cases hq : parsePasv l2 with
    | none => intro w; exact (hw w).2 hq
    | some x => trivial
  refine hp.bind ?_
  rintro (_ | ⟨a, port⟩) _
  · obtain ⟨a, b, c⟩ := seterr_B hn h5.d.b
    exact ⟨.ofClosed a b, by simp⟩
  · have hb := h5.d.b.event (.dial a port) (okay_plain _ _ _ _ _ rfl) (by simp)
    have h6 : M W U P added r { t2 with log := t2.log ++ [.dial a port] } :=
      ⟨h5.d.keep hb ⟨rfl, rfl, rfl, ⟨_, rfl⟩, fun _ h => h⟩, h5.op, h5.live.event _ (by simp)⟩
    have h7 : M W U P added r { t2 with log := t2.log ++ [Ev.dial a port], data := some (t2.conns.headD {}), conns := t2.conns.tail } :=
      h6.upd rfl rfl rfl rfl rfl rfl rfl rfl rfl rfl rfl
    dsimp only
    refine (command_ok hn h7 rfl).bind ?_
    rintro ⟨_ | _, y⟩ ⟨y1, y2⟩
    · exact ⟨y1 rfl, by simp⟩
    · obtain ⟨m1, m2, m3⟩ := y2 rfl
      exact (answer_ok hn m1 m2 m3).map fun x hx => ⟨hx.1, fun _ => hx.2⟩

theorem M.events : ∀ (evs : List Ev) (s : St), M W U P added r s → (∀ e ∈ evs, e.carries = some r.id) →
    M W U P added r { s with log := s.log ++ evs }
  | [], s, h, _ => by simpa using h
  | e :: evs, s, h, he => by
    have hc := he e (by simp)
    have hne : ∀ i, e ≠ .eof i := by rintro i rfl; simp [Ev.carries] at hc
    have hcm : ∀ c, e ≠ .cmd c := by rintro i rfl; simp [Ev.carries] at hc
    obtain ⟨t, ht⟩ := head_cons h.d.urls
    have hb := h.d.b.event e ⟨fun c hx => absurd hx (hcm c), by
      intro i hi
      rw [hc] at hi
      cases hi
      have := h.live
      unfold Live at this
      rw [ht] at this
      exact ⟨_, this⟩⟩ hne
    have h1 : M W U P added r { s with log := s.log ++ [e] } :=
      ⟨h.d.keep hb ⟨rfl, rfl, rfl, ⟨_, rfl⟩, fun _ h => h⟩, h.op, h.live.event _ hne⟩
    have := M.events evs _ h1 (fun x hx => he x (by simp [hx]))
    simpa using this

theorem pump_ok (hn : (ids added).Nodup) (h : M W U P added r s) (hd : s.data.isSome = true) :
    Ok W (s.pump r) fun x => M W U P added r x.2 ∧ x.2.data.isSome = true ∧ x.2.isDir = s.isDir := by
  unfold St.pump
  obtain ⟨c, hc⟩ := Option.isSome_iff_exists.1 hd
  rw [hc]
  dsimp only
  have hdead : r.id ∉ s.dead := live_dead hn h.d.b h.live r (h.d.b.curl r h.d.curl)
  split
  · refine ⟨?_, rfl, ?_⟩
    · cases hl : c.lines.head? with
      | none => exact h.upd rfl rfl rfl rfl rfl rfl rfl rfl rfl rfl rfl
      | some o =>
        cases o with
        | none => exact h.upd rfl rfl rfl rfl rfl rfl rfl rfl rfl rfl rfl
        | some l =>
          simp only [if_neg hdead]
          exact (M.events [.entry r.id l] s h (by simp [Ev.carries])).upd rfl rfl rfl rfl rfl rfl rfl rfl rfl rfl rfl
    · cases hl : c.lines.head? with
      | none => rfl
      | some o =>
        cases o with
        | none => rfl
        | some l => simp only [if_neg hdead]
  · split
    · rename_i ready later hp
      have := M.events (ready.map (.sent r.id)) s h (by simp [Ev.carries])
      exact ⟨this.upd rfl rfl rfl rfl rfl rfl rfl rfl rfl rfl rfl, rfl, rfl⟩
    · rw [if_neg (by simp [hdead])]
      exact ⟨(M.events _ s h (by simp [Ev.carries])).upd rfl rfl rfl rfl rfl rfl rfl rfl rfl rfl rfl, rfl, rfl⟩

theorem finish_ok (hn : (ids added).Nodup) (h : M W U P added r s) (hi : s.isDir = true → r.put = none) : Ok W s.finish (G W U P added) := by
  unfold St.finish
  refine (line_ok hn h.d.b).bind ?_
  rintro ⟨_ | l, t⟩ hx
  · exact doneurl_ok hn (h.d.keep hx.1 hx.2.1)
  obtain ⟨h2, _, e1, _⟩ := h.reply hx l rfl
  dsimp only at h2 e1 ⊢
  split
  · rename_i hd
    have h3 := h2.send (cCwd (str ['/'])) (by rw [cCwd_eq]; exact .root (hi (by rw [← e1]; exact hd)))
    refine (line_ok hn h3.d.b).bind ?_
    rintro ⟨_ | l, t⟩ hx
    · exact .ofClosed hx.1 (hx.2.2.1 rfl)
    · exact doneurl_ok hn (h3.reply hx l rfl).1.d
  · exact doneurl_ok hn h2.d

theorem G.mid (h : G W U P added s) (hc : s.closed = false) (r : Req) (hr : s.curl = some r) :
    M W U P added r s ∧ s.data.isSome = true ∧ (s.isDir = true → r.put = none) := by
  have hl : s.loggedIn = true := by
    cases hx : s.loggedIn with
    | true => rfl
    | false => have := (h.new hc hx).2; rw [hr] at this; cases this
  obtain ⟨a, b, c⟩ := h.cur hc r hr
  exact ⟨⟨⟨h.b, hr, b, hl, h.ready hc hl⟩, hc, h.live hc⟩, a, c⟩

/-- A closed stream in the middle of a run has no current request, or none that is looked at. -/
theorem transfer_ok (hn : (ids added).Nodup) (h : G W U P added s) (hc : s.closed = true → s.curl = none) : Ok W s.transfer (G W U P added) := by
  unfold St.transfer
  cases hr : s.curl with
  | none => exact h
  | some r =>
    have hop : s.closed = false := by
      cases hx : s.closed with
      | false => rfl
      | true => have := hc hx; rw [hr] at this; cases this
    obtain ⟨m, d, i⟩ := h.mid hop r hr
    refine (pump_ok hn m d).bind ?_
    rintro ⟨_ | _, t⟩ ⟨y1, y2, y3⟩
    · refine ⟨y1.d.b, fun _ => y1.live, fun _ hx => ?_, fun _ _ => y1.d.ready, fun _ x hx => ?_⟩
      · rw [y1.d.logged] at hx; cases hx
      · rw [y1.d.curl] at hx
        cases hx
        exact ⟨y2, y1.d.urls, fun hy => i (by rw [← y3]; exact hy)⟩
    · exact finish_ok hn y1 (fun hy => i (by rw [← y3]; exact hy))

theorem execute_ok (hn : (ids added).Nodup) (h : G W U P added s) (hc : s.closed = false) : Ok W s.execute (G W U P added) := by
  unfold St.execute
  have h1 : Ok W (if s.loggedIn then some (true, s) else s.login) fun x => G W U P added x.2 ∧ (x.1 = true → x.2.closed = false ∧ x.2.loggedIn = true) := by
    split
    · rename_i hl
      exact ⟨h, fun _ => ⟨hc, hl⟩⟩
    · rename_i hl
      have hl : s.loggedIn = false := by simpa using hl
      obtain ⟨e1, e2⟩ := h.new hc hl
      refine (login_ok hn ⟨h.b, hc, h.live hc, e2⟩ e1).imp ?_
      rintro ⟨_ | _, t⟩ ⟨y1, y2, y3⟩
      · exact ⟨.ofClosed y1 (y2 rfl), by simp⟩
      · obtain ⟨z1, z2, z3⟩ := y3 rfl
        refine ⟨⟨y1, fun _ => z1.live, fun _ hx => ?_, fun _ _ => z3, fun _ x hx => ?_⟩, fun _ => ⟨z1.op, z2⟩⟩
        · rw [z2] at hx; cases hx
        · rw [z1.curl] at hx; cases hx
  refine h1.bind ?_
  rintro ⟨_ | _, t⟩ ⟨y1, y2⟩
  · exact y1
  · obtain ⟨z1, z2⟩ := y2 rfl
    dsimp only at y1 z1 z2 ⊢
    cases hcu : t.curl with
    | some r => exact transfer_ok hn y1 (by simp [z1])
    | none =>
      cases hu : t.urls with
      | nil => exact transfer_ok hn y1 (by simp [z1])
      | cons r us =>
        refine (start_ok hn ⟨y1.b, z1, y1.live z1, hcu⟩ z2 (y1.ready z1 z2) (by rw [hu]; rfl)).bind ?_
        rintro ⟨_ | _, t'⟩ ⟨w1, w2⟩
        · exact w1
        · exact transfer_ok hn w1 (w2 rfl)

theorem addurl_G (h : G W U P added s) (hc : s.closed = false) (r : Req) : G W U P (added ++ [r]) (s.addurl r) := by
  unfold St.addurl
  have hl := h.live hc
  have h1 : B W U P (added ++ [r]) { s with waiting := s.waiting ++ [r] } := {
    name := h.b.name
    pass := h.b.pass
    all := all_mono _ _ _ _ _ h.b.all
    dead := h.b.dead
    queue := .inl (by unfold Live at hl; simp [ids] at hl ⊢; rw [hl]; simp)
    curl := by
      intro x hx
      obtain ⟨t, ht⟩ := head_cons (h.b.curl x hx)
      show (s.urls ++ (s.waiting ++ [r])).head? = some x
      rw [← List.append_assoc, ht]
      rfl
    err := h.b.err
    wf := h.b.wf
    sub := by
      intro x hx
      simp only [← List.append_assoc, List.mem_append (t := [r])] at hx ⊢
      rcases hx with hx | hx
      · exact .inl (h.b.sub x hx)
      · exact .inr hx }
  have hs := requestNext_same { s with waiting := s.waiting ++ [r] }
  obtain ⟨e1, e2, e3, e4, e5, e6, e7, e8, e9, e10, e11, e12, e13⟩ := hs
  refine ⟨requestNext_B h1, fun _ => ?_, fun _ hx => ?_, fun _ hx => ?_, fun _ x hx => ?_⟩
  · unfold Live at hl ⊢
    rw [e1, e2]
    simp [ids] at hl ⊢; rw [hl]; simp
  · rw [e10] at hx
    rw [e2, e4]
    exact h.new hc hx
  · rw [e10] at hx
    rw [e2]
    exact h.ready hc hx
  · rw [e4] at hx
    obtain ⟨a, b, c⟩ := h.cur hc x hx
    exact ⟨by rw [e11]; exact a, e13 x b, by rw [e12]; exact c⟩

/-- What holds at the end, when the rest of the requests was not taken any more. -/
def Done (W : Prop) (U P : List Byte) (reqs : List Req) (s : St) : Prop := ∃ added t, reqs = added ++ t ∧ G W U P added s

theorem run_closed (s : St) (h : s.closed = true) : ∀ os : List Op, s.run os = some s
  | [] => rfl
  | o :: os => by
    unfold St.run St.step
    rw [if_pos h]
    exact run_closed s h os

theorem run_ok : ∀ (os : List Op) (added : List Req) (s : St), (ids (added ++ adds os)).Nodup → G W U P added s →
    Ok W (s.run os) (Done W U P (added ++ adds os))
  | [], added, s, _, h => ⟨added, [], by simp [adds], h⟩
  | o :: os, added, s, hn, h => by
    by_cases hc : s.closed = true
    · rw [run_closed s hc]
      exact ⟨added, _, rfl, h⟩
    · have hc : s.closed = false := by simpa using hc
      have hn0 : (ids added).Nodup := by
        simp only [ids, List.map_append, List.nodup_append] at hn
        exact hn.1
      unfold St.run St.step
      rw [if_neg (by simp [hc])]
      cases o with
      | add r =>
        have := run_ok os (added ++ [r]) (s.addurl r) (by simpa [adds] using hn) (addurl_G h hc r)
        simpa [adds] using this
      | exec => exact (execute_ok hn0 h hc).bind fun t ht => run_ok os added t hn ht
      | tick =>
        refine run_ok os added _ hn ?_
        split
        · exact .ofClosed (close_B' hn0 h.b).1 (close_B' hn0 h.b).2.1
        · exact h

theorem new_G (user password : List Byte) (max : Nat) (ctl : List (List Byte)) (ctlErr : Bool) (conns : List Conn) (hw : W → ∀ l ∈ ctl, Wf l) :
    G W (nameOf user) (passwordOf password) [] (St.new user password max ctl ctlErr conns) where
  b := {
    name := rfl
    pass := rfl
    all := by intro pre e post h; simp [St.new] at h
    dead := by simp [St.new, ended]
    queue := .inl rfl
    curl := by simp [St.new]
    err := by simp [St.new]
    wf := hw
    sub := by simp [St.new] }
  live := fun _ => rfl
  new := fun _ _ => ⟨rfl, rfl⟩
  ready := by simp [St.new]
  cur := by simp [St.new]

theorem all_extend (U P : List Byte) (added : List Req) (log : List Ev) (h : All U P added log) : ∀ t, All U P (added ++ t) log := by
  intro t
  induction t generalizing added with
  | nil => simpa using h
  | cons r t ih =>
    have := ih (added ++ [r]) (all_mono _ _ _ _ _ h)
    simpa using this

end FtpCliP

/-- C108 (partial, see C108_short_fails): whatever the server sends, as long as no line of it is shorter than three characters and no
    number in it is too large, the client does nothing undefined. -/
theorem C108_defined_partial (user password : List Byte) (max : Nat) (ctl : List (List Byte)) (ctlErr : Bool) (conns : List Conn)
    (ops : List Op) (hn : (ids (adds ops)).Nodup) (hw : ∀ l ∈ ctl, 3 ≤ l.length ∧ parsePasv l ≠ none) :
    ((St.new user password max ctl ctlErr conns).run ops).isSome = true := by
  have := FtpCliP.run_ok (W := True) ops [] _ (by simpa using hn) (FtpCliP.new_G user password max ctl ctlErr conns (fun _ => hw))
  cases h : (St.new user password max ctl ctlErr conns).run ops with
  | none => rw [h] at this; exact absurd trivial this
  | some s => rfl

/-- C108: each command that is sent, whatever the server answers, is one that may be sent then: the name after a greeting, the password
    after the server has asked for it, all that has to do with files only after the server has accepted the user, and of files only
    those that were asked for. -/
theorem C108_commands (user password : List Byte) (max : Nat) (ctl : List (List Byte)) (ctlErr : Bool) (conns : List Conn)
    (ops : List Op) (hn : (ids (adds ops)).Nodup) (s : St) (h : (St.new user password max ctl ctlErr conns).run ops = some s)
    (pre post : List Ev) (c : List Byte) (hl : s.log = pre ++ .cmd c :: post) :
    Allowed (nameOf user) (passwordOf password) (adds ops) pre c := by
  have := FtpCliP.run_ok (W := False) ops [] _ (by simpa using hn) (FtpCliP.new_G user password max ctl ctlErr conns (fun w => w.elim))
  rw [h] at this
  obtain ⟨added, t, e, g⟩ := this
  simp only [List.nil_append] at e
  rw [e]
  exact (FtpCliP.all_extend _ _ _ _ g.b.all t pre _ post hl).1 c rfl

/-- C108: requests come to their end in the order in which they were made, each once; and all data that is passed on while a request is
    the first that has not come to its end belongs to this request. -/
theorem C108_order (user password : List Byte) (max : Nat) (ctl : List (List Byte)) (ctlErr : Bool) (conns : List Conn)
    (ops : List Op) (hn : (ids (adds ops)).Nodup) (s : St) (h : (St.new user password max ctl ctlErr conns).run ops = some s) :
    ended s.log <+: ids (adds ops) ∧
    ∀ pre e post i, s.log = pre ++ e :: post → e.carries = some i → ended pre ++ [i] <+: ids (adds ops) := by
  have := FtpCliP.run_ok (W := False) ops [] _ (by simpa using hn) (FtpCliP.new_G user password max ctl ctlErr conns (fun w => w.elim))
  rw [h] at this
  obtain ⟨added, t, e, g⟩ := this
  simp only [List.nil_append] at e
  rw [e]
  constructor
  · have : ids (added ++ t) = ids added ++ ids t := by simp [ids]
    rw [this]
    refine List.IsPrefix.trans ?_ (List.prefix_append _ _)
    rcases g.b.queue with hq | ⟨r, t', _, _, hq⟩ <;> (rw [hq]; exact List.prefix_append _ _)
  · intro pre e post i hl hc
    obtain ⟨t', ht⟩ := (FtpCliP.all_extend _ _ _ _ g.b.all t pre _ post hl).2 i hc
    exact ⟨t', by rw [ht]; simp⟩

namespace FtpCliP

theorem cut_mem (c : Byte) : ∀ (s a b : List Byte), Url.cut c s = some (a, b) → (∀ x ∈ a, x ∈ s) ∧ (∀ x ∈ b, x ∈ s)
  | [], a, b, h => by simp [Url.cut] at h
  | y :: s, a, b, h => by
    unfold Url.cut at h
    split at h
    · simp only [Option.some.injEq, Prod.mk.injEq] at h
      obtain ⟨rfl, rfl⟩ := h
      exact ⟨by simp, fun x hx => by simp [hx]⟩
    · cases hs : Url.cut c s with
      | none => rw [hs] at h; cases h
      | some z =>
        rw [hs] at h
        simp only [Option.map_some, Option.some.injEq, Prod.mk.injEq] at h
        obtain ⟨rfl, rfl⟩ := h
        obtain ⟨h1, h2⟩ := cut_mem c s z.1 z.2 hs
        refine ⟨fun x hx => ?_, fun x hx => by simp [h2 x hx]⟩
        rcases List.mem_cons.1 hx with rfl | hx
        · simp
        · simp [h1 x hx]

theorem user_mem (w : List Byte) : (∀ x ∈ (Url.userPart w).1, x ∈ w) ∧ (∀ x ∈ (Url.userPart w).2.1, x ∈ w) ∧ (∀ x ∈ (Url.userPart w).2.2, x ∈ w) := by
  unfold Url.userPart
  cases h : Url.cut (ch '@') w with
  | none => simp
  | some y =>
    obtain ⟨a, b⟩ := y
    obtain ⟨h1, h2⟩ := cut_mem _ _ _ _ h
    dsimp only
    cases h' : Url.cut (ch ':') a with
    | none => exact ⟨h1, by simp, h2⟩
    | some z =>
      obtain ⟨u, p⟩ := z
      obtain ⟨h3, h4⟩ := cut_mem _ _ _ _ h'
      dsimp only
      split
      · exact ⟨fun x hx => h1 x (h3 x hx), fun x hx => h1 x (h4 x hx), h2⟩
      · exact ⟨h1, by simp, h2⟩

theorem file_mem (sl : Bool) (w : List Byte) : ∀ x ∈ (Url.filePart sl w).2, x ∈ w ∨ x = ch '/' := by
  unfold Url.filePart
  cases h : Url.cut (ch '/') w with
  | none =>
    intro x hx
    dsimp only at hx
    split at hx
    · simp [str] at hx; exact .inr hx
    · simp at hx
  | some y =>
    obtain ⟨a, b⟩ := y
    obtain ⟨_, h2⟩ := cut_mem _ _ _ _ h
    intro x hx
    rcases List.mem_cons.1 hx with rfl | hx
    · exact .inr rfl
    · exact .inl (h2 x hx)

theorem read_mem (w : List Byte) (u : Spec.Url.Parts) (h : Url.readWord w = some u) :
    (∀ x ∈ u.user, x ∈ w) ∧ (∀ x ∈ u.password, x ∈ w) ∧ (∀ x ∈ u.path, x ∈ w ∨ x = ch '/') := by
  have bad : (∀ x ∈ Url.bad.user, x ∈ w) ∧ (∀ x ∈ Url.bad.password, x ∈ w) ∧ (∀ x ∈ Url.bad.path, x ∈ w ∨ x = ch '/') := by
    simp [Url.bad]
  unfold Url.readWord at h
  split at h
  · cases h; exact bad
  · cases hc : Url.cut (ch ':') w with
    | none => rw [hc] at h; cases h; exact bad
    | some y =>
      obtain ⟨proto, rest⟩ := y
      obtain ⟨_, h2⟩ := cut_mem _ _ _ _ hc
      rw [hc] at h
      dsimp only at h
      split at h
      · cases h
      · obtain ⟨w', hw'⟩ : ∃ w', w' = (if Url.usesSlashes proto = true then rest.drop 2 else rest) := ⟨_, rfl⟩
        have hm : ∀ x ∈ w', x ∈ w := by
          intro x hx
          rw [hw'] at hx
          split at hx
          · exact h2 x ((List.drop_sublist _ _).subset hx)
          · exact h2 x hx
        rw [← hw'] at h
        cases hh : Url.hostPart proto (Url.filePart (Url.usesSlashes proto) (Url.userPart w').2.2).1 with
        | none => rw [hh] at h; cases h
        | some z =>
          rw [hh] at h
          cases h
          obtain ⟨m1, m2, m3⟩ := user_mem w'
          refine ⟨fun x hx => hm x (m1 x hx), fun x hx => hm x (m2 x hx), fun x hx => ?_⟩
          rcases file_mem _ _ x hx with h | h
          · exact .inl (hm x (m3 x h))
          · exact .inr h

end FtpCliP

/-- No line ends in this text. -/
def FtpCliP.OneLine (t : List Byte) : Prop := ch '\r' ∉ t ∧ ch '\n' ∉ t

/-- C108: nothing of a URL that was read can end a line. -/
theorem C108_url (t : List Byte) (u : Spec.Url.Parts) (h : Url.parse t = some u) :
    FtpCliP.OneLine u.user ∧ FtpCliP.OneLine u.password ∧ FtpCliP.OneLine u.path := by
  obtain ⟨h1, h2, h3⟩ := FtpCliP.read_mem _ u h
  have key : ∀ x ∈ (trimString t).takeWhile fun c => !Url.stops c, x ≠ ch '\r' ∧ x ≠ ch '\n' := by
    intro x hx
    have := List.all_eq_true.1 (List.all_takeWhile (p := fun c => !Url.stops c) (l := trimString t)) x hx
    constructor <;> (rintro rfl; revert this; decide)
  refine ⟨⟨fun hx => (key _ (h1 _ hx)).1 rfl, fun hx => (key _ (h1 _ hx)).2 rfl⟩, ⟨fun hx => (key _ (h2 _ hx)).1 rfl, fun hx => (key _ (h2 _ hx)).2 rfl⟩, ?_, ?_⟩
  · intro hx
    rcases h3 _ hx with h | h
    · exact (key _ h).1 rfl
    · revert h; decide
  · intro hx
    rcases h3 _ hx with h | h
    · exact (key _ h).2 rfl
    · revert h; decide

namespace FtpCliP

theorem oneLine_line (w : List Char) (a : List Byte) (hw : OneLine (str w)) (ha : OneLine a) : ∃ b, line w a = b ++ str ['\r', '\n'] ∧ OneLine b := by
  refine ⟨str w ++ ch ' ' :: a, by simp [line], ?_, ?_⟩
  · simp only [List.mem_append, List.mem_cons, not_or]
    exact ⟨hw.1, by decide, ha.1⟩
  · simp only [List.mem_append, List.mem_cons, not_or]
    exact ⟨hw.2, by decide, ha.2⟩

theorem oneLine_made (p d : List Byte) (hp : OneLine p) (h : MadeOf p d) : OneLine d := by
  constructor
  · intro hx
    rcases h _ hx with h | h | h
    · exact hp.1 h
    · revert h; decide
    · revert h; decide
  · intro hx
    rcases h _ hx with h | h | h
    · exact hp.2 h
    · revert h; decide
    · revert h; decide

end FtpCliP

/-- C108: when the names come from URLs, everything that is sent to the server is one line: no URL can smuggle in a command. -/
theorem C108_one_line (login : List Byte) (lu : Spec.Url.Parts) (hlu : Url.parse login = some lu) (max : Nat) (ctl : List (List Byte))
    (ctlErr : Bool) (conns : List Conn) (ops : List Op) (hn : (ids (adds ops)).Nodup)
    (hu : ∀ r ∈ adds ops, ∃ t u, Url.parse t = some u ∧ r.path = u.path)
    (s : St) (h : (St.new lu.user lu.password max ctl ctlErr conns).run ops = some s) (c : List Byte) (hc : .cmd c ∈ s.log) :
    ∃ b, c = b ++ str ['\r', '\n'] ∧ ch '\r' ∉ b ∧ ch '\n' ∉ b := by
  obtain ⟨pre, post, hl⟩ := List.append_of_mem hc
  have ha := C108_commands _ _ _ _ _ _ _ hn s h pre post c hl
  obtain ⟨l1, l2, _⟩ := C108_url login lu hlu
  cases ha with
  | user g hb hg =>
    refine FtpCliP.oneLine_line _ _ (by constructor <;> decide) ?_
    unfold nameOf
    split
    · constructor <;> decide
    · exact l1
  | pass g r hb hg hr =>
    refine FtpCliP.oneLine_line _ _ (by constructor <;> decide) ?_
    unfold passwordOf
    split
    · constructor <;> decide
    · exact l2
  | type hb => exact FtpCliP.oneLine_line _ _ (by constructor <;> decide) (by constructor <;> decide)
  | file r c hr hb hf =>
    obtain ⟨t, u, e1, e2⟩ := hu r hr
    have hp : FtpCliP.OneLine r.path := by rw [e2]; exact (C108_url t u e1).2.2
    cases hf with
    | cwd => exact FtpCliP.oneLine_line _ _ (by constructor <;> decide) hp
    | pasv => exact ⟨str ['P', 'A', 'S', 'V'], by decide, by decide, by decide⟩
    | list _ => exact FtpCliP.oneLine_line _ _ (by constructor <;> decide) hp
    | retr _ => exact FtpCliP.oneLine_line _ _ (by constructor <;> decide) hp
    | root _ => exact FtpCliP.oneLine_line _ _ (by constructor <;> decide) (by constructor <;> decide)
    | stor _ => exact FtpCliP.oneLine_line _ _ (by constructor <;> decide) hp
    | dir d _ _ hd => exact FtpCliP.oneLine_line _ _ (by constructor <;> decide) (FtpCliP.oneLine_made _ _ hp hd)
    | mkd d _ _ hd => exact FtpCliP.oneLine_line _ _ (by constructor <;> decide) (FtpCliP.oneLine_made _ _ hp hd)

namespace FtpCliP
open Ip

theorem commas_step (n : Nat) (w r : List Byte) (h : ch ',' ∉ w) :
    commas (n + 1) (w ++ ch ',' :: r) = (commas n r).map fun x => (if n = 0 then w else w ++ ch '.' :: x.1, x.2) := by
  have hne : ∀ a ∈ w, (a != ch ',') = true := by intro a ha; simp; rintro rfl; exact h ha
  have e1 : (w ++ ch ',' :: r).takeWhile (· != ch ',') = w := by
    rw [List.takeWhile_append_of_pos hne]; simp
  have e2 : (w ++ ch ',' :: r).dropWhile (· != ch ',') = ch ',' :: r := by
    rw [List.dropWhile_append_of_pos hne]; simp
  rw [commas, if_pos (by simp), e1, e2]
  rfl

theorem num_dec (n : Nat) (hn : n < 256) (r : List Byte) (h : Stop r) : Num.num (Num.dec n ++ r) = some (n : Int) := by
  have hg := Num.dec_isdigit n
  have hne := Num.dec_ne_nil n
  have hd := (Num.digits_dec n r).trans (digits_stop n r h)
  unfold Num.num
  cases hl : Num.dec n with
  | nil => exact absurd hl hne
  | cons c l =>
    have hc := hg c (by rw [hl]; simp)
    have hs : isspace c = false := by
      have : ∀ c : Byte, isdigit c = true → isspace c = false := by
        intro c; revert c; exact forall_byte (by decide +kernel)
      exact this c hc.1
    have hp : (c == ch '+') = false := by
      have : ∀ c : Byte, isdigit c = true → (c == ch '+') = false := by
        intro c; revert c; exact forall_byte (by decide +kernel)
      exact this c hc.1
    have hm : (c == ch '-') = false := by simpa using hc.2
    rw [hl] at hd
    rw [List.cons_append] at hd ⊢
    rw [List.dropWhile_cons, hs]
    simp only [Bool.false_eq_true, if_false, hm, hp, hd]
    rw [if_pos (by simp [Num.inRange]; omega)]

theorem port_eq (p q : Nat) (hp : p < 256) (hq : q < 256) : (((p : Int) * 256 + (q : Int)) % 65536).toNat = p * 256 + q := by omega

theorem store_eq (x : Int) (h0 : 0 ≤ x) (h : x < 65536) : Num.store 32 x = some x := by
  unfold Num.store; rw [if_pos (by simp [Num.inRange]; omega)]

theorem rest_eq (body r r' : List Byte) (ip : List Byte) (hi lo : Int) (c : Byte) (l : List Byte) (hb : body = c :: l) (hc : isdigit c = true)
    (hcm : commas 4 body = some (ip, r)) (h1 : Num.num r = some hi) (h2 : Num.store 32 (hi * 256) = some (hi * 256))
    (h3 : Wv.Addr.after (ch ',') r = some r') (h4 : Num.num r' = some lo) (h5 : Num.store 32 (hi * 256 + lo) = some (hi * 256 + lo))
    (t : List Byte) (hp : hasPrefix ['2', '2', '7', ' '] t = true)
    (hd : (t.drop 3).dropWhile (fun c => !isdigit c && c != ch '\r' && c != ch '\n') = body) :
    parsePasv t = some (some (Wv.Addr.parse ip, ((hi * 256 + lo) % 65536).toNat)) := by
  unfold parsePasv
  rw [if_pos hp, hd]
  subst hb
  simp only [hc, if_true, hcm, h1, h2, h3, h4, h5, Option.bind_some, Option.map_some]

end FtpCliP

/-- C108: the address and the port of a proper answer to PASV are read, whatever text is around them that has no digits before. -/
theorem C108_pasv (pre : List Byte) (a : Spec.Addr.Addr) (p q : Byte) (post : List Byte)
    (hpre : ∀ c ∈ pre, isdigit c = false ∧ c ≠ ch '\r' ∧ c ≠ ch '\n') (hpost : ∀ c t, post = c :: t → isdigit c = false) :
    parsePasv (pasv pre a p q post) = some (some (a, p.toNat * 256 + q.toNat)) := by
  have hcomma : ∀ b : Byte, ch ',' ∉ Num.dec b.toNat := fun b => Ip.dec_not _ _ (by decide)
  obtain ⟨rest, hrest⟩ : ∃ rest, rest = Num.dec p.toNat ++ ch ',' :: (Num.dec q.toNat ++ post) := ⟨_, rfl⟩
  obtain ⟨body, hbody⟩ : ∃ body, body = Num.dec a.a.toNat ++ ch ',' :: (Num.dec a.b.toNat ++ ch ',' :: (Num.dec a.c.toNat ++ ch ',' ::
    (Num.dec a.d.toNat ++ ch ',' :: rest))) := ⟨_, rfl⟩
  have e : pasv pre a p q post = str ['2', '2', '7', ' '] ++ (pre ++ body) := by
    rw [hbody, hrest]
    simp [pasv, dec, Num.dec]
  have hpf : hasPrefix ['2', '2', '7', ' '] (pasv pre a p q post) = true := by
    rw [e]; unfold hasPrefix; rw [List.isPrefixOf_iff_prefix]; exact List.prefix_append _ _
  have hdr : (pasv pre a p q post).drop 3 = ch ' ' :: pre ++ body := by rw [e]; rfl
  obtain ⟨c, l, hcl⟩ : ∃ c l, Num.dec a.a.toNat = c :: l := by
    cases hx : Num.dec a.a.toNat with
    | nil => exact absurd hx (Num.dec_ne_nil _)
    | cons c l => exact ⟨c, l, rfl⟩
  have hcd : isdigit c = true := (Num.dec_isdigit a.a.toNat c (by rw [hcl]; simp)).1
  have hdw : (ch ' ' :: pre ++ body).dropWhile (fun c => !isdigit c && c != ch '\r' && c != ch '\n') = body := by
    rw [List.dropWhile_append_of_pos]
    · rw [hbody, hcl, List.cons_append, List.dropWhile_cons, hcd]; rfl
    · intro x hx
      rcases List.mem_cons.1 hx with rfl | hx
      · decide
      · obtain ⟨h1, h2, h3⟩ := hpre x hx
        simp [h1, h2, h3]
  have hcm : commas 4 body = some (Wv.Addr.printable a, rest) := by
    rw [hbody, FtpCliP.commas_step _ _ _ (hcomma _), FtpCliP.commas_step _ _ _ (hcomma _), FtpCliP.commas_step _ _ _ (hcomma _), FtpCliP.commas_step _ _ _ (hcomma _)]
    simp [commas, Wv.Addr.printable, Ip.number_eq]
  have hp := p.toNat_lt
  have hq := q.toNat_lt
  have hbc : body = c :: (l ++ ch ',' :: (Num.dec a.b.toNat ++ ch ',' :: (Num.dec a.c.toNat ++ ch ',' :: (Num.dec a.d.toNat ++ ch ',' :: rest)))) := by
    rw [hbody, hcl]; rfl
  have hn1 : Num.num rest = some (p.toNat : Int) := by
    rw [hrest]
    exact FtpCliP.num_dec _ hp _ (by rintro c t h; cases h; decide)
  have haf : Wv.Addr.after (ch ',') rest = some (Num.dec q.toNat ++ post) := by
    rw [hrest]; exact Ip.after_cons _ _ _ (hcomma _)
  have hn2 : Num.num (Num.dec q.toNat ++ post) = some (q.toNat : Int) := FtpCliP.num_dec _ hq _ hpost
  have := FtpCliP.rest_eq body rest (Num.dec q.toNat ++ post) (Wv.Addr.printable a) p.toNat q.toNat c _ hbc hcd hcm hn1
    (FtpCliP.store_eq _ (by omega) (by omega)) haf hn2 (FtpCliP.store_eq _ (by omega) (by omega)) _ hpf (hdr ▸ hdw)
  rw [this, FtpCliP.port_eq _ _ hp hq, (C38_roundtrip a [] (fun _ _ h => by cases h)).1]

example : parsePasv (str "227 Entering Passive Mode (192,168,0,7,4,1).\r".toList) = some (some (⟨192, 168, 0, 7⟩, 1025)) := by decide +kernel

namespace FtpCliP

theorem begins_has (cs : List Char) (l : List Byte) (h : begins cs l) : hasPrefix cs l = true := by
  obtain ⟨t, rfl⟩ := h
  unfold hasPrefix
  rw [List.isPrefixOf_iff_prefix]
  exact List.prefix_append _ _

theorem line_plain (s : St) (l : List Byte) (ls : List (List Byte)) (h : s.ctl = l :: ls) (hp : Plain l) :
    s.line = some (some l, { s with ctl := ls, log := s.log ++ [.reply l] }) := by
  unfold St.line
  have : important s.ctl = some (some (l, ls)) := by
    rw [h]; unfold important
    rw [if_neg (by have := hp.1; omega), if_neg hp.2]
  rw [this]

theorem close_log (s : St) (h : s.curl = none) (he : s.err = false) : s.close.log = s.log := by
  unfold St.close
  simp [h, he]

theorem doneurl_log (s : St) (r : Req) (h : s.curl = some r) (hd : r.id ∉ s.dead) (he : s.err = false) :
    ∃ s', s.doneurl = some s' ∧ s'.log = s.log ++ [.eof r.id] := by
  unfold St.doneurl
  rw [h]
  refine ⟨_, rfl, ?_⟩
  have hdn : s.done r = { s with dead := r.id :: s.dead, log := s.log ++ [.eof r.id] } := by unfold St.done; rw [if_neg hd]
  rw [hdn]
  have hs := requestNext_same { { s with dead := r.id :: s.dead, log := s.log ++ [Ev.eof r.id] } with curl := none, data := none, urls := s.urls.tail }
  split
  · rw [close_log]
    · exact hs.2.1
    · exact hs.2.2.2.1
    · exact hs.2.2.2.2.2.1.trans he
  · exact hs.2.1

/-- A state in the middle of a transfer. -/
structure At (s : St) (r : Req) (c : Conn) (dir : Bool) (ctl : List (List Byte)) : Prop where
  op : s.closed = false
  err : s.err = false
  logged : s.loggedIn = true
  curl : s.curl = some r
  data : s.data = some c
  dir : s.isDir = dir
  dead : r.id ∉ s.dead
  ctl : s.ctl = ctl

theorem exec_at {s : St} {r : Req} {c : Conn} {d : Bool} {ctl : List (List Byte)} (h : At s r c d ctl) : s.execute = s.transfer := by
  unfold St.execute
  rw [h.logged]
  simp only [if_true, Option.bind_some, h.curl]

theorem step_at {s : St} {r : Req} {c : Conn} {d : Bool} {ctl : List (List Byte)} (h : At s r c d ctl) (os : List Op) :
    s.run (.exec :: os) = s.transfer.bind fun s => s.run os := by
  show (s.step .exec).bind _ = _
  unfold St.step
  rw [h.op, exec_at h]
  rfl

/-- The end of a transfer of a file. -/
theorem finish_file {s : St} {r : Req} {c : Conn} {fin : List Byte} {more : List (List Byte)} (h : At s r c false (fin :: more)) (hp : Plain fin) :
    ∃ s', s.finish = some s' ∧ s'.log = s.log ++ [.reply fin, .eof r.id] := by
  unfold St.finish
  rw [line_plain s fin more h.ctl hp]
  simp only [Option.bind_some, h.dir, Bool.false_eq_true, if_false]
  obtain ⟨s', e1, e2⟩ := doneurl_log { s with ctl := more, log := s.log ++ [.reply fin], isDir := false } r h.curl h.dead h.err
  refine ⟨s', ?_, by rw [e2]; simp⟩
  rw [← e1]

/-- The end of a transfer of a listing. -/
theorem finish_list {s : St} {r : Req} {c : Conn} {fin fin2 : List Byte} {more : List (List Byte)} (h : At s r c true (fin :: fin2 :: more)) (hp : Plain fin)
    (hp2 : Plain fin2) : ∃ s', s.finish = some s' ∧ s'.log = s.log ++ [.reply fin, .cmd (line ['C', 'W', 'D'] (str ['/'])), .reply fin2, .eof r.id] := by
  unfold St.finish
  rw [line_plain s fin _ h.ctl hp]
  simp only [Option.bind_some, h.dir, if_true]
  rw [line_plain _ fin2 more rfl hp2]
  simp only [Option.bind_some]
  obtain ⟨s', e1, e2⟩ := doneurl_log { s with ctl := more, log := s.log ++ [.reply fin] ++ [.cmd (cCwd (str ['/']))] ++ [.reply fin2], isDir := true } r
    h.curl h.dead h.err
  refine ⟨s', ?_, by rw [e2, ← cCwd_eq]; simp⟩
  rw [← e1, ← h.dir]
  rfl

theorem get_run (r : Req) (hr : r.put = none) (fin : List Byte) (hp : Plain fin) (more : List (List Byte)) (ls : List (Option (List Byte))) :
    ∀ (rounds : List (List (List Byte))) (s : St), At s r ⟨rounds, ls⟩ false (fin :: more) →
    ∃ s', (s.transfer.bind fun s => s.run (List.replicate (rounds.length - 1) .exec)) = some s' ∧
      s'.log = s.log ++ rounds.flatten.map (.out r.id) ++ [.reply fin, .eof r.id]
  | [], s, h => by
    have e : s.transfer = { s with log := s.log ++ [], data := some ⟨[], ls⟩ }.finish := by
      unfold St.transfer
      simp only [h.curl, St.pump, h.data, h.dir, hr, Bool.false_eq_true, if_false, List.headD_nil, List.isEmpty_nil, Bool.not_true, Bool.and_false,
        List.map_nil, List.tail_nil, Option.bind_some]
    have h' : At { s with log := s.log ++ [], data := some ⟨[], ls⟩ } r ⟨[], ls⟩ false (fin :: more) :=
      ⟨h.op, h.err, h.logged, h.curl, rfl, h.dir, h.dead, h.ctl⟩
    obtain ⟨s', e1, e2⟩ := finish_file h' hp
    refine ⟨s', by rw [e, e1]; rfl, by rw [e2]; simp⟩
  | [x], s, h => by
    have e : s.transfer = { s with log := s.log ++ x.map (Ev.out r.id), data := some ⟨[], ls⟩ }.finish := by
      unfold St.transfer
      simp only [h.curl, St.pump, h.data, h.dir, hr, Bool.false_eq_true, if_false, List.headD_cons, h.dead, decide_false, Bool.false_and,
        List.tail_cons, Option.bind_some, List.isEmpty_nil]
    have h' : At { s with log := s.log ++ x.map (Ev.out r.id), data := some ⟨[], ls⟩ } r ⟨[], ls⟩ false (fin :: more) :=
      ⟨h.op, h.err, h.logged, h.curl, rfl, h.dir, h.dead, h.ctl⟩
    obtain ⟨s', e1, e2⟩ := finish_file h' hp
    refine ⟨s', by rw [e, e1]; rfl, by rw [e2]; simp⟩
  | x :: y :: rest, s, h => by
    have e : s.transfer = some { s with log := s.log ++ x.map (Ev.out r.id), data := some ⟨y :: rest, ls⟩ } := by
      unfold St.transfer
      simp only [h.curl, St.pump, h.data, h.dir, hr, Bool.false_eq_true, if_false, List.headD_cons, h.dead, decide_false, Bool.false_and,
        List.tail_cons, Option.bind_some, List.isEmpty_cons]
    have h' : At { s with log := s.log ++ x.map (Ev.out r.id), data := some ⟨y :: rest, ls⟩ } r ⟨y :: rest, ls⟩ false (fin :: more) :=
      ⟨h.op, h.err, h.logged, h.curl, rfl, h.dir, h.dead, h.ctl⟩
    obtain ⟨s', e1, e2⟩ := get_run r hr fin hp more ls (y :: rest) _ h'
    refine ⟨s', ?_, by rw [e2]; simp⟩
    rw [e]
    show St.run _ (List.replicate (rest.length + 1) .exec) = _
    rw [List.replicate_succ, step_at h']
    exact e1

/-- The lines of a listing. -/
def entries (i : Nat) (ls : List (Option (List Byte))) : List Ev := (ls.filterMap id).map (.entry i)

theorem list_run (r : Req) (fin fin2 : List Byte) (hp : Plain fin) (hp2 : Plain fin2) (more : List (List Byte)) (rs : List (List (List Byte))) :
    ∀ (ls : List (Option (List Byte))) (s : St), At s r ⟨rs, ls⟩ true (fin :: fin2 :: more) →
    ∃ s', (s.transfer.bind fun s => s.run (List.replicate (ls.length - 1) .exec)) = some s' ∧
      s'.log = s.log ++ entries r.id ls ++ [.reply fin, .cmd (line ['C', 'W', 'D'] (str ['/'])), .reply fin2, .eof r.id]
  | [], s, h => by
    have e : s.transfer = { s with data := some ⟨rs, []⟩ }.finish := by
      unfold St.transfer
      simp only [h.curl, St.pump, h.data, h.dir, if_true, List.head?_nil, List.tail_nil, Option.bind_some, List.isEmpty_nil]
    have h' : At { s with data := some ⟨rs, []⟩ } r ⟨rs, []⟩ true (fin :: fin2 :: more) :=
      ⟨h.op, h.err, h.logged, h.curl, rfl, h.dir, h.dead, h.ctl⟩
    obtain ⟨s', e1, e2⟩ := finish_list h' hp hp2
    refine ⟨s', by rw [e, e1]; rfl, by rw [e2]; simp [entries]⟩
  | x :: rest, s, h => by
    have e : s.transfer = (if rest.isEmpty then { s with log := s.log ++ entries r.id [x], data := some ⟨rs, rest⟩ }.finish
        else some { s with log := s.log ++ entries r.id [x], data := some ⟨rs, rest⟩ }) := by
      unfold St.transfer
      cases x with
      | none =>
        simp only [h.curl, St.pump, h.data, h.dir, if_true, List.head?_cons, List.tail_cons, Option.bind_some, entries, List.filterMap_cons, id,
          List.filterMap_nil, List.map_nil, List.append_nil]
        cases rest.isEmpty <;> rfl
      | some l =>
        simp only [h.curl, St.pump, h.data, h.dir, if_true, List.head?_cons, List.tail_cons, Option.bind_some, entries, List.filterMap_cons, id,
          List.filterMap_nil, List.map_nil, List.map_cons, h.dead, if_false]
        cases rest.isEmpty <;> rfl
    have h' : At { s with log := s.log ++ entries r.id [x], data := some ⟨rs, rest⟩ } r ⟨rs, rest⟩ true (fin :: fin2 :: more) :=
      ⟨h.op, h.err, h.logged, h.curl, rfl, h.dir, h.dead, h.ctl⟩
    have hent : entries r.id (x :: rest) = entries r.id [x] ++ entries r.id rest := by cases x <;> simp [entries]
    cases rest with
    | nil =>
      obtain ⟨s', e1, e2⟩ := finish_list h' hp hp2
      refine ⟨s', by rw [e]; simp only [List.isEmpty_nil, if_true]; rw [e1]; rfl, by rw [e2]⟩
    | cons y rest =>
      obtain ⟨s', e1, e2⟩ := list_run r fin fin2 hp hp2 more rs (y :: rest) _ h'
      refine ⟨s', ?_, by rw [e2, hent]; simp⟩
      rw [e]
      show St.run _ (List.replicate (rest.length + 1) .exec) = _
      rw [List.replicate_succ, step_at h']
      exact e1

/-- A stream that has logged in, with this request the next. -/
structure Next (s : St) (r : Req) (ctl : List (List Byte)) (c : Conn) (cs : List Conn) : Prop where
  op : s.closed = false
  err : s.err = false
  logged : s.loggedIn = true
  curl : s.curl = none
  urls : s.urls.head? = some r
  dead : r.id ∉ s.dead
  ctl : s.ctl = ctl
  conns : s.conns = c :: cs

/-- The command for a request that does not make directories. -/
def verb (r : Req) (dir : Bool) : List Byte :=
  if r.put = none then (if dir then line ['L', 'I', 'S', 'T'] r.path else line ['R', 'E', 'T', 'R'] r.path) else line ['S', 'T', 'O', 'R'] r.path

theorem start_next {s : St} {r : Req} {w pv ok : List Byte} {more : List (List Byte)} {c : Conn} {cs : List Conn} {a : Spec.Addr.Addr} {port : Nat}
    (h : Next s r (w :: pv :: ok :: more) c cs) (hm : r.mkdirs = false) (hd : hasPrefix ['2', '5', '0'] w = true → r.put = none)
    (hw : Plain w) (hpv : Plain pv) (hok : Plain ok) (ha : parsePasv pv = some (some (a, port))) (h150 : begins ['1', '5', '0'] ok) :
    ∃ s', s.execute = s'.transfer ∧ At s' r c (hasPrefix ['2', '5', '0'] w) more ∧
      s'.log = s.log ++ [.cmd (line ['C', 'W', 'D'] r.path), .reply w, .cmd (str ['P', 'A', 'S', 'V', '\r', '\n']), .reply pv, .dial a port,
        .cmd (verb r (hasPrefix ['2', '5', '0'] w)), .reply ok] := by
  obtain ⟨t, ht⟩ := head_cons h.urls
  obtain ⟨d, hdd⟩ : ∃ d, d = hasPrefix ['2', '5', '0'] w := ⟨_, rfl⟩
  rw [← hdd] at hd ⊢
  obtain ⟨s5, hs5⟩ : ∃ s5, s5 = { s with curl := some r, isDir := d, ctl := ok :: more, data := some c, conns := cs, log := s.log ++ [Ev.cmd (cCwd r.path)] ++ [Ev.reply w] ++ [Ev.cmd cPasv] ++ [Ev.reply pv] ++ [Ev.dial a port] } := ⟨_, rfl⟩
  have hc : s5.command r = some (true, s5.send (verb r d)) := by
    have hi : s5.isDir = d := by rw [hs5]
    unfold St.command
    rw [hi]
    cases d with
    | true =>
      have := hd rfl
      simp [this, verb, cList_eq]
    | false =>
      cases hp : r.put with
      | none => simp [verb, hp, cRetr_eq]
      | some x => simp [verb, hp, St.store, hm, cStor_eq]
  have ha' : (s5.send (verb r d)).answer = some { s5 with ctl := more, log := s5.log ++ [Ev.cmd (verb r d)] ++ [Ev.reply ok] } := by
    unfold St.answer
    rw [line_plain _ ok more (by rw [hs5]; rfl) hok]
    simp only [Option.bind_some, begins_has _ _ h150, if_true]
    rfl
  have hst : s.start r = some (true, { s5 with ctl := more, log := s5.log ++ [Ev.cmd (verb r d)] ++ [Ev.reply ok] }) := by
    unfold St.start
    have l1 := line_plain (St.send { s with curl := some r, isDir := false } (cCwd r.path)) w (pv :: ok :: more) h.ctl hw
    rw [l1]
    simp only [Option.bind_some]
    rw [line_plain _ pv (ok :: more) (by rfl) hpv]
    simp only [Option.bind_some, ha, ← hdd, St.send, h.conns, List.headD_cons, List.tail_cons]
    rw [show ({ s with curl := some r, isDir := d, ctl := ok :: more, data := some c, conns := cs, log := s.log ++ [Ev.cmd (cCwd r.path)] ++ [Ev.reply w] ++ [Ev.cmd cPasv] ++ [Ev.reply pv] ++ [Ev.dial a port] } : St) = s5 from hs5.symm]
    rw [hc]
    simp only [Option.bind_some, ha', Option.map_some]
  refine ⟨{ s5 with ctl := more, log := s5.log ++ [Ev.cmd (verb r d)] ++ [Ev.reply ok] }, ?_, ?_, ?_⟩
  · unfold St.execute
    rw [h.logged]
    simp only [if_true, Option.bind_some, h.curl, ht, hst]
  · rw [hs5]
    exact ⟨h.op, h.err, h.logged, rfl, rfl, rfl, h.dead, rfl⟩
  · rw [hs5, cCwd_eq, cPasv_eq]
    simp

/-- The lines of a server that asks for a password and lets the user in. -/
structure Welcome (g u p t : List Byte) : Prop where
  g1 : Plain g
  g2 : begins ['2', '2', '0'] g
  u1 : Plain u
  u2 : begins ['3', '3'] u
  p1 : Plain p
  p2 : begins ['2'] p
  t1 : Plain t
  t2 : begins ['2', '0', '0'] t

/-- What is said then. -/
def hello (user password g u p t : List Byte) : List Ev :=
  [.reply g, .cmd (line ['U', 'S', 'E', 'R'] (nameOf user)), .reply u, .cmd (line ['P', 'A', 'S', 'S'] (passwordOf password)), .reply p,
    .cmd typeI, .reply t]

theorem new_next (user password g u p t : List Byte) (max : Nat) (hmax : 0 < max) (more : List (List Byte)) (ctlErr : Bool) (c : Conn) (cs : List Conn)
    (r : Req) (h : Welcome g u p t) : ∃ s', Next s' r more c cs ∧ s'.log = hello user password g u p t ∧
      (∀ os, (St.new user password max (g :: u :: p :: t :: more) ctlErr (c :: cs)).run (.add r :: .exec :: os) = s'.execute.bind fun s => s.run os) := by
  obtain ⟨s0, hs0⟩ : ∃ s0, s0 = (St.new user password max (g :: u :: p :: t :: more) ctlErr (c :: cs)).addurl r := ⟨_, rfl⟩
  have e0 : s0 = { St.new user password max (g :: u :: p :: t :: more) ctlErr (c :: cs) with urls := [r], count := 1 } := by
    rw [hs0]
    have hz : ¬ max ≤ 0 := by omega
    simp [St.addurl, St.requestNext, St.new, hz]
  obtain ⟨s1, hs1⟩ : ∃ s1, s1 = { s0 with ctl := more, loggedIn := true, log := hello user password g u p t } := ⟨_, rfl⟩
  have hnp : hasPrefix ['2', '3', '0'] u = false := by
    obtain ⟨x, hx⟩ := h.u2
    rw [hx]
    rfl
  have hh : p.head? = some (ch '2') := by obtain ⟨x, hx⟩ := h.p2; rw [hx]; rfl
  have en : ∀ l1 l2, St.userName { s0 with ctl := l1, log := l2 } = nameOf user := by intro l1 l2; rw [e0]; rfl
  have ep : ∀ l1 l2, St.passText { s0 with ctl := l1, log := l2 } = passwordOf password := by intro l1 l2; rw [e0]; rfl
  have el : s0.log = [] := by rw [e0]; rfl
  have hlog : s0.login = some (true, s1) := by
    unfold St.login
    rw [line_plain s0 g (u :: p :: t :: more) (by rw [e0]; rfl) h.g1]
    simp only [Option.bind_some, begins_has _ _ h.g2, if_true, en]
    rw [line_plain _ u (p :: t :: more) (by rfl) h.u1]
    simp only [Option.bind_some, hnp, Bool.false_eq_true, if_false, begins_has _ _ h.u2, if_true, St.send]
    unfold St.pass
    simp only [ep]
    rw [line_plain _ p (t :: more) (by rfl) h.p1]
    simp only [Option.bind_some, hh, if_true, St.send]
    unfold St.typeI
    simp only [St.send]
    rw [line_plain _ t more (by rfl) h.t1]
    simp only [Option.bind_some, begins_has _ _ h.t2, if_true]
    rw [hs1]
    simp only [el, hello, cUser_eq, cPass_eq, show cType = typeI by decide, List.nil_append, List.cons_append]
  have hnl : s0.loggedIn = false := by rw [e0]; rfl
  refine ⟨s1, ?_, by rw [hs1], fun os => ?_⟩
  · rw [hs1, e0]
    exact ⟨rfl, rfl, rfl, rfl, rfl, by simp [St.new], rfl, rfl⟩
  · have : s0.execute = s1.execute := by
      unfold St.execute
      rw [hnl, show s1.loggedIn = true by rw [hs1]]
      simp only [Bool.false_eq_true, if_false, hlog, Option.bind_some, if_true]
    show ((St.new user password max (g :: u :: p :: t :: more) ctlErr (c :: cs)).step (.add r)).bind (fun s => s.run (.exec :: os)) = _
    have st1 : (St.new user password max (g :: u :: p :: t :: more) ctlErr (c :: cs)).step (.add r) = some s0 := by rw [hs0]; rfl
    rw [st1]
    show (s0.step .exec).bind _ = _
    have st2 : s0.step .exec = s0.execute := by unfold St.step; rw [show s0.closed = false by rw [e0]; rfl]; rfl
    rw [st2, this]

end FtpCliP

/-- C108 (partial: see C108_truncated_fails and C108_missing_fails): the client fetches a file. When the server lets the user in, says that the path is no
    directory, gives an address and announces the file, the conversation is this one, and the user gets exactly the bytes that came on
    the data connection, in whatever pieces they came, and then the end of the file. -/
theorem C108_fetch_partial (user password g u p t w pv ok fin : List Byte) (max : Nat) (hmax : 0 < max) (more : List (List Byte)) (ctlErr : Bool)
    (rounds : List (List (List Byte))) (lines : List (Option (List Byte))) (cs : List Conn) (r : Req) (hr : r.put = none)
    (h : FtpCliP.Welcome g u p t) (hw : Plain w) (hnd : ¬ begins ['2', '5', '0'] w) (hpv : Plain pv) (pre post : List Byte)
    (a : Spec.Addr.Addr) (x y : Byte) (hx : pv = pasv pre a x y post) (hpre : ∀ c ∈ pre, isdigit c = false ∧ c ≠ ch '\r' ∧ c ≠ ch '\n')
    (hpost : ∀ c t, post = c :: t → isdigit c = false) (hok : Plain ok) (h150 : begins ['1', '5', '0'] ok) (hfin : Plain fin) (hm : r.mkdirs = false) :
    ∃ s, (St.new user password max (g :: u :: p :: t :: w :: pv :: ok :: fin :: more) ctlErr (⟨rounds, lines⟩ :: cs)).run
        (.add r :: .exec :: List.replicate (rounds.length - 1) .exec) = some s ∧
      s.log = FtpCliP.hello user password g u p t ++
        [.cmd (line ['C', 'W', 'D'] r.path), .reply w, .cmd (str ['P', 'A', 'S', 'V', '\r', '\n']), .reply pv, Ev.dial a (x.toNat * 256 + y.toNat),
          .cmd (line ['R', 'E', 'T', 'R'] r.path), .reply ok] ++
        rounds.flatten.map (.out r.id) ++ [.reply fin, .eof r.id] := by
  obtain ⟨s1, h1, h2, h3⟩ := FtpCliP.new_next user password g u p t max hmax (w :: pv :: ok :: fin :: more) ctlErr ⟨rounds, lines⟩ cs r h
  have hd : hasPrefix ['2', '5', '0'] w = false := by
    cases hx : hasPrefix ['2', '5', '0'] w with
    | false => rfl
    | true => exact absurd (FtpCliP.has_begins _ _ hx) hnd
  obtain ⟨s2, h4, h5, h6⟩ := FtpCliP.start_next h1 hm (fun _ => hr) hw hpv hok (by rw [hx]; exact C108_pasv pre a x y post hpre hpost) h150
  rw [hd] at h5 h6
  obtain ⟨s3, h7, h8⟩ := FtpCliP.get_run r hr fin hfin more lines rounds s2 h5
  refine ⟨s3, by rw [h3, h4]; exact h7, ?_⟩
  rw [h8, h6, h2]
  simp [FtpCliP.verb, hr]

/-- C108: the same for a directory: each line of the listing is passed on, once and in order. -/
theorem C108_list (user password g u p t w pv ok fin fin2 : List Byte) (max : Nat) (hmax : 0 < max) (more : List (List Byte)) (ctlErr : Bool)
    (rounds : List (List (List Byte))) (lines : List (Option (List Byte))) (cs : List Conn) (r : Req) (hr : r.put = none)
    (h : FtpCliP.Welcome g u p t) (hw : Plain w) (hdir : begins ['2', '5', '0'] w) (hpv : Plain pv) (pre post : List Byte)
    (a : Spec.Addr.Addr) (x y : Byte) (hx : pv = pasv pre a x y post) (hpre : ∀ c ∈ pre, isdigit c = false ∧ c ≠ ch '\r' ∧ c ≠ ch '\n')
    (hpost : ∀ c t, post = c :: t → isdigit c = false) (hok : Plain ok) (h150 : begins ['1', '5', '0'] ok) (hfin : Plain fin) (hfin2 : Plain fin2)
    (hm : r.mkdirs = false) :
    ∃ s, (St.new user password max (g :: u :: p :: t :: w :: pv :: ok :: fin :: fin2 :: more) ctlErr (⟨rounds, lines⟩ :: cs)).run
        (.add r :: .exec :: List.replicate (lines.length - 1) .exec) = some s ∧
      s.log = FtpCliP.hello user password g u p t ++
        [.cmd (line ['C', 'W', 'D'] r.path), .reply w, .cmd (str ['P', 'A', 'S', 'V', '\r', '\n']), .reply pv, Ev.dial a (x.toNat * 256 + y.toNat),
          .cmd (line ['L', 'I', 'S', 'T'] r.path), .reply ok] ++
        (lines.filterMap id).map (.entry r.id) ++
        [.reply fin, .cmd (line ['C', 'W', 'D'] (str ['/'])), .reply fin2, .eof r.id] := by
  obtain ⟨s1, h1, h2, h3⟩ := FtpCliP.new_next user password g u p t max hmax (w :: pv :: ok :: fin :: fin2 :: more) ctlErr ⟨rounds, lines⟩ cs r h
  have hd := FtpCliP.begins_has _ _ hdir
  obtain ⟨s2, h4, h5, h6⟩ := FtpCliP.start_next h1 hm (fun _ => hr) hw hpv hok (by rw [hx]; exact C108_pasv pre a x y post hpre hpost) h150
  rw [hd] at h5 h6
  obtain ⟨s3, h7, h8⟩ := FtpCliP.list_run r fin fin2 hfin hfin2 more rounds lines s2 h5
  refine ⟨s3, by rw [h3, h4]; exact h7, ?_⟩
  rw [h8, h6, h2]
  simp [FtpCliP.verb, hr, FtpCliP.entries]

/-- C108 (partial: see C108_put_fails): the client stores a file; what can be read from the source when the server is ready for it is sent. -/
theorem C108_store_partial (user password g u p t w pv ok fin : List Byte) (max : Nat) (hmax : 0 < max) (more : List (List Byte)) (ctlErr : Bool)
    (c : Conn) (cs : List Conn) (r : Req) (ready later : List (List Byte)) (hr : r.put = some (ready, later))
    (h : FtpCliP.Welcome g u p t) (hw : Plain w) (hnd : ¬ begins ['2', '5', '0'] w) (hpv : Plain pv) (pre post : List Byte)
    (a : Spec.Addr.Addr) (x y : Byte) (hx : pv = pasv pre a x y post) (hpre : ∀ c ∈ pre, isdigit c = false ∧ c ≠ ch '\r' ∧ c ≠ ch '\n')
    (hpost : ∀ c t, post = c :: t → isdigit c = false) (hok : Plain ok) (h150 : begins ['1', '5', '0'] ok) (hfin : Plain fin) (hm : r.mkdirs = false) :
    ∃ s, (St.new user password max (g :: u :: p :: t :: w :: pv :: ok :: fin :: more) ctlErr (c :: cs)).run [.add r, .exec] = some s ∧
      s.log = FtpCliP.hello user password g u p t ++
        [.cmd (line ['C', 'W', 'D'] r.path), .reply w, .cmd (str ['P', 'A', 'S', 'V', '\r', '\n']), .reply pv, Ev.dial a (x.toNat * 256 + y.toNat),
          .cmd (line ['S', 'T', 'O', 'R'] r.path), .reply ok] ++
        ready.map (.sent r.id) ++ [.reply fin, .eof r.id] := by
  obtain ⟨s1, h1, h2, h3⟩ := FtpCliP.new_next user password g u p t max hmax (w :: pv :: ok :: fin :: more) ctlErr c cs r h
  have hd : hasPrefix ['2', '5', '0'] w = false := by
    cases hx : hasPrefix ['2', '5', '0'] w with
    | false => rfl
    | true => exact absurd (FtpCliP.has_begins _ _ hx) hnd
  obtain ⟨s2, h4, h5, h6⟩ := FtpCliP.start_next h1 hm (fun hx => by rw [hd] at hx; cases hx) hw hpv hok (by rw [hx]; exact C108_pasv pre a x y post hpre hpost) h150
  rw [hd] at h5 h6
  have e : s2.transfer = { s2 with log := s2.log ++ ready.map (Ev.sent r.id) }.finish := by
    unfold St.transfer
    simp only [h5.curl, St.pump, h5.data, h5.dir, hr, Bool.false_eq_true, if_false, Option.bind_some]
  have h' : FtpCliP.At { s2 with log := s2.log ++ ready.map (Ev.sent r.id) } r c false (fin :: more) :=
    ⟨h5.op, h5.err, h5.logged, h5.curl, h5.data, h5.dir, h5.dead, h5.ctl⟩
  obtain ⟨s3, h7, h8⟩ := FtpCliP.finish_file h' hfin
  refine ⟨s3, ?_, ?_⟩
  · rw [h3, h4, e, h7]; rfl
  · rw [h8, h6, h2]
    simp [FtpCliP.verb, hr]

namespace FtpCliP

def tx (s : String) : List Byte := str s.toList

/-- A server that asks for the password. -/
def greet : List (List Byte) := [tx "220 hi\r", tx "331 password?\r", tx "230 hello\r", tx "200 ok\r"]

def file : Req := { id := 1, path := tx "/pub/file" }
def start : List (List Byte) := [tx "550 no such directory\r", tx "227 Entering Passive Mode (10,0,0,1,4,1).\r"]

/-- What the user of a request sees at the end. -/
def view (ctl : List (List Byte)) (conns : List Conn) (ops : List Op) (i : Nat) : Option (List Ev) :=
  ((St.new [] [] 100 ctl false conns).run ops).map fun s => seen i s.log

end FtpCliP
open FtpCliP (tx greet file view)

/-- The answer to PASV in what follows is such a text. -/
example : tx "227 Entering Passive Mode (10,0,0,1,4,1).\r" = pasv (tx "Entering Passive Mode (") ⟨10, 0, 0, 1⟩ 4 1 (tx ").\r") ∧
    Plain (tx "227 Entering Passive Mode (10,0,0,1,4,1).\r") ∧ (∀ c ∈ tx "Entering Passive Mode (", isdigit c = false ∧ c ≠ ch '\r' ∧ c ≠ ch '\n') := by
  unfold Plain
  decide +kernel

example : FtpCliP.Welcome (tx "220 hi\r") (tx "331 password?\r") (tx "230 hello\r") (tx "200 ok\r") := by
  refine ⟨?_, ⟨tx " hi\r", ?_⟩, ?_, ⟨tx "1 password?\r", ?_⟩, ?_, ⟨tx "30 hello\r", ?_⟩, ?_, ⟨tx " ok\r", ?_⟩⟩ <;>
    first | (unfold Plain; decide +kernel) | decide +kernel

/-- The run of the theorems above is one that ends with the file. -/
example : view (greet ++ FtpCliP.start ++ [tx "150 here it comes\r", tx "226 done\r"]) [⟨[[tx "abc"], [tx "d", tx "ef"]], []⟩] [.add file, .exec, .exec] 1 =
    some [.out 1 (tx "abc"), .out 1 (tx "d"), .out 1 (tx "ef"), .eof 1] := by decide +kernel

/-- C108: that the server gave up the transfer is not told to the user: the file looks the same. -/
theorem C108_truncated_fails :
    view (greet ++ FtpCliP.start ++ [tx "150 here it comes\r", tx "426 connection closed, transfer aborted\r"]) [⟨[[tx "abc"]], []⟩] [.add file, .exec] 1 =
      some [.out 1 (tx "abc"), .eof 1] ∧
    view (greet ++ FtpCliP.start ++ [tx "150 here it comes\r", tx "226 done\r"]) [⟨[[tx "abc"]], []⟩] [.add file, .exec] 1 = some [.out 1 (tx "abc"), .eof 1] := by decide +kernel

/-- C108: a file that does not exist looks like a file that is empty. -/
theorem C108_missing_fails :
    view (greet ++ FtpCliP.start ++ [tx "550 no such file\r"]) [⟨[], []⟩] [.add file, .exec] 1 = some [.eof 1] ∧
    view (greet ++ FtpCliP.start ++ [tx "150 here it comes\r", tx "226 done\r"]) [⟨[], []⟩] [.add file, .exec] 1 = some [.eof 1] := by decide +kernel

/-- C108: of a source that is not ready at once nothing is stored, and that is all: the file on the server is empty. -/
theorem C108_put_fails : ((St.new [] [] 100 (greet ++ FtpCliP.start ++ [tx "150 ready\r", tx "226 done\r"]) false [⟨[], []⟩]).run
    [.add { file with put := some ([], [tx "abc"]) }, .exec]).map (fun s => s.log.drop 12) =
    some [.cmd (tx "STOR /pub/file\r\n"), .reply (tx "150 ready\r"), .reply (tx "226 done\r"), .eof 1] := by decide +kernel

/-- C108: a line of fewer than three characters makes the client look behind its end. -/
theorem C108_short_fails : (St.new [] [] 100 [tx "\r"] false []).run [.exec] = none := by decide +kernel

/-- C108: an answer of several lines (RFC 959) whose lines in the middle do not begin with the number is taken for another one: the
    client gives up. -/
theorem C108_multiline_fails : ((St.new [] [] 100 [tx "220-Welcome\r", tx "to this server\r", tx "220 go ahead\r"] false []).run [.add file, .exec]).map
    (fun s => (s.err, s.log)) = some (true, [.reply (tx "to this server\r"), .eof 1]) := by decide +kernel

/-- C108: when a server hangs up before a file was asked for, the stream closes without an error and without an end of the request: the
    pool makes a new connection, and so on for ever. -/
theorem C108_hangup_fails : ((St.new [] [] 100 [tx "220 hi\r"] false []).run [.add file, .exec]).map (fun s => (s.closed, s.err, ended s.log)) =
    some (true, false, []) := by decide +kernel

/-- C108: text with a digit in it before the address is taken for a part of the address. -/
theorem C108_pasv_fails : parsePasv (tx "227 Passive mode 2 (10,0,0,1,4,1)\r") = some (some (⟨2, 0, 0, 1⟩, 1025)) := by decide +kernel

/-- C108: numbers that are too large are cut, or are undefined. -/
theorem C108_pasv_range_fails : parsePasv (tx "227 (10,0,0,300,260,1)\r") = some (some (⟨10, 0, 0, 44⟩, 1025)) ∧
    parsePasv (tx "227 (10,0,0,1,9999999,1)\r") = none := by decide +kernel

/-- C108: for the directories of a path the server is first asked to make "/", and then each one with two slashes. -/
theorem C108_mkdir_fails : ((St.new [] [] 100 (greet ++ FtpCliP.start ++ [tx "550 no\r", tx "550 no\r", tx "257 ok\r", tx "150 ready\r", tx "226 done\r"]) false [⟨[], []⟩]).run
    [.add { file with put := some ([tx "abc"], []), mkdirs := true }, .exec]).map (fun s => (s.log.drop 12).filterMap fun | .cmd c => some c | _ => none) =
    some [tx "CWD /pub\r\n", tx "MKD /\r\n", tx "MKD //pub\r\n", tx "STOR /pub/file\r\n"] := by decide +kernel

end Props
