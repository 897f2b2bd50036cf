import Verif.Model.Cert
import Verif.Lemmas.Num
/-
C100: which certificates are accepted and issued.
C101: which certificates are revoked.
-/
namespace Props
open Wv Wv.Cert
open Spec.Cert

namespace Crt

theorem verify_pos (s k : Option Nat) : (if verify s k < 0 then false else decide (verify s k > 0)) = true ↔ ∃ x, k = some x ∧ s = some x := by
  unfold verify
  cases k with
  | none => simp
  | some x =>
    by_cases h : s = some x
    · simp [h]
    · simp [h]

theorem signedby_iff (c ca : Cert) : signedby (some c) (some ca) = true ↔ Signed ca c := by
  unfold signedby Signed
  exact verify_pos _ _

theorem issuedby_iff (c ca : Cert) : issuedby (some c) (some ca) = true ↔ Issued ca c := by
  unfold issuedby checkIssued Issued
  cases ha : c.aki <;> cases hs : ca.ski <;> cases hu : ca.usage <;> simp [ha, hs, hu, and_assoc]

theorem cmp_neg (d : Option Int) (now : Int) : cmpTime d now < 0 ↔ ∃ x, d = some x ∧ x ≤ now := by
  unfold cmpTime
  cases d with
  | none => simp
  | some x =>
    simp only [Option.some.injEq, exists_eq_left']
    split
    · simp [*]
    · simp [*]

theorem cmp_pos (d : Option Int) (now : Int) : cmpTime d now > 0 ↔ ∃ x, d = some x ∧ now < x := by
  unfold cmpTime
  cases d with
  | none => simp
  | some x =>
    simp only [Option.some.injEq, exists_eq_left']
    split
    · simp; omega
    · simp; omega

/-- The dates, where they can be read, do not speak against it. -/
def dates (now : Int) (x : Cert) : Bool := !decide (cmpTime x.notAfter now < 0) && !decide (cmpTime x.notBefore now > 0)

theorem validate_none (now : Int) (x : Cert) : validate now (some x) none = dates now x := by
  unfold validate dates
  by_cases h1 : cmpTime x.notAfter now < 0 <;> by_cases h2 : cmpTime x.notBefore now > 0 <;> simp [h1, h2]

theorem validate_some (now : Int) (x : Cert) (ca : Option Cert) :
    validate now (some x) (some ca) = (dates now x && signedby (some x) ca && issuedby (some x) ca) := by
  unfold validate dates
  by_cases h1 : cmpTime x.notAfter now < 0 <;> by_cases h2 : cmpTime x.notBefore now > 0 <;> simp [h1, h2]

theorem dates_iff (now : Int) (x : Cert) (a b : Int) (ha : x.notBefore = some a) (hb : x.notAfter = some b) : dates now x = true ↔ InTime x now := by
  unfold dates InTime
  have h1 := cmp_neg x.notAfter now
  have h2 := cmp_pos x.notBefore now
  rw [ha, hb] at *
  simp only [Option.some.injEq, exists_eq_left'] at h1 h2
  simp only [Bool.and_eq_true, Bool.not_eq_true', decide_eq_false_iff_not, h1, h2, Option.some.injEq]
  constructor
  · rintro ⟨p, q⟩
    exact ⟨a, b, rfl, rfl, by omega, by omega⟩
  · rintro ⟨_, _, rfl, rfl, p, q⟩
    exact ⟨by omega, by omega⟩

end Crt

/-! ### C100 -/

/-- C100: `validate` with an authority accepts exactly the certificates that are valid at the time, were signed with the key of the authority and issued in its name. Nothing is accepted
    that is blank, or against an authority that is blank. (Partial: dates that cannot be read, see C100_date_fails.) -/
theorem C100_validate_partial (now : Int) (c ca : Option Cert) (h : ∀ x ∈ c, x.notBefore ≠ none ∧ x.notAfter ≠ none) :
    validate now c (some ca) = true ↔ ∃ x y, c = some x ∧ ca = some y ∧ InTime x now ∧ Signed y x ∧ Issued y x := by
  cases c with
  | none => simp [validate]
  | some x =>
    rw [Crt.validate_some]
    cases ca with
    | none => simp [signedby]
    | some y =>
      obtain ⟨ha, hb⟩ := h x rfl
      obtain ⟨a, ha⟩ := Option.ne_none_iff_exists'.mp ha
      obtain ⟨b, hb⟩ := Option.ne_none_iff_exists'.mp hb
      rw [Bool.and_eq_true, Bool.and_eq_true, Crt.dates_iff now x a b ha hb, Crt.signedby_iff, Crt.issuedby_iff]
      simp [and_assoc]

/-- C100: without an authority only the time is looked at. -/
theorem C100_dates_partial (now : Int) (c : Option Cert) (h : ∀ x ∈ c, x.notBefore ≠ none ∧ x.notAfter ≠ none) :
    validate now c none = true ↔ ∃ x, c = some x ∧ InTime x now := by
  cases c with
  | none => simp [validate]
  | some x =>
    obtain ⟨ha, hb⟩ := h x rfl
    obtain ⟨a, ha⟩ := Option.ne_none_iff_exists'.mp ha
    obtain ⟨b, hb⟩ := Option.ne_none_iff_exists'.mp hb
    rw [Crt.validate_none, Crt.dates_iff now x a b ha hb]
    simp

/-- C100: whatever the dates are, nothing is accepted against an authority that did not sign it, or that is not the issuer it names. -/
theorem C100_forged (now : Int) (c : Option Cert) (y : Cert) (h : validate now c (some (some y)) = true) : ∃ x, c = some x ∧ Signed y x ∧ Issued y x := by
  cases c with
  | none => simp [validate] at h
  | some x =>
    rw [Crt.validate_some, Bool.and_eq_true, Bool.and_eq_true, Crt.signedby_iff, Crt.issuedby_iff] at h
    exact ⟨x, rfl, h.1.2, h.2⟩

/-- C100: an SSL stream with a validation callback is connected exactly if the other side has a certificate that is valid at the time and the callback accepts it; its certificate is kept
    as an attribute exactly if it is valid. Without a callback everything is connected. -/
theorem C100_peer_partial (now : Int) (c : Option Cert) (f : Option (Option Cert → Bool)) (h : ∀ x ∈ c, x.notBefore ≠ none ∧ x.notAfter ≠ none) :
    ((peer now c f).1 = true ↔ ∀ g, f = some g → (∃ x, c = some x ∧ InTime x now) ∧ g c = true) ∧ ((peer now c f).2 = true ↔ ∃ x, c = some x ∧ InTime x now) := by
  have hv := C100_dates_partial now c h
  have hs : validate now c none = true → c.isSome = true := by
    intro h
    cases c with
    | none => simp [validate] at h
    | some x => rfl
  unfold peer
  constructor
  · cases f with
    | none => simp
    | some g =>
      simp only [Bool.and_eq_true, Option.some.injEq, forall_eq']
      rw [← hv]
      constructor
      · rintro ⟨⟨_, a⟩, b⟩
        exact ⟨a, b⟩
      · rintro ⟨a, b⟩
        exact ⟨⟨hs a, a⟩, b⟩
  · simp only [Bool.and_eq_true]
    rw [← hv]
    exact ⟨fun h => h.2, fun h => ⟨hs h, h⟩⟩

namespace Crt

theorem isok_iff (m : Mgr) : m.isok = true ↔ ∃ c k, m.cert = some c ∧ m.rsa = some k ∧ (c.key = some k ∨ c.sig = some k) := by
  unfold Mgr.isok
  cases hc : m.cert with
  | none => simp
  | some c =>
    cases hr : m.rsa with
    | none => simp
    | some k =>
      dsimp only
      unfold verify
      dsimp only
      by_cases h : c.sig = some k
      · simp [h]
      · simp [h]

theorem isok_of_key (m : Mgr) (c : Cert) (k : Nat) (hc : m.cert = some c) (hr : m.rsa = some k) (hk : c.key = some k) : m.isok = true := by
  unfold Mgr.isok
  rw [hc, hr]
  simp [hk]

theorem maySign_iff (c : Cert) : maySign c = true ↔ SignsCerts c := by
  unfold maySign SignsCerts
  cases c.usage <;> simp

end Crt

/-- C100: what an authority with its key makes of a request is accepted against its certificate from that time for ten years, and not before or after; the subject and the key are
    those requested, and it is no authority. -/
theorem C100_issue (m : Mgr) (ca : Cert) (k : Nat) (hc : m.cert = some ca) (hr : m.rsa = some k) (hk : ca.key = some k) (hs : SignsCerts ca) (rnd : Int → Int) (t : Int)
    (subject key : Nat) : ∃ x, m.signreq rnd t (some (subject, key)) = .cert x ∧ x.subject = subject ∧ x.key = some key ∧ ¬ SignsCerts x ∧
      ∀ now, validate now (some x) (some m.cert) = true ↔ t ≤ now ∧ now < t + 10 * 365 * 86400 := by
  have hok := Crt.isok_of_key m ca k hc hr hk
  have hsign := (Crt.maySign_iff ca).2 hs
  refine ⟨⟨subject, ca.subject, rnd t, some t, some (t + tenYears), some key, some k, false, some (false, false), some key, ca.ski⟩, ?_, ?_⟩
  · unfold Mgr.signreq Mgr.signcert
    simp [hok, hc, hsign, hr]
  · refine ⟨rfl, rfl, fun h => Bool.noConfusion h.1, ?_⟩
    intro now
    rw [C100_validate_partial now _ _ (by simp)]
    rw [hc]
    obtain ⟨hca, u, hu, hu1⟩ := hs
    constructor
    · rintro ⟨x, y, hx, hy, ⟨a, b, ha, hb, p, q⟩, _⟩
      injection hx with hx
      subst hx
      simp only [Option.some.injEq] at ha hb
      subst ha hb
      exact ⟨p, by unfold tenYears at q; omega⟩
    · rintro ⟨p, q⟩
      refine ⟨_, _, rfl, rfl, ⟨_, _, rfl, rfl, p, by unfold tenYears; omega⟩, ⟨k, hk, rfl⟩, rfl, ?_, ?_⟩
      · intro a s ha hs
        simp only at ha
        rw [ha] at hs
        exact Option.some.inj hs
      · intro v hv
        rw [hu] at hv
        injection hv with hv
        rw [← hv]
        exact hu1

/-- C100: a certificate that is not one of an authority signs nothing: nothing it makes is accepted against any certificate. -/
theorem C100_noauthority (m : Mgr) (c : Cert) (hc : m.cert = some c) (hs : ¬ SignsCerts c) (rnd : Int → Int) (t : Int) (req : Option (Nat × Nat)) (x : Cert)
    (h : m.signreq rnd t req = .cert x) (now : Int) (y : Cert) : validate now (some x) (some (some y)) = false := by
  have hsign : maySign c = false := by
    rw [Bool.eq_false_iff]
    intro hn
    exact hs ((Crt.maySign_iff c).1 hn)
  have hsig : x.sig = none := by
    unfold Mgr.signreq at h
    split at h
    · cases h
    · split at h
      · rename_i q c' hq hc'
        rw [hc] at hc'
        injection hc' with hc'
        subst hc'
        injection h with h
        subst h
        unfold Mgr.signcert
        split
        · rfl
        · rw [hc]
          simp [hsign]
      · cases h
  rw [Bool.eq_false_iff]
  intro hv
  obtain ⟨z, hz, ⟨k, _, hk⟩, _⟩ := C100_forged now _ y hv
  injection hz with hz
  subst hz
  rw [hsig] at hk
  cases hk

/-- C100: a new authority and a new server certificate are accepted against themselves for ten years if they may sign, and the manager is all right. -/
theorem C100_self (rnd : Int → Int) (t : Int) (name key : Nat) (ca : Bool) (now : Int) :
    (selfSigned rnd t name key ca).isok = true ∧ (SignsCerts ((selfSigned rnd t name key ca).cert.get rfl) ↔ ca = true) ∧
    (validate now (selfSigned rnd t name key ca).cert none = true ↔ t ≤ now ∧ now < t + 10 * 365 * 86400) := by
  refine ⟨Crt.isok_of_key _ _ key rfl rfl rfl, ?_, ?_⟩
  · unfold SignsCerts selfSigned
    simp
  · rw [C100_dates_partial now _ (by simp [selfSigned])]
    unfold InTime selfSigned
    constructor
    · rintro ⟨x, hx, a, b, ha, hb, p, q⟩
      injection hx with hx
      subst hx
      simp only [Option.some.injEq] at ha hb
      subst ha hb
      exact ⟨p, by unfold tenYears at q; omega⟩
    · rintro ⟨p, q⟩
      exact ⟨_, rfl, _, _, rfl, rfl, p, by unfold tenYears; omega⟩

namespace Crt
def root : Cert := ⟨1, 1, 17, some 0, some 1000, some 7, some 7, true, some (true, true), some 7, none⟩
def user : Cert := ⟨2, 1, 18, some 0, some 1000, some 8, some 7, false, some (false, false), some 8, some 7⟩
def mgr : Mgr := ⟨some root, some 7⟩
end Crt

example : validate 5 (some Crt.user) (some (some Crt.root)) = true ∧ validate 1000 (some Crt.user) (some (some Crt.root)) = false := by decide
example := C100_validate_partial 5 (some Crt.user) (some Crt.root) (by simp [Crt.user])
example := C100_dates_partial 5 (some Crt.user) (by simp [Crt.user])
example := C100_forged 5 (some Crt.user) Crt.root (by decide)
example := C100_peer_partial 5 (some Crt.user) (some fun c => validate 5 c (some (some Crt.root))) (by simp [Crt.user])
example := C100_issue Crt.mgr Crt.root 7 rfl rfl rfl ⟨rfl, _, rfl, rfl⟩ id 50 3 9
example := C100_noauthority ⟨some Crt.user, some 8⟩ Crt.user rfl (fun h => Bool.noConfusion h.1) id 50 (some (3, 9)) _ rfl 60 Crt.user

/-- C100: but a certificate whose dates cannot be read is accepted at all times. -/
theorem C100_date_fails : ∃ c : Cert, (∀ now, ¬ InTime c now) ∧ ∀ now, validate now (some c) (some (some Crt.root)) = true := by
  refine ⟨{ Crt.user with notBefore := none, notAfter := none }, ?_, ?_⟩
  · rintro now ⟨a, b, ha, _⟩
    cases ha
  · intro now
    rfl

/-- C100: and a manager whose key is not that of its certificate, but that of the one who signed it, says that it is all right; what it signs is not accepted against its certificate,
    although it says that it was signed. -/
theorem C100_match_fails : ∃ (m : Mgr) (c x : Cert), m.cert = some c ∧ c.key ≠ m.rsa ∧ m.isok = true ∧ SignsCerts c ∧ (m.signcert x).2 = true ∧
    Issued c x ∧ ∀ now, validate now (some (m.signcert x).1) (some m.cert) = false := by
  refine ⟨⟨some { Crt.user with ca := true, usage := some (true, true) }, some 7⟩, _, ⟨3, 2, 19, some 0, some 1000, some 9, none, false, none, none, none⟩, rfl, by decide, by decide,
    ⟨rfl, _, rfl, rfl⟩, by decide, ⟨rfl, ?_, ?_⟩, ?_⟩
  · intro a s ha
    cases ha
  · intro u hu
    cases hu
    rfl
  · intro now
    rw [Bool.eq_false_iff]
    intro hv
    obtain ⟨z, hz, ⟨k, hk, hs⟩, _⟩ := C100_forged now _ _ hv
    injection hz with hz
    subst hz
    revert hk hs
    simp [Mgr.signcert, Mgr.isok, maySign, verify, Crt.user]
    omega

/-- C100: two certificates that are made in the same second have the same serial number, whatever they are and however random numbers are made. -/
theorem C100_serial_fails (rnd : Int → Int) : ∃ (x y : Cert) (m : Mgr) (t : Int) (q r : Nat × Nat), q ≠ r ∧ m.signreq rnd t (some q) = .cert x ∧ m.signreq rnd t (some r) = .cert y ∧
    x.issuer = y.issuer ∧ x.serial = y.serial :=
  ⟨_, _, Crt.mgr, 5, (2, 8), (3, 9), by decide, rfl, rfl, rfl, rfl⟩

/-- C100: a manager that is not all right answers a request with the text "0", one that may not sign with a certificate that is not signed. -/
theorem C100_request_fails (rnd : Int → Int) (t : Int) (q : Nat × Nat) : Mgr.signreq ⟨none, none⟩ rnd t (some q) = .zero ∧
    ∃ x, Mgr.signreq ⟨some Crt.user, some 8⟩ rnd t (some q) = .cert x ∧ x.sig = none := ⟨rfl, _, rfl, rfl⟩

/-! ### C101 -/

namespace Crt

theorem head_dec (n : Nat) (r : List Byte) : ∃ c t, Num.dec n ++ r = c :: t ∧ isdigit c = true ∧ c ≠ ch '-' := by
  have h := Num.dec_ne_nil n
  obtain ⟨c, t, e⟩ := List.exists_cons_of_ne_nil h
  have := Num.dec_isdigit n c (by rw [e]; simp)
  exact ⟨c, t ++ r, by rw [e]; rfl, this⟩

theorem ofUnsigned_dec (n : Nat) : Num.ofUnsigned n = Num.dec n := by
  unfold Num.ofUnsigned
  rw [Num.strrev_eq, Num.uitoar_eq]

theorem digits_ofUnsigned (n : Nat) : Num.digits 0 (Num.ofUnsigned n) = n := by
  have := Num.digits_dec n []
  rw [List.append_nil] at this
  rw [ofUnsigned_dec, this]
  rfl

theorem dec_bn (n : Int) : dec2bn (bn2dec n) = some n := by
  unfold bn2dec
  obtain ⟨c, t, e, hc, hm⟩ := head_dec n.natAbs []
  rw [List.append_nil] at e
  have hd := digits_ofUnsigned n.natAbs
  rw [ofUnsigned_dec] at *
  rw [e] at *
  by_cases h : n < 0
  · rw [if_pos h]
    unfold dec2bn
    simp only [List.head?_cons, decide_true, if_true, List.tail_cons, hc]
    rw [hd]
    congr 1
    omega
  · rw [if_neg h]
    unfold dec2bn
    simp only [List.head?_cons, Option.some.injEq, hm, decide_false, Bool.false_eq_true, if_false, hc, if_true]
    rw [hd]
    congr 1
    omega

theorem bn_ne (n : Int) : bn2dec n ≠ [] := by
  unfold bn2dec
  split
  · simp
  · rw [ofUnsigned_dec]
    exact Num.dec_ne_nil _

end Crt

/-- C101: what is added to a list is revoked, and nothing else: a certificate is revoked exactly if it is blank, or its serial number was in the list, or is that of a certificate that was
    added. -/
theorem C101_revoked (l : List') (cs : List (Option Cert)) (c : Option Cert) : ∃ b, isrevoked (cs.foldl addcert (some l)) c = .ok b ∧
    (b = true ↔ ∀ x, c = some x → x.serial ∈ l.revoked ∨ ∃ y, some y ∈ cs ∧ y.serial = x.serial) := by
  have step : ∀ (cs : List (Option Cert)) (l : List'), ∃ r, cs.foldl addcert (some l) = some r ∧ ∀ n, n ∈ r.revoked ↔ n ∈ l.revoked ∨ ∃ y, some y ∈ cs ∧ y.serial = n := by
    intro cs
    induction cs with
    | nil => intro l; exact ⟨l, rfl, by simp⟩
    | cons d cs ih =>
      intro l
      rw [List.foldl_cons]
      cases d with
      | none =>
        obtain ⟨r, h1, h2⟩ := ih l
        exact ⟨r, h1, by intro n; rw [h2]; simp⟩
      | some y =>
        have he : addcert (some l) (some y) = some { l with revoked := l.revoked ++ [y.serial], sig := none } := by
          unfold addcert
          simp only [Crt.dec_bn]
        rw [he]
        clear he
        obtain ⟨r, h1, h2⟩ := ih { l with revoked := l.revoked ++ [y.serial], sig := none }
        refine ⟨r, h1, ?_⟩
        intro n
        rw [h2]
        simp only [List.mem_append, List.mem_cons, List.not_mem_nil, or_false, Option.some.injEq]
        constructor
        · rintro ((h | h) | ⟨z, hz, e⟩)
          · exact Or.inl h
          · exact Or.inr ⟨y, Or.inl rfl, h.symm⟩
          · exact Or.inr ⟨z, Or.inr hz, e⟩
        · rintro (h | ⟨z, (hz | hz), e⟩)
          · exact Or.inl (Or.inl h)
          · subst hz; exact Or.inl (Or.inr e.symm)
          · exact Or.inr ⟨z, hz, e⟩
  obtain ⟨r, h1, h2⟩ := step cs l
  rw [h1]
  cases c with
  | none => exact ⟨true, rfl, by simp⟩
  | some x =>
    refine ⟨decide (x.serial ∈ r.revoked), ?_, ?_⟩
    · unfold isrevoked isrevokedText
      simp only [ne_eq, Crt.bn_ne, not_false_eq_true, if_true, Crt.dec_bn]
    · simp [h2]

/-- C101: the number may also be given as a text; it is that which its digits (with a sign) write, and what follows them is ignored. -/
theorem C101_text (l : List') (n : Int) (r : List Byte) (hr : ∀ c, r.head? = some c → isdigit c = false) :
    isrevokedText (some l) (bn2dec n ++ r) = .ok (decide (n ∈ l.revoked)) := by
  have hne : bn2dec n ++ r ≠ [] := by simp [Crt.bn_ne]
  have hd : ∀ k : Nat, Num.digits 0 (Num.dec k ++ r) = k := by
    intro k
    rw [Num.digits_dec]
    cases r with
    | nil => rfl
    | cons c r =>
      rw [Num.digits]
      simp [hr c rfl]
  have : dec2bn (bn2dec n ++ r) = some n := by
    unfold bn2dec
    obtain ⟨c, t, e, hc, hm⟩ := Crt.head_dec n.natAbs r
    have hd := hd n.natAbs
    rw [Crt.ofUnsigned_dec]
    by_cases h : n < 0
    · rw [if_pos h, List.cons_append, e]
      rw [e] at hd
      unfold dec2bn
      simp only [List.head?_cons, decide_true, if_true, List.tail_cons, hc]
      rw [hd]
      congr 1
      omega
    · rw [if_neg h, e]
      rw [e] at hd
      unfold dec2bn
      simp only [List.head?_cons, Option.some.injEq, hm, decide_false, Bool.false_eq_true, if_false, hc, if_true]
      rw [hd]
      congr 1
      omega
  unfold isrevokedText
  simp only [ne_eq, hne, not_false_eq_true, if_true, this]

/-- What `WvCRL::validate` is to accept. -/
def Crt.Good (now : Int) (l : List') (ca : Cert) : Prop :=
  l.issuer = ca.subject ∧ (∃ k, ca.key = some k ∧ l.sig = some k) ∧ (∃ t, l.next = some t ∧ now < t) ∧ true ∉ l.critical

namespace Crt

theorem byCritical_none (l : List Bool) (h : true ∉ l) (last : Int) : byCritical l last = -1 := by
  unfold byCritical
  have : (List.range l.length).find? (fun i : Nat => decide (last < (i : Int)) && l.getD i false) = none := by
    rw [List.find?_eq_none]
    intro i hi
    simp only [Bool.and_eq_true, not_and]
    intro _ hg
    apply h
    rw [List.mem_range] at hi
    rw [List.getD_eq_getElem?_getD, List.getElem?_eq_getElem hi, Option.getD_some] at hg
    rw [← hg]
    exact List.getElem_mem hi
  rw [this]

theorem byCritical_some (b : Bool) (l : List Bool) (h : true ∈ l) : byCritical (b :: l) 0 > 0 := by
  unfold byCritical
  obtain ⟨i, hi, e⟩ := List.getElem_of_mem h
  have : ((List.range (b :: l).length).find? (fun i : Nat => decide ((0 : Int) < (i : Int)) && (b :: l).getD i false)).isSome = true := by
    rw [List.find?_isSome]
    refine ⟨i + 1, by simp; omega, ?_⟩
    simp [List.getD_eq_getElem?_getD, List.getElem?_eq_getElem hi, e]
  obtain ⟨j, hj⟩ := Option.isSome_iff_exists.mp this
  rw [hj]
  have := List.find?_some hj
  simp only [Bool.and_eq_true, decide_eq_true_eq] at this
  exact this.1

end Crt

/-- C101: a list is valid for an authority exactly if it was issued in its name, signed with its key since it was changed, has not expired, and has no critical extension.
    (Partial: for lists whose date can be read and whose first extension is not critical.) -/
theorem C101_list_partial (now : Int) (l : List') (ca : Cert) (ht : l.next ≠ none) (he : l.critical.head? ≠ some true) :
    crlValidate now (some l) ca = .valid ↔ Crt.Good now l ca := by
  obtain ⟨t, ht⟩ := Option.ne_none_iff_exists'.mp ht
  unfold crlValidate Crt.Good
  dsimp only
  by_cases h1 : ca.subject = l.issuer
  · by_cases h2 : (if verify l.sig ca.key < 0 then false else decide (verify l.sig ca.key > 0)) = true
    · have h2' := (Crt.verify_pos _ _).1 h2
      by_cases h3 : cmpTime l.next now < 0
      · have h3' := (Crt.cmp_neg _ _).1 h3
        simp only [h1, decide_true, Bool.not_true, Bool.false_eq_true, if_false, h2, h3, if_true]
        constructor
        · intro h; cases h
        · rintro ⟨_, _, ⟨x, hx, hlt⟩, _⟩
          obtain ⟨y, hy, hle⟩ := h3'
          rw [hx] at hy
          injection hy with hy
          omega
      · have h3' : now < t := by
          rw [Crt.cmp_neg, ht] at h3
          simp at h3
          omega
        simp only [h1, decide_true, Bool.not_true, Bool.false_eq_true, if_false, h2, h3]
        by_cases h4 : true ∈ l.critical
        · have h5 : byCritical l.critical 0 > 0 := by
            cases hc : l.critical with
            | nil => rw [hc] at h4; cases h4
            | cons b r =>
              rw [hc] at h4 he
              apply Crt.byCritical_some
              rcases List.mem_cons.mp h4 with h | h
              · exact absurd (by rw [← h]; rfl) he
              · exact h
          rw [if_pos h5]
          constructor
          · intro h; cases h
          · rintro ⟨_, _, _, h⟩; exact absurd h4 h
        · rw [Crt.byCritical_none _ h4, if_neg (by decide)]
          exact ⟨fun _ => ⟨trivial, h2', ⟨t, ht, h3'⟩, h4⟩, fun _ => rfl⟩
    · have h2' := fun h => h2 ((Crt.verify_pos l.sig ca.key).2 h)
      simp only [Bool.not_eq_true] at h2
      simp only [h1, decide_true, Bool.not_true, Bool.false_eq_true, if_false, h2, Bool.not_false, if_true]
      constructor
      · intro h; cases h
      · rintro ⟨_, h, _⟩; exact absurd h h2'
  · simp only [h1, decide_false, Bool.not_false, if_true]
    constructor
    · intro h; cases h
    · rintro ⟨h, _⟩; exact absurd h.symm h1

/-- C101: whatever the dates and extensions are, a list that was not signed with the key of the authority, or not since it was changed, is not valid for it, nor is one in another name. -/
theorem C101_forged (now : Int) (l : Option List') (ca : Cert) (h : crlValidate now l ca = .valid) :
    ∃ x, l = some x ∧ x.issuer = ca.subject ∧ ∃ k, ca.key = some k ∧ x.sig = some k := by
  cases l with
  | none => cases h
  | some l =>
    unfold crlValidate at h
    dsimp only at h
    by_cases h1 : ca.subject = l.issuer
    · by_cases h2 : (if verify l.sig ca.key < 0 then false else decide (verify l.sig ca.key > 0)) = true
      · exact ⟨l, rfl, h1.symm, (Crt.verify_pos _ _).1 h2⟩
      · simp only [Bool.not_eq_true] at h2
        simp only [h1, decide_true, Bool.not_true, Bool.false_eq_true, if_false, h2, Bool.not_false, if_true] at h
        cases h
    · simp only [h1, decide_false, Bool.not_false, if_true] at h
      cases h

/-- C101: the life of a list of an authority that issued itself: after it was made, certificates were added, and it was signed again, it is valid for thirty days, and exactly the
    certificates that were added, and those of the same number, are revoked; before it is signed again it is not valid if something was added. -/
theorem C101_life (m : Mgr) (ca : Cert) (k : Nat) (hc : m.cert = some ca) (hr : m.rsa = some k) (hk : ca.key = some k) (hs : SignsLists ca) (hself : ca.issuer = ca.subject)
    (t0 t : Int) (cs : List (Option Cert)) (now : Int) :
    (crlValidate now (m.signcrl t (cs.foldl addcert (newCrl m ca t0))).1 ca = .valid ↔ now < t + 30 * 86400) ∧ (m.signcrl t (cs.foldl addcert (newCrl m ca t0))).2 = true ∧
    (∀ c, ∃ b, isrevoked (m.signcrl t (cs.foldl addcert (newCrl m ca t0))).1 c = .ok b ∧ (b = true ↔ ∀ x, c = some x → ∃ y, some y ∈ cs ∧ y.serial = x.serial)) ∧
    (∀ y, some y ∈ cs → crlValidate now (cs.foldl addcert (newCrl m ca t0)) ca ≠ .valid) := by
  have hok := Crt.isok_of_key m ca k hc hr hk
  obtain ⟨hca, u, hu, hu2⟩ := hs
  have sign : ∀ (l : List') (t : Int), m.signcrl t (some l) = (some { l with next := some (t + 60 * 60 * 24 * 30), sig := some k }, true) := by
    intro l t
    unfold Mgr.signcrl
    rw [hc]
    simp [hok, hca, hu, hu2, hr]
  have hnew : ∃ l, newCrl m ca t0 = some l ∧ l.issuer = ca.issuer ∧ l.revoked = [] ∧ true ∉ l.critical := by
    refine ⟨_, by unfold newCrl; rw [sign], rfl, rfl, ?_⟩
    dsimp only
    split <;> simp
  have hadd : ∀ (cs : List (Option Cert)) (l : List'), ∃ r, cs.foldl addcert (some l) = some r ∧ r.issuer = l.issuer ∧ r.critical = l.critical ∧
      ((∃ y, some y ∈ cs) → r.sig = none) ∧ (l.sig = none → r.sig = none) := by
    intro cs
    induction cs with
    | nil => intro l; exact ⟨l, rfl, rfl, rfl, (by rintro ⟨y, h⟩; cases h), id⟩
    | cons d cs ih =>
      intro l
      rw [List.foldl_cons]
      cases d with
      | none =>
        obtain ⟨r, a, b, c, d, e⟩ := ih l
        refine ⟨r, a, b, c, ?_, e⟩
        rintro ⟨y, h⟩
        rcases List.mem_cons.mp h with h | h
        · cases h
        · exact d ⟨y, h⟩
      | some y =>
        have e : addcert (some l) (some y) = some { l with revoked := l.revoked ++ [y.serial], sig := none } := by
          unfold addcert
          simp only [Crt.dec_bn]
        rw [e]
        obtain ⟨r, a, b, c, d, e⟩ := ih { l with revoked := l.revoked ++ [y.serial], sig := none }
        exact ⟨r, a, b, c, fun _ => e rfl, fun _ => e rfl⟩
  obtain ⟨l, hl, hi, hrv, hcr⟩ := hnew
  rw [hl]
  obtain ⟨r, a, b, c, d, e⟩ := hadd cs l
  refine ⟨?_, ?_, ?_, ?_⟩
  · rw [a, sign]
    rw [C101_list_partial now _ ca (by simp) (by
      dsimp only
      rw [c]
      intro h
      cases hc : l.critical with
      | nil => rw [hc] at h; cases h
      | cons x y => rw [hc] at h hcr; simp at h; rw [h] at hcr; simp at hcr)]
    unfold Crt.Good
    dsimp only
    constructor
    · rintro ⟨_, _, ⟨x, hx, h⟩, _⟩
      injection hx with hx
      omega
    · intro h
      exact ⟨by rw [b, hi, hself], ⟨k, hk, rfl⟩, ⟨_, rfl, by omega⟩, by rw [c]; exact hcr⟩
  · rw [a, sign]
  · intro x
    obtain ⟨v, h1, h2⟩ := C101_revoked l cs x
    refine ⟨v, ?_, ?_⟩
    · rw [← h1, a, sign]
      rfl
    · rw [h2, hrv]
      simp
  · intro y hy hv
    rw [a] at hv
    obtain ⟨x, hx, _, k', _, hk'⟩ := C101_forged now _ ca hv
    injection hx with hx
    subst hx
    rw [d ⟨y, hy⟩] at hk'
    cases hk'

/-- C101: an answer says `Good` exactly if the response was successful and the first statement about this certificate of this issuer says so and is neither from the future nor out of date
    (with five minutes of tolerance); `Revoked` likewise. -/
theorem C101_ocsp (now : Int) (r : Option Resp) (c i : Cert) (st : Nat) (hst : st ≤ 1) :
    getStatus now r (some c) (some i) = .ok (if st = 0 then .good else .revoked) ↔ ∃ x l s, r = some x ∧ x.successful = true ∧ x.basic = some l ∧
      (∃ l1 l2, l = l1 ++ s :: l2 ∧ s.id = (c.issuer, i.key, c.serial) ∧ ∀ z ∈ l1, z.id ≠ (c.issuer, i.key, c.serial)) ∧ s.status = st ∧
      s.thisUpdate ≤ now + 300 ∧ ∀ n, s.nextUpdate = some n → now ≤ n + 300 ∧ s.thisUpdate ≤ n := by
  have hfresh : ∀ s : Single, fresh s now = true ↔ s.thisUpdate ≤ now + 300 ∧ ∀ n, s.nextUpdate = some n → now ≤ n + 300 ∧ s.thisUpdate ≤ n := by
    intro s
    unfold fresh
    cases s.nextUpdate with
    | none => simp
    | some n =>
      simp only [Bool.and_eq_true, Bool.not_eq_true', decide_eq_false_iff_not, Option.some.injEq, forall_eq']
      constructor
      · rintro ⟨a, b, c⟩; exact ⟨by omega, by omega, by omega⟩
      · rintro ⟨a, b, c⟩; exact ⟨by omega, by omega, by omega⟩
  unfold getStatus
  cases r with
  | none =>
    constructor
    · intro h; injection h with h; split at h <;> cases h
    · rintro ⟨x, l, s, h, _⟩; cases h
  | some x =>
    by_cases hx : x.successful = true
    · simp only [hx, Bool.not_true, Bool.false_eq_true, if_false, Option.isSome_some, Bool.and_self]
      cases hf : (x.basic.getD []).find? (fun s => decide (s.id = certId c i)) with
      | none =>
        dsimp only
        constructor
        · intro h; injection h with h; split at h <;> cases h
        · rintro ⟨_, l, s, hy, _, hb, ⟨l1, l2, e, hid, _⟩, _⟩
          injection hy with hy
          subst hy
          rw [hb, Option.getD_some, List.find?_eq_none] at hf
          have := hf s (by rw [e]; simp)
          exact absurd (by rw [hid]; exact decide_eq_true rfl) this
      | some s =>
        dsimp only
        have hs := List.find?_eq_some_iff_append.mp hf
        obtain ⟨hid, l1, l2, e, hl⟩ := hs
        have hid : s.id = certId c i := by simpa using hid
        have hb : x.basic = some (x.basic.getD []) := by
          cases hb : x.basic with
          | none => rw [hb] at e; simp at e
          | some l => rfl
        constructor
        · intro h
          by_cases hfr : fresh s now = true
          · rw [hfr] at h
            simp only [Bool.not_true, Bool.false_eq_true, if_false] at h
            have h' := (hfresh s).1 hfr
            refine ⟨x, _, s, rfl, hx, hb, ⟨l1, l2, e, hid, ?_⟩, ?_, h'.1, h'.2⟩
            · intro z hz
              have := hl z hz
              intro e
              rw [e] at this
              simp [certId] at this
            · by_cases h0 : s.status = 0
              · rw [if_pos h0] at h
                by_cases hst0 : st = 0
                · rw [h0, hst0]
                · rw [if_neg hst0] at h; injection h with h; cases h
              · rw [if_neg h0] at h
                by_cases h1 : s.status = 1
                · rw [if_pos h1] at h
                  by_cases hst0 : st = 0
                  · rw [if_pos hst0] at h; injection h with h; cases h
                  · omega
                · rw [if_neg h1] at h; injection h with h; split at h <;> cases h
          · simp only [Bool.not_eq_true] at hfr
            rw [hfr] at h
            simp only [Bool.not_false, if_true] at h
            injection h with h; split at h <;> cases h
        · rintro ⟨y, l, z, hy, _, hb', ⟨m1, m2, e', hzid, hz1⟩, hzs, h1, h2⟩
          injection hy with hy
          subst hy
          have : some z = some s := by
            rw [← hf, hb', Option.getD_some, e']
            symm
            rw [List.find?_append]
            have hn : m1.find? (fun s => decide (s.id = certId c i)) = none := by
              rw [List.find?_eq_none]
              intro w hw
              have := hz1 w hw
              simp [certId, this]
            rw [hn, Option.none_or, List.find?_cons]
            simp [hzid, certId]
          injection this with this
          subst this
          rw [(hfresh z).2 ⟨h1, h2⟩]
          simp only [Bool.not_true, Bool.false_eq_true, if_false, hzs]
          by_cases h0 : st = 0
          · simp [h0]
          · have : st = 1 := by omega
            simp [this]
    · simp only [Bool.not_eq_true] at hx
      simp only [hx, Bool.not_false, if_true]
      constructor
      · intro h; injection h with h; split at h <;> cases h
      · rintro ⟨y, l, s, hy, hs, _⟩
        injection hy with hy
        subst hy
        rw [hx] at hs
        cases hs

namespace Crt
def list0 : List' := ⟨1, [18, 20], some 100, [false], some 7⟩
def answer : Resp := ⟨true, some [⟨(1, some 7, 20), 1, 0, none⟩, ⟨(1, some 7, 18), 0, 0, some 10⟩]⟩
end Crt

example : isrevoked (some Crt.list0) (some Crt.user) = .ok true ∧ isrevoked (some Crt.list0) (some Crt.root) = .ok false := by decide +kernel
example := C101_revoked ⟨1, [], some 100, [], some 7⟩ [some Crt.user, none] (some Crt.root)
example := C101_text Crt.list0 (-20) (str ['x']) (by decide +kernel)
example : crlValidate 5 (some Crt.list0) Crt.root = .valid ∧ crlValidate 100 (some Crt.list0) Crt.root = .expired := by decide
example := C101_list_partial 5 Crt.list0 Crt.root (by decide) (by decide)
example := C101_forged 5 (some Crt.list0) Crt.root (by decide)
example := C101_life Crt.mgr Crt.root 7 rfl rfl rfl ⟨rfl, _, rfl, rfl⟩ rfl 5 10 [some Crt.user, none] 20
example : getStatus 5 (some Crt.answer) (some Crt.user) (some Crt.root) = .ok .good := by decide
example := C101_ocsp 5 (some Crt.answer) Crt.user Crt.root 0 (by decide)

/-- C101: but a list whose first extension is critical is valid. -/
theorem C101_critical_fails : ∃ l : List', true ∈ l.critical ∧ crlValidate 5 (some l) Crt.root = .valid := ⟨{ Crt.list0 with critical := [true] }, by decide, by decide⟩

/-- C101: and one whose date cannot be read never expires. -/
theorem C101_date_fails : ∃ l : List', l.next = none ∧ ∀ now, crlValidate now (some l) Crt.root = .valid := ⟨{ Crt.list0 with next := none }, rfl, fun _ => rfl⟩

/-- C101: a list made by an authority that was itself issued by another is not valid for it, whatever the time: it is in the name of the other. -/
theorem C101_subordinate_fails (m : Mgr) (ca : Cert) (hself : ca.issuer ≠ ca.subject) (t now : Int) : crlValidate now (newCrl m ca t) ca ≠ .valid := by
  intro h
  obtain ⟨x, hx, hi, _⟩ := C101_forged now _ ca h
  apply hself
  rw [← hi]
  have : ∀ (l : List') (y : List'), (m.signcrl t (some l)).1 = some y → y.issuer = l.issuer := by
    intro l y hy
    unfold Mgr.signcrl at hy
    split at hy
    · rename_i a b ha _
      injection ha with ha
      subst ha
      split at hy
      · injection hy with hy; rw [← hy]
      · split at hy
        · injection hy with hy; rw [← hy]
        · split at hy
          · split at hy <;> (injection hy with hy; rw [← hy])
          · injection hy with hy; rw [← hy]
    · injection hy with hy; rw [← hy]
  exact (this _ x hx).symm

/-- C101: without a list nothing is revoked; a text that is not a number ends the program. -/
theorem C101_blank_fails : (∀ c, isrevoked none (some c) = .ok false) ∧ isrevokedText (some Crt.list0) (str ['x']) = .crash := by
  refine ⟨?_, by decide +kernel⟩
  intro c
  rfl

/-- C101: and asking for the status of a certificate with an issuer that is blank ends the program. -/
theorem C101_ocsp_fails (now : Int) : getStatus now (some Crt.answer) (some Crt.user) none = .crash := rfl

/-- C100: what is signed, and by whom: there is a certificate that may sign others, and a private key that belongs to it (or that signed it); then the signature is that of
    the key and all else stays. Otherwise nothing changes. -/
theorem C100_signs (m : Mgr) (x : Cert) :
    ((m.signcert x).2 = true ↔ ∃ c k, m.cert = some c ∧ m.rsa = some k ∧ (c.key = some k ∨ c.sig = some k) ∧ SignsCerts c) ∧
    ((m.signcert x).2 = true → (m.signcert x).1 = { x with sig := m.rsa }) ∧ ((m.signcert x).2 = false → (m.signcert x).1 = x) := by
  have hok := Crt.isok_iff m
  unfold Mgr.signcert
  cases hi : m.isok with
  | false =>
    simp only [Bool.not_false, if_true, Bool.false_eq_true, false_iff, false_implies, true_and]
    refine ⟨?_, fun _ => trivial⟩
    rintro ⟨c, k, h1, h2, h3, _⟩
    rw [hok.mpr ⟨c, k, h1, h2, h3⟩] at hi
    simp at hi
  | true =>
    simp only [Bool.not_true, Bool.false_eq_true, if_false]
    obtain ⟨c, k, h1, h2, h3⟩ := hok.mp hi
    rw [h1]
    dsimp only
    have hm := Crt.maySign_iff c
    split
    · rename_i hs
      exact ⟨⟨fun _ => ⟨c, k, rfl, h2, h3, hm.mp hs⟩, fun _ => rfl⟩, fun _ => rfl, fun h => by simp at h⟩
    · rename_i hs
      refine ⟨⟨fun h => by simp at h, ?_⟩, fun h => by simp at h, fun _ => rfl⟩
      rintro ⟨c', _, e, _, _, h⟩
      simp only [Option.some.injEq] at e
      subst e
      exact absurd (hm.mpr h) hs

example : ((selfSigned (fun t => t) 5 1 7 true).signcert Crt.user).2 = true ∧ ((selfSigned (fun t => t) 5 1 7 false).signcert Crt.user).2 = false := by decide +kernel

/-- C101: a revocation list is signed under the same conditions, by a certificate that may sign lists. -/
theorem C101_signs (m : Mgr) (t : Int) (l : List') :
    ((m.signcrl t (some l)).2 = true ↔ ∃ c k, m.cert = some c ∧ m.rsa = some k ∧ (c.key = some k ∨ c.sig = some k) ∧ SignsLists c) ∧
    ((m.signcrl t (some l)).2 = false → (m.signcrl t (some l)).1 = some l) := by
  have hok := Crt.isok_iff m
  unfold Mgr.signcrl
  cases hc : m.cert with
  | none => simp
  | some c =>
    dsimp only
    cases hi : m.isok with
    | false =>
      simp only [Bool.not_false, if_true, Bool.false_eq_true, false_iff]
      refine ⟨?_, fun _ => trivial⟩
      rintro ⟨c', k, h1, h2, h3, _⟩
      rw [hok.mpr ⟨c', k, by rw [hc]; exact h1, h2, h3⟩] at hi
      simp at hi
    | true =>
      simp only [Bool.not_true, Bool.false_eq_true, if_false]
      obtain ⟨c', k, h1, h2, h3⟩ := hok.mp hi
      rw [hc] at h1
      simp only [Option.some.injEq] at h1
      subst h1
      unfold SignsLists
      cases h4 : c.ca with
      | false => simp [h4]
      | true =>
        cases h5 : c.usage with
        | none => simp [h5]
        | some u =>
          obtain ⟨a, b⟩ := u
          cases b with
          | false => simp [h4, h5]
          | true => cases a <;> simp [h4, h5, h2, h3]

example : ((selfSigned (fun t => t) 5 1 7 true).signcrl 9 (some ⟨1, [], none, [], none⟩)).2 = true ∧
    ((selfSigned (fun t => t) 5 1 7 false).signcrl 9 (some ⟨1, [], none, [], none⟩)).2 = false := by decide +kernel

end Props
