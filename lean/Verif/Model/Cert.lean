import Verif.Spec.Cert
import Verif.Model.Num
/-
Model of decisions about certificates: crypto/wvx509.cc, crypto/wvx509mgr.cc, crypto/wvcrl.cc, crypto/wvocsp.cc, and of WvSSLStream about its peer. OpenSSL is modelled as
far as it is used: what is signed remembers the key, as long as it is not changed. Names are equal exactly if their texts are. A key that cannot be read verifies nothing.
Keys identify themselves (`ski` is the key). A `WvX509` is an `Option Cert`: `none` is blank.
-/
namespace Wv.Cert
open Wv
open Spec.Cert (Cert List')

/-- `X509_cmp_current_time`: -1 if the date is not later than now, 1 if it is, 0 if it cannot be read. -/
def cmpTime (d : Option Int) (now : Int) : Int :=
  match d with
  | none => 0
  | some d => if d ≤ now then -1 else 1

/-- `X509_verify`, `X509_CRL_verify`. -/
def verify (sig : Option Nat) (key : Option Nat) : Int :=
  match key with
  | none => -1
  | some k => if sig = some k then 1 else 0

/-- `WvX509::signedbyca` (crypto/wvx509.cc:393-421). -/
def signedby (c ca : Option Cert) : Bool :=
  match c, ca with
  | some c, some ca => let r := verify c.sig ca.key; if r < 0 then false else decide (r > 0)
  | _, _ => false

/-- `X509_check_issued`. -/
def checkIssued (ca c : Cert) : Bool :=
  decide (c.issuer = ca.subject) &&
  (match c.aki, ca.ski with
    | some a, some s => decide (a = s)
    | _, _ => true) &&
  match ca.usage with
    | some u => u.1
    | none => true

/-- `WvX509::issuedbyca` (crypto/wvx509.cc:424-440). -/
def issuedby (c ca : Option Cert) : Bool :=
  match c, ca with
  | some c, some ca => checkIssued ca c
  | _, _ => false

/-- `WvX509::validate` (crypto/wvx509.cc:359-390); the outer `none` is a null pointer. -/
def validate (now : Int) (c : Option Cert) (ca : Option (Option Cert)) : Bool :=
  match c with
  | none => false
  | some x =>
    let r := true
    let r := if cmpTime x.notAfter now < 0 then false else r
    let r := if cmpTime x.notBefore now > 0 then false else r
    match ca with
    | some ca => (r && signedby c ca) && issuedby c ca
    | none => r

/-- What a WvSSLStream does when the connection is there (crypto/wvsslstream.cc:701-731): whether it is connected, whether the attribute `peercert` is set. `vcb` is the callback. -/
def peer (now : Int) (cert : Option Cert) (vcb : Option (Option Cert → Bool)) : Bool × Bool :=
  (match vcb with
    | some f => cert.isSome && validate now cert none && f cert
    | none => true,
   cert.isSome && validate now cert none)

/-! ### Signing -/

/-- A WvX509Mgr: its certificate, its private key (`none`: there is none, or it is not all right). -/
structure Mgr where
  cert : Option Cert
  rsa : Option Nat

/-- `test` (crypto/wvx509mgr.cc:217-263), `isok` (172-175). -/
def Mgr.isok (m : Mgr) : Bool :=
  match m.cert, m.rsa with
  | some c, some k => if verify c.sig (some k) ≠ 1 then decide (c.key = some k) else true
  | _, _ => false

/-- Which certificates may sign others (crypto/wvx509mgr.cc:358-370). -/
def maySign (c : Cert) : Bool :=
  c.ca && match c.usage with
    | some u => u.1
    | none => false

/-- `signcert` of another certificate (crypto/wvx509mgr.cc:344-388). -/
def Mgr.signcert (m : Mgr) (x : Cert) : Cert × Bool :=
  if !m.isok then (x, false)
  else
    match m.cert with
    | none => (x, false)
    | some c => if maySign c then ({ x with sig := m.rsa }, true) else (x, false)

/-- What `signreq` returns: the text "0" (`return false`), null, or a certificate. -/
inductive Answer where
  | zero
  | null
  | cert (c : Cert)
  deriving DecidableEq

/-- Ten years (crypto/wvx509mgr.cc:134, 299). -/
def tenYears : Int := 60 * 60 * 24 * 3650

/-- `signreq` (crypto/wvx509mgr.cc:267-342) at a time; a request is a subject and a public key; `none`: it cannot be read. `rnd` is `rand()` after `srand` of a time. -/
def Mgr.signreq (m : Mgr) (rnd : Int → Int) (now : Int) (req : Option (Nat × Nat)) : Answer :=
  if !m.isok then .zero
  else
    match req, m.cert with
    | some q, some c =>
      .cert (m.signcert ⟨q.1, c.subject, rnd now, some now, some (now + tenYears), some q.2, none, false, some (false, false), some q.2, c.ski⟩).1
    | _, _ => .null

/-- A new certificate that signs itself: `create_selfissued`, `signcert` (crypto/wvx509mgr.cc:52-66, 88-165). -/
def selfSigned (rnd : Int → Int) (now : Int) (name key : Nat) (ca : Bool) : Mgr :=
  ⟨some ⟨name, name, rnd now, some now, some (now + tenYears), some key, some key, ca, some (ca, ca), some key, none⟩, some key⟩

/-! ### Revocation lists -/

/-- `signcrl` (crypto/wvx509mgr.cc:391-440). -/
def Mgr.signcrl (m : Mgr) (now : Int) (l : Option List') : Option List' × Bool :=
  match l, m.cert with
  | some l, some c =>
    if !m.isok then (some l, false)
    else if !c.ca then (some l, false)
    else if !(match c.usage with
      | some u => u.2
      | none => false) then (some l, false)
    else (some { l with next := some (now + 60 * 60 * 24 * 30), sig := m.rsa }, true)
  | l, _ => (l, false)

/-- The constructor (crypto/wvcrl.cc:46-77) for an authority that has a certificate; its only extension is not critical. -/
def newCrl (m : Mgr) (c : Cert) (now : Int) : Option List' :=
  (m.signcrl now (some ⟨c.issuer, [], none, if c.ski.isSome then [false] else [], none⟩)).1

/-- `BN_dec2bn`: a sign and as many digits as there are; `none`: there is no number. -/
def dec2bn (s : List Byte) : Option Int :=
  let neg : Bool := s.head? = some (ch '-')
  let t := if neg then s.tail else s
  match t with
  | [] => none
  | c :: _ => if isdigit c then some (if neg then -(Num.digits 0 t : Int) else Num.digits 0 t) else none

/-- `BN_bn2dec` (crypto/wvx509.cc:705-720). -/
def bn2dec (n : Int) : List Byte := if n < 0 then ch '-' :: Num.ofUnsigned n.natAbs else Num.ofUnsigned n.natAbs

/-- `addcert` (crypto/wvcrl.cc:437-466): what was signed before is not signed any more. -/
def addcert (l : Option List') (c : Option Cert) : Option List' :=
  match l, c with
  | some l, some c =>
    match dec2bn (bn2dec c.serial) with
    | some n => some { l with revoked := l.revoked ++ [n], sig := none }
    | none => some l
  | l, _ => l

/-- A null pointer is used: the program ends. -/
inductive Out (α : Type) where
  | ok (a : α)
  | crash
  deriving DecidableEq

/-- `isrevoked` of a text (crypto/wvcrl.cc:352-397, 24-38). -/
def isrevokedText (l : Option List') (serial : List Byte) : Out Bool :=
  match l with
  | none => .ok false
  | some l =>
    if serial ≠ [] then
      match dec2bn serial with
      | none => .crash
      | some n => .ok (decide (n ∈ l.revoked))
    else .ok false

/-- `isrevoked` of a certificate (crypto/wvcrl.cc:334-349). -/
def isrevoked (l : Option List') (c : Option Cert) : Out Bool :=
  match c with
  | none => .ok true
  | some c => isrevokedText l (bn2dec c.serial)

inductive Valid where
  | valid
  | notThisCa
  | noValidSignature
  | expired
  | criticalExtensions
  deriving DecidableEq

/-- `X509_CRL_get_ext_by_critical`: the first after `last` that is critical; -1 if there is none. -/
def byCritical (l : List Bool) (last : Int) : Int :=
  match (List.range l.length).find? fun i : Nat => decide (last < (i : Int)) && l.getD i false with
  | some i => i
  | none => -1

/-- `WvCRL::validate` (crypto/wvcrl.cc:400-419) and what it asks (92-156), for a certificate that is not blank. -/
def crlValidate (now : Int) (l : Option List') (ca : Cert) : Valid :=
  match l with
  | none => .notThisCa
  | some l =>
    if !decide (ca.subject = l.issuer) then .notThisCa
    else if !(let r := verify l.sig ca.key; if r < 0 then false else decide (r > 0)) then .noValidSignature
    else if cmpTime l.next now < 0 then .expired
    else if byCritical l.critical 0 > 0 then .criticalExtensions
    else .valid

/-! ### OCSP -/

/-- How a certificate is identified: the name and the key of its issuer, and its number. -/
abbrev Id := Nat × Option Nat × Int

/-- A single answer: `V_OCSP_CERTSTATUS_GOOD` is 0, `…_REVOKED` 1. -/
structure Single where
  id : Id
  status : Nat
  thisUpdate : Int
  nextUpdate : Option Int

/-- A response that was read: whether it says that it was successful, and its basic response, if there is one. -/
structure Resp where
  successful : Bool
  basic : Option (List Single)

/-- `OCSP_cert_to_id`, of certificates that are not null. -/
def certId (c issuer : Cert) : Id := (c.issuer, issuer.key, c.serial)

/-- `OCSP_check_validity` with 300 seconds of tolerance and without a greatest age. -/
def fresh (s : Single) (now : Int) : Bool :=
  !(decide (now + 300 < s.thisUpdate)) &&
  match s.nextUpdate with
  | none => true
  | some n => !(decide (n < now - 300)) && !(decide (n < s.thisUpdate))

inductive Status where
  | error
  | good
  | revoked
  | unknown
  deriving DecidableEq

/-- `WvOCSPResp::get_status` (crypto/wvocsp.cc:163-206). `OCSP_cert_to_id` of a null certificate has no number, unlike those in a response; of a null issuer it crashes. -/
def getStatus (now : Int) (r : Option Resp) (c issuer : Option Cert) : Out Status :=
  match r with
  | none => .ok .error
  | some r =>
    if !r.successful then .ok .error
    else if !c.isSome && !issuer.isSome then .ok .error
    else
      match c, issuer with
      | some c, some i =>
        match (r.basic.getD []).find? fun s => s.id = certId c i with
        | none => .ok .error
        | some s =>
          if !fresh s now then .ok .error
          else if s.status = 0 then .ok .good
          else if s.status = 1 then .ok .revoked
          else .ok .unknown
      | none, _ => .ok .error
      | some _, none => .crash

end Wv.Cert
