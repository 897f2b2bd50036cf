import Verif.Model.Hex
import Verif.Spec.RsaKey
/-!
`WvRSAKey` (crypto/wvrsa.cc, include/wvrsa.h). The functions of OpenSSL are parameters. `none` is undefined behaviour.
Simplifications: the log is left out; `encode` that returns a string gives the text that the one with a buffer writes to an empty buffer (no text has a NUL in it);
what is left in the buffer given to `decode` is not described.
-/
namespace Wv.RsaKey
open Wv Spec.RsaKey

/-- `struct rsa_st`: the public numbers, and the private ones if it has them. -/
abbrev Rsa (P S : Type) := P × Option S

/-- `WvRSAKey` (wvrsa.h): `rsa`, and `priv`, which is `none` as long as it is not set. -/
structure Obj (P S : Type) where
  rsa : Option (Rsa P S)
  priv : Option Bool
deriving DecidableEq

/-- `DumpMode` (wvrsa.h). -/
inductive Mode
  | pem
  | pubPem
  | hex
  | pubHex
deriving DecidableEq

variable {P S : Type}

/-- `WvRSAKey::WvRSAKey()` (wvrsa.cc:17-21). -/
def blank : Obj P S := ⟨none, none⟩

/-- `WvRSAKey::WvRSAKey(struct rsa_st *, bool)` (wvrsa.cc:36-48). -/
def ofRsa (r : Option (Rsa P S)) (priv : Bool) : Obj P S :=
  match r with
  | none => ⟨none, none⟩
  | some r => ⟨some r, some priv⟩

/-- `WvRSAKey::WvRSAKey(int)` (wvrsa.cc:65-70); the argument is the key that the library generated, if it could. -/
def generate (r : Option (P × S)) : Obj P S := ⟨r.map fun k => (k.1, some k.2), some true⟩

/-- `WvRSAKey::WvRSAKey(const WvRSAKey &)` (wvrsa.cc:24-33). `RSAPublicKey_dup` writes and reads the public numbers; `RSAPrivateKey_dup` both, and it fails if there
    are no private ones. A `priv` that was not set is read. -/
def copy (k : Obj P S) : Option (Obj P S) :=
  match k.priv with
  | none => none
  | some false => some ⟨k.rsa.map fun r => (r.1, none), some false⟩
  | some true => some ⟨k.rsa.bind fun r => r.2.map fun s => (r.1, some s), some true⟩

/-- `WvRSAKey::isok` (wvrsa.cc:80-83). `RSA_check_key` says no if private numbers are missing. -/
def isok (L : Lib P S) (k : Obj P S) : Option Bool :=
  match k.rsa with
  | none => some false
  | some r =>
    match k.priv with
    | none => none
    | some priv => some (!priv || match r.2 with | none => false | some s => L.check r.1 s)

/-- `WvHexEncoder().strflushbuf(keybuf, true)` (wvrsa.cc:123). -/
def hexOf (bytes : List Byte) : List Byte := ((Hex.encoder false).encode Hex.newEncoder ⟨bytes, []⟩ true true).2.1.out

/-- `WvHexDecoder().flush(encoded, keybuf, true)` (wvrsa.cc:176-181): the bytes, unless it failed or there are none. -/
def unhex (t : List Byte) : Option (List Byte) :=
  let r := Hex.decoder.encode Hex.newDecoder ⟨t, []⟩ true true
  if !r.2.2 || r.2.1.out.isEmpty then none else some r.2.1.out

/-- `WvRSAKey::encode` (wvrsa.cc:95-144): what it appends to the buffer. `i2d_RSAPrivateKey` without private numbers gives -1, which is used as a size;
    `PEM_write_bio_RSAPrivateKey` writes nothing then. -/
def encode (L : Lib P S) (k : Obj P S) (mode : Mode) : Option (List Byte) :=
  match k.rsa with
  | none => some []
  | some r =>
    match mode with
    | .pem => match r.2 with | none => some [] | some s => some (L.pemPriv r.1 s)
    | .pubPem => some (L.pemPub r.1)
    | .pubHex => some (hexOf (L.derPub r.1))
    | .hex =>
      match k.priv with
      | none => none
      | some false => some (hexOf (L.derPub r.1))
      | some true => match r.2 with | none => none | some s => some (hexOf (L.derPriv r.1 s))

/-- `WvRSAKey::decode` from a buffer (wvrsa.cc:158-217). -/
def decode (L : Lib P S) (mode : Mode) (t : List Byte) : Obj P S :=
  match mode with
  | .hex =>
    match unhex t with
    | none => ⟨none, some false⟩
    | some b => ⟨(L.readPriv b).map fun k => (k.1, some k.2), some true⟩
  | .pubHex =>
    match unhex t with
    | none => ⟨none, some false⟩
    | some b => ⟨(L.readPub b).map fun p => (p, none), some false⟩
  | .pem => ⟨(L.readPemPriv t).map fun k => (k.1, some k.2), some true⟩
  | .pubPem => ⟨(L.readPemPub t).map fun p => (p, none), some false⟩

/-- `WvRSAKey::decode` from a string (wvrsa.cc:147-155): nothing happens if there is none or it is empty. -/
def decodeStr (L : Lib P S) (k : Obj P S) (mode : Mode) (t : Option (List Byte)) : Obj P S :=
  match t with
  | none => k
  | some t => if t.isEmpty then k else decode L mode t

/-- `WvRSAKey::WvRSAKey(WvStringParm, bool)` (wvrsa.cc:51-62). -/
def ofText (L : Lib P S) (t : Option (List Byte)) (priv : Bool) : Obj P S :=
  { decodeStr L ⟨none, none⟩ (if priv then .hex else .pubHex) t with priv := some priv }

end Wv.RsaKey
