import Verif.Spec.Digest
import Verif.Model.Encoder
import Verif.Model.Serialize
/-!
Digests: crypto/wvdigest.cc. OpenSSL is a library with a contract (`Lib`), zlib's two checksums are modelled as far as their results are documented.
-/
namespace Wv.Digest
open Spec.Digest (Lib)

/-- The fields of `WvEVPMDDigest` and `WvHMACDigest` (include/wvdigest.h:40-42, 93-97): the context, and whether it is active. `bad`: a context was used that is not active, which is undefined or fails an assertion. -/
structure Ctx (σ : Type) where
  ctx : σ
  active : Bool
  bad : Bool

/-- The loop in `_encode` (crypto/wvdigest.cc:35-39, 124-128, 181-182, 216-217); `opt` says how much of the input lies in one piece. Fuel: the size of the input. -/
def loop {σ : Type} (L : Lib σ) (opt : List Byte → Nat) : Nat → σ → List Byte → σ × List Byte
  | 0, s, b => (s, b)
  | n + 1, s, b => if b.isEmpty then (s, b) else loop L opt n (L.update s (b.take (opt b))) (b.drop (opt b))

/-- `WvEVPMDDigest` (crypto/wvdigest.cc:31-78) and `WvHMACDigest` (crypto/wvdigest.cc:120-163). -/
def evp {σ : Type} (L : Lib σ) (opt : List Byte → Nat) : EncImpl (Ctx σ) where
  encode' e io _ :=
    let r := loop L opt io.inb.length e.st.ctx io.inb
    ({ e with st := { e.st with ctx := r.1, bad := e.st.bad || !e.st.active } }, { io with inb := r.2 }, true)
  finish' e io := ({ e with st := { e.st with active := false, bad := e.st.bad || !e.st.active } }, { io with out := io.out ++ L.final e.st.ctx }, true)
  reset' e := ({ e with st := { e.st with ctx := L.init, active := true } }, true)

/-- The constructor (crypto/wvdigest.cc:16-21, 100-109) calls `_reset`. -/
def make {σ : Type} (L : Lib σ) : Enc (Ctx σ) := { st := ⟨L.init, true, false⟩ }

/-- HMAC with a key: the library is given the key at each start (crypto/wvdigest.cc:148). -/
def hmac {κ σ : Type} (init : κ → σ) (update : σ → List Byte → σ) (final : σ → List Byte) (key : κ) : Lib σ := ⟨init key, update, final⟩

/-- One step of zlib's `crc32`. -/
def shift (c : BitVec 32) : BitVec 32 := if c.getLsbD 0 then (c >>> 1) ^^^ 0xEDB88320#32 else c >>> 1
/-- One byte in zlib's `crc32`: it is xored into the low end, then there are eight steps. -/
def crcByte (c : BitVec 32) (b : Byte) : BitVec 32 := shift (shift (shift (shift (shift (shift (shift (shift (c ^^^ BitVec.ofNat 32 b.toNat))))))))
/-- zlib's `crc32(crc, buf, len)` (called in crypto/wvdigest.cc:182): the register is kept inverted between calls. -/
def crcUpdate (c : BitVec 32) (d : List Byte) : BitVec 32 := ~~~ (d.foldl crcByte (~~~ c))

/-- zlib's `adler32(adler, buf, len)` (called in crypto/wvdigest.cc:217): two sums in one number. -/
def adlerUpdate (n : Nat) (d : List Byte) : Nat :=
  let r := d.foldl (fun (p : Nat × Nat) b => ((p.1 + b.toNat) % 65521, (p.2 + (p.1 + b.toNat) % 65521) % 65521)) (n % 65536, n / 65536)
  r.2 * 65536 + r.1

/-- `WvCrc32Digest` (crypto/wvdigest.cc:172-204). `crc32(0, NULL, 0)` is 0. -/
def crc : Lib (BitVec 32) := ⟨0, crcUpdate, fun c => Serialize.scalar (.int 4 false) c.toNat⟩

/-- `WvAdler32Digest` (crypto/wvdigest.cc:207-239). `adler32(0, NULL, 0)` is 1. -/
def adler : Lib Nat := ⟨1, adlerUpdate, fun n => Serialize.scalar (.int 4 false) n⟩

/-- The checksums, which need no context. -/
def sum {σ : Type} (L : Lib σ) (opt : List Byte → Nat) : EncImpl σ where
  encode' e io _ :=
    let r := loop L opt io.inb.length e.st io.inb
    ({ e with st := r.1 }, { io with inb := r.2 }, true)
  finish' e io := (e, { io with out := io.out ++ L.final e.st }, true)
  reset' e := ({ e with st := L.init }, true)

/-- What a user does, with what comes out of each call. -/
def runOps {σ : Type} (I : EncImpl σ) : List Spec.Digest.Op → Enc σ → List Byte → List (List Byte × Bool) × Enc σ
  | [], e, _ => ([], e)
  | .encode b flush fin :: os, e, inb =>
    let r := I.encode e ⟨inb ++ b, []⟩ flush fin
    let q := runOps I os r.1 r.2.1.inb
    ((r.2.1.out, r.2.2) :: q.1, q.2)
  | .finish :: os, e, inb =>
    let r := I.finish e ⟨inb, []⟩
    let q := runOps I os r.1 r.2.1.inb
    ((r.2.1.out, r.2.2) :: q.1, q.2)
  | .reset :: os, e, inb =>
    let r := I.reset e
    let q := runOps I os r.1 inb
    (([], r.2) :: q.1, q.2)

end Wv.Digest
