import Verif.Spec.KeyAgree
/-!
`WvDiffieHellman` (crypto/wvdiffiehellman.cc, include/wvdiffiehellman.h) and `WvOakleyAuth` (crypto/wvoakley.cc, include/wvoakley.h).
The functions for large numbers are those of the OpenSSL versions whose structures the code accesses (up to 1.0.2). The private number that `DH_generate_key` draws is
a parameter, and so is whether a number is prime. `none` is undefined behaviour.
-/
namespace Wv.KeyAgree
open Wv

/-- `BN_bin2bn`, called at wvdiffiehellman.cc:44 and 97. -/
def bin2bn (l : List Byte) : Nat := l.foldl (fun a b => a * 256 + b.toNat) 0

/-- The loop of `BN_bn2bin`, from the least significant byte on; the fuel is enough if it is the number. -/
def bn2binGo : Nat → Nat → List Byte → List Byte
  | 0, _, acc => acc
  | f + 1, n, acc => if n = 0 then acc else bn2binGo f (n / 256) (UInt8.ofNat (n % 256) :: acc)

/-- `BN_bn2bin`, called at wvdiffiehellman.cc:86 and in `DH_compute_key`. -/
def bn2bin (n : Nat) : List Byte := bn2binGo n n []

/-- `BN_num_bits` and `BN_num_bytes`, called at wvdiffiehellman.cc:75, 80 and (as `DH_size`) 94. -/
def numBits (n : Nat) : Nat := if n = 0 then 0 else n.log2 + 1
def numBytes (n : Nat) : Nat := (numBits n + 7) / 8

/-- The messages that are logged: complaints of the constructor (wvdiffiehellman.cc:61-69), and the values of `create_secret` (95-96, 102). -/
inductive Msg
  | composite
  | unsafePrime
  | generator (g rest : Nat)
  | strange
  | values (mine : Nat) (yours : List Byte)
  | secret (s : List Byte)
deriving DecidableEq

/-- `info`: the modulus, the generator, the private number. -/
structure Dh where
  p : Nat
  g : Nat
  x : Nat
deriving DecidableEq

/-- `info->pub_key`, as `DH_generate_key` sets it. -/
def Dh.pub (d : Dh) : Nat := d.g ^ d.x % d.p

/-- What `DH_check` says about the generator: for 2 the modulus must leave 11 (mod 24), for 5 it must leave 3 or 7 (mod 10). -/
def suitable (p g : Nat) : Option Bool :=
  if g = 2 then some (p % 24 = 11) else if g = 5 then some (p % 10 = 3 || p % 10 = 7) else none

/-- `WvDiffieHellman::WvDiffieHellman` (wvdiffiehellman.cc:36-71). `prime` is the library's test. -/
def construct (prime : Nat → Bool) (key : List Byte) (g x : Nat) : Dh × List Msg :=
  let p := bin2bn key
  (⟨p, g, x⟩,
    (if prime p then [] else [.composite]) ++
    (if prime p && !prime ((p - 1) / 2) then [.unsafePrime] else []) ++
    (if suitable p g = some false then [.generator g (p % 24)] else []) ++
    (if suitable p g = none then [.strange] else []))

/-- `WvDiffieHellman::pub_key_len` (wvdiffiehellman.cc:73-76). -/
def pubKeyLen (d : Dh) : Nat := numBytes d.pub

/-- `WvDiffieHellman::get_public_value` (wvdiffiehellman.cc:78-90): the buffer after it and the value returned. A negative number is an enormous size for `put`. -/
def getPublic (d : Dh) (out : List Byte) (len : Int) : Option (List Byte × Int) :=
  let keyLen := numBytes d.pub
  let len := if (keyLen : Int) < len then (keyLen : Int) else len
  if len < 0 then none else some (out ++ (bn2bin d.pub).take len.toNat, len)

/-- `DH_compute_key`, called at wvdiffiehellman.cc:97: `none` is its -1. -/
def computeKey (d : Dh) (v : Nat) : Option (List Byte) :=
  if v ≤ 1 then none
  else if d.p - 1 ≤ v then none
  else if 10000 < numBits d.p then none
  else some (bn2bin (v ^ d.x % d.p))

/-- `WvDiffieHellman::create_secret` (wvdiffiehellman.cc:92-105): what is left of the input, the output, the log. `peek` and `get` give a null pointer for more
    than there is, which is read; -1 is an enormous size for `put`. -/
def createSecret (d : Dh) (inb : List Byte) (inLen : Nat) (out : List Byte) : Option (List Byte × List Byte × List Msg) :=
  if inb.length < inLen then none
  else
    let yours := inb.take inLen
    match computeKey d (bin2bn yours) with
    | none => none
    | some s =>
      let out' := out ++ s
      some (inb.drop inLen, out', [.values d.pub yours, .secret (out'.take s.length)])

/-- `group1_key` (wvoakley.cc:10-20). -/
def group1 : List Byte :=
  [0xFF, 0xFF, 0xFF, 0xFF, 0xFF, 0xFF, 0xFF, 0xFF, 0xC9, 0x0F, 0xDA, 0xA2,
   0x21, 0x68, 0xC2, 0x34, 0xC4, 0xC6, 0x62, 0x8B, 0x80, 0xDC, 0x1C, 0xD1,
   0x29, 0x02, 0x4E, 0x08, 0x8A, 0x67, 0xCC, 0x74, 0x02, 0x0B, 0xBE, 0xA6,
   0x3B, 0x13, 0x9B, 0x22, 0x51, 0x4A, 0x08, 0x79, 0x8E, 0x34, 0x04, 0xDD,
   0xEF, 0x95, 0x19, 0xB3, 0xCD, 0x3A, 0x43, 0x1B, 0x30, 0x2B, 0x0A, 0x6D,
   0xF2, 0x5F, 0x14, 0x37, 0x4F, 0xE1, 0x35, 0x6D, 0x6D, 0x51, 0xC2, 0x45,
   0xE4, 0x85, 0xB5, 0x76, 0x62, 0x5E, 0x7E, 0xC6, 0xF4, 0x4C, 0x42, 0xE9,
   0xA6, 0x3A, 0x36, 0x20, 0xFF, 0xFF, 0xFF, 0xFF, 0xFF, 0xFF, 0xFF, 0xFF]

/-- `group2_key` (wvoakley.cc:22-35). -/
def group2 : List Byte :=
  [0xFF, 0xFF, 0xFF, 0xFF, 0xFF, 0xFF, 0xFF, 0xFF, 0xC9, 0x0F, 0xDA, 0xA2,
   0x21, 0x68, 0xC2, 0x34, 0xC4, 0xC6, 0x62, 0x8B, 0x80, 0xDC, 0x1C, 0xD1,
   0x29, 0x02, 0x4E, 0x08, 0x8A, 0x67, 0xCC, 0x74, 0x02, 0x0B, 0xBE, 0xA6,
   0x3B, 0x13, 0x9B, 0x22, 0x51, 0x4A, 0x08, 0x79, 0x8E, 0x34, 0x04, 0xDD,
   0xEF, 0x95, 0x19, 0xB3, 0xCD, 0x3A, 0x43, 0x1B, 0x30, 0x2B, 0x0A, 0x6D,
   0xF2, 0x5F, 0x14, 0x37, 0x4F, 0xE1, 0x35, 0x6D, 0x6D, 0x51, 0xC2, 0x45,
   0xE4, 0x85, 0xB5, 0x76, 0x62, 0x5E, 0x7E, 0xC6, 0xF4, 0x4C, 0x42, 0xE9,
   0xA6, 0x37, 0xED, 0x6B, 0x0B, 0xFF, 0x5C, 0xB6, 0xF4, 0x06, 0xB7, 0xED,
   0xEE, 0x38, 0x6B, 0xFB, 0x5A, 0x89, 0x9F, 0xA5, 0xAE, 0x9F, 0x24, 0x11,
   0x7C, 0x4B, 0x1F, 0xE6, 0x49, 0x28, 0x66, 0x51, 0xEC, 0xE6, 0x53, 0x81,
   0xFF, 0xFF, 0xFF, 0xFF, 0xFF, 0xFF, 0xFF, 0xFF]

/-- `WvOakleyAuth` (wvoakley.h:14-30). `otherLen` is `none` until `other_len` is set. -/
structure Oakley where
  dh : Dh
  pubLen : Nat
  otherLen : Option Nat
  other : List Byte
  secret : List Byte
deriving DecidableEq

/-- `WvOakleyAuth::WvOakleyAuth` (wvoakley.cc:37-54). For other groups the pointer `dh` is not set before it is used. -/
def newOakley (prime : Nat → Bool) (group : Int) (x : Nat) : Option (Oakley × List Msg) :=
  let mk (key : List Byte) :=
    let r := construct prime key 2 x
    some (Oakley.mk r.1 (pubKeyLen r.1) none [] [], r.2)
  if group = 1 then mk group1 else if group = 2 then mk group2 else none

/-- `WvOakleyAuth::get_public_key` (wvoakley.cc:61-64). -/
def Oakley.getPublic (o : Oakley) (out : List Byte) (len : Int) : Option (List Byte × Int) := KeyAgree.getPublic o.dh out len

/-- `WvOakleyAuth::create_secret` (wvoakley.cc:66-72), with a length that is not negative. -/
def Oakley.create (o : Oakley) (inb : List Byte) (len : Nat) : Option (List Byte × Oakley × List Msg) :=
  if inb.length < len then none
  else
    match createSecret o.dh inb len o.secret with
    | none => none
    | some (rest, s, log) => some (rest, { o with other := o.other ++ inb.take len, otherLen := some len, secret := s }, log)

/-- `WvOakleyAuth::get_other_public_key` (wvoakley.cc:79-86): `other_len` is not set before `create_secret`. -/
def Oakley.getOther (o : Oakley) (out : List Byte) (len : Int) : Option (List Byte × Int) :=
  match o.otherLen with
  | none => none
  | some n =>
    let len := if (n : Int) < len then (n : Int) else len
    if len < 0 then none else if o.other.length < len.toNat then none else some (out ++ o.other.take len.toNat, len)

end Wv.KeyAgree
