import Verif.Spec.Auth
/-!
`WvPam` (utils/wvpam.cc), `UniConfPamConn` (uniconf/daemon/uniconfpamconn.cc), the names of users (utils/wvuid.cc) and encrypted passwords (utils/strcrypt.cc).
The PAM library is any function of the calls so far. Log messages are left out. A null pointer that is followed is `none`.
-/
namespace Wv.Auth
open Wv Spec.Auth

/-- The texts of `err`: "Not yet authenticated..." or the one of the step that failed. -/
inductive Why where
  | notYet
  | failed (step : Call) (status : Int)
deriving DecidableEq, Repr

/-- `WvPamData` (utils/wvpam.cc:62-77) and `err`; `trace` are the calls of the library so far. Of `err`, whether it is set and what it says (C93). -/
structure St where
  trace : List Call
  status : Int
  user : Option Text
  groups : List Text
  err : Option Why
deriving DecidableEq, Repr

/-- `err.seterr` (utils/wverror.cc:178-186): nothing, if there is an error already. -/
def St.seterr (s : St) (w : Why) : St :=
  match s.err with
  | none => { s with err := some w }
  | some _ => s

/-- One call of the library: what it answers is the status. -/
def St.call (lib : Lib) (s : St) (c : Call) : St := { s with trace := s.trace ++ [c], status := (lib (s.trace ++ [c])).1 }

/-- `check_pam_status` (utils/wvpam.cc:231-248). -/
def St.check (s : St) (c : Call) : Bool × St :=
  if s.status = 0 then (true, s) else (false, { s.seterr (.failed c s.status) with user := none, groups := [] })

/-- `d->status = ...; if (!check_pam_status(...)) return false;`, and then the rest. -/
def St.must (lib : Lib) (s : St) (c : Call) (k : St → Bool × St) : Bool × St :=
  match (s.call lib c).check c with
  | (true, s) => k s
  | (false, s) => (false, s)

/-- `!!s` (include/wvstring.h): neither null nor empty. -/
def isGiven (t : Option Text) : Bool :=
  match t with
  | none => false
  | some t => !t.isEmpty

/-- `init` (utils/wvpam.cc:136-150). -/
def init (lib : Lib) (app : Text) : St :=
  let s : St := ⟨[], 0, some [], [], none⟩
  let s := s.seterr .notYet
  ((s.call lib (.start app)).check (.start app)).2

/-- `pam_get_item(PAM_USER)` and what is done with it (utils/wvpam.cc:187-191, 217-220). -/
def St.who (lib : Lib) (s : St) (k : St → Bool × St) : Bool × St :=
  s.must lib .who fun s => k { s with user := (lib s.trace).2 }

/-- The last part of `authenticate` (utils/wvpam.cc:195-228). -/
def St.login (lib : Lib) (s : St) : Bool × St :=
  s.must lib .authenticate fun s => s.must lib .account fun s => s.must lib .credentials fun s => s.must lib .openSession fun s =>
    if isGiven s.user then (true, { s with err := none })
    else s.who lib fun s => (true, { s with err := none })

/-- With the password (utils/wvpam.cc:168-180). -/
def St.password (lib : Lib) (s : St) (password : Option Text) : Bool × St :=
  match password with
  | some p =>
    if isGiven (some p) then s.must lib (.conv p) fun s => s.must lib (.token p) fun s => s.who lib fun s => s.login lib
    else s.who lib fun s => s.login lib
  | none => s.who lib fun s => s.login lib

/-- With the user (utils/wvpam.cc:160-166). -/
def St.asUser (lib : Lib) (s : St) (user password : Option Text) : Bool × St :=
  match user with
  | some u =>
    if isGiven (some u) then St.must lib { s with user := some u } (.user u) fun s => s.password lib password
    else s.password lib password
  | none => s.password lib password

/-- `authenticate` (utils/wvpam.cc:152-229). -/
def St.authenticate (lib : Lib) (s : St) (rhost user password : Option Text) : Bool × St :=
  match rhost with
  | some r =>
    if isGiven (some r) then s.must lib (.rhost r) fun s => s.asUser lib user password
    else s.asUser lib user password
  | none => s.asUser lib user password

/-- Whether one of the members is the user (utils/wvpam.cc:266-273): `strcmp` with a null pointer is `none`, unless there are no members. -/
def isMember (user : Option Text) : List Text → Option Bool
  | [] => some false
  | m :: l =>
    match user with
    | none => none
    | some u => if m = u then some true else isMember user l

/-- The groups of the user (utils/wvpam.cc:262-275). -/
def findGroups (user : Option Text) : Groups → Option (List Text)
  | [] => some []
  | (n, ms) :: l =>
    match isMember user ms with
    | none => none
    | some true => (findGroups user l).map fun r => n :: r
    | some false => findGroups user l

/-- `getgroups` (utils/wvpam.cc:257-281): the list, and the object with the list kept. -/
def St.getgroups (s : St) (g : Groups) : Option (List Text × St) :=
  if s.groups.isEmpty then (findGroups s.user g).map fun r => (r, { s with groups := r })
  else some (s.groups, s)

/-- The destructor (utils/wvpam.cc:126-133). -/
def St.end (lib : Lib) (s : St) : List Call :=
  let t := if s.status = 0 then s.trace ++ [.closeSession] else s.trace
  t ++ [.done s.status]

/-- An object that is used: `authenticate` and `getgroups`. -/
def St.op (lib : Lib) (g : Groups) (s : St) : Op → Option St
  | .auth r u p => some (s.authenticate lib r u p).2
  | .groups => (s.getgroups g).map (·.2)

def St.run (lib : Lib) (g : Groups) (s : St) : List Op → Option St
  | [] => some s
  | o :: l => (s.op lib g o).bind fun s => St.run lib g s l

/-- `passconv` (utils/wvpam.cc:95-115): the responses to `n` messages; writing to none of them is `none`. -/
def passconv (n : Nat) (password : Text) : Option (List (Option Text)) :=
  if n = 0 then none else some (some password :: List.replicate (n - 1) none)

/-- What becomes of a connection: the credentials it is served with, or what is sent before it is closed. -/
inductive Conn where
  | served (user : Option Text) (groups : List Text)
  | refused (text : Text)
deriving DecidableEq, Repr

/-- `UniConfPamConn` (uniconf/daemon/uniconfpamconn.cc:17-41), with `UniSecureGen::setcredentials`. -/
def conn (lib : Lib) (g : Groups) (rhost : Text) : Option Conn :=
  let s := init lib (str ['u', 'n', 'i', 'c', 'o', 'n', 'f', 'd'])
  match s.authenticate lib (some rhost) (some []) none with
  | (true, s) => (s.getgroups g).map fun r => .served s.user r.1
  | (false, _) =>
    some (.refused (str ['F', 'A', 'I', 'L', ' ', '{', 'N', 'o', 't', ' ', 'A', 'u', 't', 'h', 'o', 'r', 'i', 'z', 'e', 'd', '}', '\n']))

/-- What `getpwuid_r` and `getpwnam_r` return and the pointer they set: null, unless there is an entry. -/
def answer {α : Type} : Found α → Int × Option α
  | .entry a => (0, some a)
  | .missing => (0, none)
  | .failed => (1, none)

/-- `wv_username_from_uid` (utils/wvuid.cc:42-51); the inner `none` is the null string. -/
def usernameFromUid (pw : Nat → Found Text) (uid : Nat) : Option (Option Text) :=
  match answer (pw uid) with
  | (r, p) =>
    if r = 0 then
      match p with
      | some n => some (some n)
      | none => none
    else some none

/-- `WVUID_INVALID` (include/wvuid.h:20). -/
def invalidUid : Nat := 4294967295

/-- `wv_uid_from_username` (utils/wvuid.cc:54-63). -/
def uidFromUsername (pw : Text → Found Nat) (name : Text) : Option Nat :=
  match answer (pw name) with
  | (r, p) =>
    if r ≠ 0 then p
    else some invalidUid

/-- `saltchars` (utils/strcrypt.cc:16-17, 43-44). -/
def saltchars : List Byte :=
  str ['a', 'b', 'c', 'd', 'e', 'f', 'g', 'h', 'i', 'j', 'k', 'l', 'm', 'n', 'o', 'p', 'q', 'r', 's', 't', 'u', 'v', 'w', 'x', 'y', 'z',
    'A', 'B', 'C', 'D', 'E', 'F', 'G', 'H', 'I', 'J', 'K', 'L', 'M', 'N', 'O', 'P', 'Q', 'R', 'S', 'T', 'U', 'V', 'W', 'X', 'Y', 'Z',
    '0', '1', '2', '3', '4', '5', '6', '7', '8', '9', '.', '/']

/-- `saltchars[random() % (sizeof(saltchars) - 1)]` (utils/strcrypt.cc:20-21, 51-52). -/
def saltchar (r : Nat) : Option Byte := saltchars[r % 64]?

/-- The salt of `passwd_crypt` (utils/strcrypt.cc:18-22). -/
def saltDes (random : Nat → Nat) : Option Text := [0, 1].mapM fun i => saltchar (random i)

/-- The salt of `passwd_md5` (utils/strcrypt.cc:45-54). -/
def saltMd5 (random : Nat → Nat) : Option Text :=
  ([3, 4, 5, 6, 7, 8, 9, 10].mapM fun i => saltchar (random (i - 3))).map fun r => str ['$', '1', '$'] ++ r

/-- `passwd_crypt`, `passwd_md5` (utils/strcrypt.cc:14-31, 41-61): the `random` values are those of this call. -/
def passwd (salt : (Nat → Nat) → Option Text) (crypt : Text → Text → Option Text) (random : Nat → Nat) (s : Text) : Option Text :=
  (salt random).map fun x =>
    match crypt s x with
    | some r => r
    | none => str ['*']

end Wv.Auth
