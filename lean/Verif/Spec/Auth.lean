import Verif.Model.Basic
/-!
What a user knows about authenticating with PAM: the calls that are made, in which order, and what the library may answer.
-/
namespace Spec.Auth
open Wv

abbrev Text := List Byte

/-- The calls of the PAM library. -/
inductive Call where
  | start (app : Text)
  | rhost (t : Text)
  | user (t : Text)
  | conv (password : Text)
  | token (password : Text)
  | who
  | authenticate
  | account
  | credentials
  | openSession
  | closeSession
  | done (status : Int)
deriving DecidableEq, Repr

/-- What the library answers to the last one of all calls so far: a status (0 is success) and, if it is asked for, the name of the user. -/
abbrev Lib := List Call → Int × Option Text

/-- A string that is neither null nor empty. -/
def given : Option Text → List Text
  | some (c :: t) => [c :: t]
  | _ => []

/-- What is done first: the host, the user and the password are told, if they are given, and the name of the user is asked for. -/
def before (rhost user password : Option Text) : List Call :=
  (given rhost).map .rhost ++ (given user).map .user ++ (given password).flatMap (fun p => [.conv p, .token p]) ++ [.who]

/-- Then the user is authenticated and let in. -/
def login : List Call := [.authenticate, .account, .credentials, .openSession]

/-- The name of the user, as it is known before they are authenticated. -/
def name (lib : Lib) (h : List Call) (rhost user password : Option Text) : Option Text := (lib (h ++ before rhost user password)).2

/-- What one authentication consists of, after the calls `h`: if the name is not known before, it is asked for at the end. -/
def steps (lib : Lib) (h : List Call) (rhost user password : Option Text) : List Call :=
  before rhost user password ++ login ++ (if given (name lib h rhost user password) = [] then [.who] else [])

/-- All of `l`, called after `h`, succeed. -/
def AllFine (lib : Lib) (h l : List Call) : Prop := ∀ a c b, l = a ++ c :: b → (lib (h ++ a ++ [c])).1 = 0

/-- What can be done with an object. -/
inductive Op where
  | auth (rhost user password : Option Text)
  | groups
deriving DecidableEq, Repr

/-- A database of groups: names and members. -/
abbrev Groups := List (Text × List Text)

/-- The groups a user is in. -/
def groupsOf (g : Groups) (user : Text) : List Text := (g.filter fun x => decide (user ∈ x.2)).map (·.1)

/-- What the library functions for users answer: the entry there is, that there is none, or that it cannot be found out. -/
inductive Found (α : Type) where
  | entry (a : α)
  | missing
  | failed
deriving DecidableEq, Repr

/-- The characters of salts. -/
def SaltChar (c : Byte) : Prop := (97 ≤ c ∧ c ≤ 122) ∨ (65 ≤ c ∧ c ≤ 90) ∨ (48 ≤ c ∧ c ≤ 57) ∨ c = 46 ∨ c = 47

instance (c : Byte) : Decidable (SaltChar c) := by unfold SaltChar; infer_instance

end Spec.Auth
