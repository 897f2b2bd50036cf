import Verif.Model.Basic
import Verif.Spec.Num
/-!
What a URL is (C69): its parts and its text.
-/
namespace Spec.Url
open Wv

/-- The parts of a URL. A URL without a user or a password has these parts empty. -/
structure Parts where
  proto : List Byte
  user : List Byte
  password : List Byte
  host : List Byte
  port : Int
  path : List Byte
deriving DecidableEq, Repr

/-- A protocol: its name, the port that is meant when none is given, and whether "//" follows. -/
structure Proto where
  name : List Byte
  port : Int
  slashes : Bool
deriving DecidableEq

/-- The protocols. -/
def protos : List Proto :=
  [⟨str ['e', 'x', 'c', 'h', 'a', 'n', 'g', 'e', 'i', 't'], 6969, false⟩,
   ⟨str ['e', 'x', 'c', 'h', 'a', 'n', 'g', 'e', 'i', 't', 's'], 7070, false⟩,
   ⟨str ['h', 't', 't', 'p'], 80, true⟩,
   ⟨str ['h', 't', 't', 'p', 's'], 443, true⟩,
   ⟨str ['f', 'i', 'l', 'e'], 0, true⟩,
   ⟨str ['s', 'i', 'p'], 5060, false⟩,
   ⟨str ['l', 'd', 'a', 'p'], 389, false⟩,
   ⟨str ['l', 'd', 'a', 'p', 's'], 636, false⟩,
   ⟨str ['f', 't', 'p'], 21, true⟩]

/-- How the port of a URL is written. -/
inductive PortText where
  | default
  | given (n : Nat)

/-- The port that is meant. -/
def PortText.value (p : Proto) : PortText → Int
  | .default => p.port
  | .given n => n

/-- What is written for the port. -/
def PortText.text : PortText → List Byte
  | .default => []
  | .given n => ch ':' :: Spec.Num.decimal n

/-- How the path is written: left out, or from its '/'. -/
inductive PathText where
  | none
  | given (t : List Byte)

/-- The path that is meant: "/" when it is left out of a URL with slashes. -/
def PathText.value (p : Proto) : PathText → List Byte
  | .none => if p.slashes then str ['/'] else []
  | .given t => ch '/' :: t

/-- What is written for the path. -/
def PathText.text : PathText → List Byte
  | .none => []
  | .given t => ch '/' :: t

/-- The text of a URL: `proto:[//][user[:password]@]host[:port][/path]`. -/
def text (p : Proto) (user password host : List Byte) (port : PortText) (path : PathText) : List Byte :=
  p.name ++ str [':'] ++ (if p.slashes then str ['/', '/'] else [])
    ++ (if user = [] then [] else if password = [] then user ++ str ['@'] else user ++ str [':'] ++ password ++ str ['@'])
    ++ host
    ++ port.text ++ path.text

/-- None of these characters is in the text. -/
def free (cs : List Char) (t : List Byte) : Prop := ∀ c ∈ cs, ch c ∉ t

/-- A text with no white space in it. -/
def noSpace (t : List Byte) : Prop := ∀ c ∈ t, isspace c = false

/-- The parts may be written this way: no part contains the character that ends it. A '/' may be in the user and the password. -/
structure Writable (user password host : List Byte) (port : PortText) (path : PathText) : Prop where
  user_ok : free ['@', ':'] user ∧ noSpace user
  password_ok : free ['@'] password ∧ noSpace password ∧ (user = [] → password = [])
  host_ok : free ['@', ':', '/'] host ∧ noSpace host
  port_ok : ∀ n, port = .given n → n < 65536
  path_ok : ∀ t, path = .given t → noSpace t

end Spec.Url
