import Verif.Model.Basic
/- The calendar and the formats of FTP listings, independent of the model. -/
namespace Spec.Ftp
open Wv (Byte ch str)

abbrev Text := List Byte

/-! ### The calendar -/

def leap (y : Nat) : Bool := y % 4 == 0 && (y % 100 != 0 || y % 400 == 0)

/-- Months are counted from 0. -/
def monthLen (y m : Nat) : Nat :=
  match m with
  | 1 => if leap y then 29 else 28
  | 3 => 30
  | 5 => 30
  | 8 => 30
  | 10 => 30
  | _ => 31

/-- The days of a year before a month. -/
def monthStart (y : Nat) : Nat → Nat
  | 0 => 0
  | m + 1 => monthStart y m + monthLen y m

/-- The days before a year. -/
def yearStart : Nat → Nat
  | 0 => 0
  | y + 1 => yearStart y + monthStart y 12

def day (y m d : Nat) : Nat := yearStart y + monthStart y m + (d - 1)

/-- The seconds from the beginning of 1970 to a day. -/
def seconds (y m d : Nat) : Int := 86400 * ((day y m d : Int) - day 1970 0 1)

def Valid (y m d : Nat) : Prop := m < 12 ∧ 1 ≤ d ∧ d ≤ monthLen y m

/-- The day is less than 350 days in the past and at most 15 days in the future. -/
def Near (now : Int) (y m d : Nat) : Prop := now - seconds y m d < 350 * 86400 ∧ seconds y m d ≤ now + 15 * 86400

/-! ### Numbers and months in a text -/

def Digits (t : Text) : Prop := ∀ c ∈ t, ch '0' ≤ c ∧ c ≤ ch '9'

def value (t : Text) : Nat := t.foldl (fun n c => n * 10 + (c.toNat - 48)) 0

/-- Digits of a number that fits into 63 bits. -/
def Number (t : Text) : Prop := Digits t ∧ value t < 2 ^ 63

def monthNames : List Text := [str ['j', 'a', 'n'], str ['f', 'e', 'b'], str ['m', 'a', 'r'], str ['a', 'p', 'r'], str ['m', 'a', 'y'],
  str ['j', 'u', 'n'], str ['j', 'u', 'l'], str ['a', 'u', 'g'], str ['s', 'e', 'p'], str ['o', 'c', 't'], str ['n', 'o', 'v'],
  str ['d', 'e', 'c']]

def lower (c : Byte) : Byte := if ch 'A' ≤ c ∧ c ≤ ch 'Z' then c + 32 else c

/-- The text names the month, in upper or lower case. -/
def Month (t : Text) (m : Nat) : Prop := monthNames[m]? = some (t.map lower)

def Word (t : Text) : Prop := t ≠ [] ∧ ch ' ' ∉ t

def spaces (n : Nat) : Text := List.replicate (n + 1) (ch ' ')

/-! ### What a line says -/

inductive Precision where
  | unknown
  | exact
  | minute
  | day
deriving DecidableEq, Repr

/-- The name; whether it may be a directory or a file; its size; its time; an identifier. -/
structure Info where
  name : Text
  cwd : Bool
  retr : Bool
  size : Option Int
  precision : Precision
  time : Int
  id : Option Text
deriving DecidableEq, Repr

/-! ### EPLF -/

inductive Fact where
  | dir
  | file
  | size (ds : Text)
  | time (ds : Text)
  | id (t : Text)
  | other (t : Text)

def Fact.text : Fact → Text
  | .dir => [ch '/']
  | .file => [ch 'r']
  | .size ds => ch 's' :: ds
  | .time ds => ch 'm' :: ds
  | .id t => ch 'i' :: t
  | .other t => t

def Fact.Ok : Fact → Prop
  | .dir => True
  | .file => True
  | .size ds => Number ds
  | .time ds => Number ds
  | .id t => ch ',' ∉ t ∧ (9 : Byte) ∉ t
  | .other t => ch ',' ∉ t ∧ (9 : Byte) ∉ t ∧ ∀ c ∈ t.head?, c ∉ str ['/', 'r', 's', 'm', 'i']

def Fact.apply (f : Info) : Fact → Info
  | .dir => { f with cwd := true }
  | .file => { f with retr := true }
  | .size ds => { f with size := some (value ds) }
  | .time ds => { f with precision := .exact, time := value ds }
  | .id t => { f with id := some t }
  | .other _ => f

/-- `+fact,fact,...,<tab>name`. -/
def eplf (facts : List Fact) (name : Text) : Text := ch '+' :: (facts.flatMap (fun f => f.text ++ [ch ',']) ++ 9 :: name)

def blank : Info := ⟨[], false, false, none, .unknown, 0, none⟩

/-! ### UNIX -/

/-- The time in a UNIX listing. -/
inductive When where
  | short (h m m' : Byte)
  | long (h h' m m' : Byte)
  | year (ds : Text)

def When.text : When → Text
  | .short h m m' => [h, ch ':', m, m']
  | .long h h' m m' => [h, h', ch ':', m, m']
  | .year ds => ds

def isDigit (c : Byte) : Prop := ch '0' ≤ c ∧ c ≤ ch '9'

def When.Ok : When → Prop
  | .short h m m' => isDigit h ∧ isDigit m ∧ isDigit m'
  | .long h h' m m' => isDigit h ∧ isDigit h' ∧ isDigit m ∧ isDigit m'
  | .year ds => Number ds ∧ 4 ≤ ds.length

/-- The time, if the day without a year is in `guess`. -/
def When.time (guess : Nat) (month mday : Nat) : When → Int
  | .short h m m' => seconds guess month mday + value [h] * 3600 + value [m, m'] * 60
  | .long h h' m m' => seconds guess month mday + value [h, h'] * 3600 + value [m, m'] * 60
  | .year ds => seconds (value ds) month mday

/-- The day exists, and without a year it is the one in `guess` that is near. -/
def When.Dated (now : Int) (guess : Nat) (month mday : Nat) : When → Prop
  | .year ds => 401 ≤ value ds ∧ Valid (value ds) month mday
  | _ => Valid guess month mday ∧ Near now guess month mday

def When.precision : When → Precision
  | .year _ => .day
  | _ => .minute

/-- A word and the spaces after it. -/
abbrev Field := Text × Nat

def field (f : Field) : Text := f.1 ++ spaces f.2

/-- The name of a link is followed by what it points to. -/
def beforeArrow : Text → Text
  | [] => []
  | c :: t => if (str [' ', '-', '>', ' ']).isPrefixOf (c :: t) then [] else c :: beforeArrow t

/-- NetWare has three spaces before a name. -/
def afterSpaces (t : Text) : Text := if (str [' ', ' ', ' ']).isPrefixOf t ∧ 3 < t.length then t.drop 3 else t

/-- A line of `ls -l`: permissions, links, owner, perhaps more words, size, month, day, time or year, one space, name. -/
structure Ls where
  perm : Field
  nlink : Field
  uid : Field
  more : List Field
  size : Field
  month : Field
  mday : Field
  time : When
  name : Text

def Ls.text (l : Ls) : Text :=
  field l.perm ++ field l.nlink ++ field l.uid ++ l.more.flatMap field ++ field l.size ++ field l.month ++ field l.mday ++ l.time.text ++
    ch ' ' :: l.name

/-- What the words must be: the first letter tells the type; further words are not too long, and only the first of them may look like
    the name of a month. -/
structure Ls.Ok (l : Ls) : Prop where
  perm : Word l.perm.1 ∧ ∃ c ∈ l.perm.1.head?, c ∈ str ['b', 'c', 'd', 'l', 'p', 's', '-']
  nlink : Word l.nlink.1 ∧ ¬ (l.nlink.1.length = 6 ∧ l.nlink.1.head? = some (ch 'f'))
  uid : Word l.uid.1
  more : ∀ f ∈ l.more, Word f.1 ∧ f.1.length ≤ 17
  moreMonth : ∀ f ∈ l.more.tail, ∀ m, ¬ Month f.1 m
  size : Word l.size.1 ∧ Number l.size.1
  month : ∃ m, Month l.month.1 m
  mday : Word l.mday.1 ∧ Number l.mday.1
  time : l.time.Ok

/-- What it says. The permissions of NetWare are separate words, or begin with a bracket. -/
def Ls.info (l : Ls) (guess month : Nat) : Info :=
  let name := if l.perm.1.head? = some (ch 'l') then beforeArrow l.name else l.name
  ⟨if l.perm.1.length = 1 ∨ l.perm.1[1]? = some (ch '[') then afterSpaces name else name,
    l.perm.1.head? = some (ch 'd') ∨ l.perm.1.head? = some (ch 'l'), l.perm.1.head? = some (ch '-') ∨ l.perm.1.head? = some (ch 'l'),
    some (value l.size.1), l.time.precision, l.time.time guess month (value l.mday.1), none⟩

/-! ### MSDOS -/

/-- `mm-dd-yy  hh:mmAM  <DIR> or size  name`. -/
structure Dos where
  month : Text
  mday : Text
  year : Field
  hour : Text
  minute : Text
  pm : Bool
  gap : Nat
  dir : Bool
  what : Field
  name : Text

def Dos.text (l : Dos) : Text :=
  l.month ++ ch '-' :: (l.mday ++ ch '-' :: (field l.year ++ (l.hour ++ ch ':' :: (l.minute ++
    (if l.pm then ch 'P' else ch 'A') :: ch 'M' :: (spaces l.gap ++ (field l.what ++ l.name))))))

structure Dos.Ok (l : Dos) : Prop where
  month : Number l.month ∧ l.month ≠ [] ∧ 1 ≤ value l.month
  mday : Number l.mday ∧ l.mday ≠ []
  year : Number l.year.1 ∧ l.year.1 ≠ []
  hour : Number l.hour ∧ l.hour ≠ []
  minute : Number l.minute
  what : Word l.what.1 ∧ if l.dir then l.what.1.head? = some (ch '<') else Number l.what.1
  name : l.name ≠ [] ∧ l.name.head? ≠ some (ch ' ')
  noSemi : ch ';' ∉ l.text

/-- Two digits stand for 1950 to 2049. -/
def century (y : Nat) : Nat := if y < 50 then y + 2000 else if y < 1000 then y + 1900 else y

def Dos.info (l : Dos) : Info :=
  ⟨l.name, l.dir, !l.dir, if l.dir then none else some (value l.what.1), .minute,
    seconds (century (value l.year.1)) (value l.month - 1) (value l.mday) +
      ((if value l.hour = 12 then 0 else value l.hour) + if l.pm then 12 else 0) * 3600 + value l.minute * 60, none⟩

/-! ### VMS -/

/-- `NAME;1  2 30-DEC-1996 17:44 ...`. -/
structure Vms where
  name : Text
  version : Field
  blocks : Field
  mday : Text
  month : Text
  year : Field
  hour : Text
  minute : Text
  rest : Text

def Vms.text (l : Vms) : Text :=
  l.name ++ ch ';' :: (field l.version ++ (field l.blocks ++ (l.mday ++ ch '-' :: (l.month ++ ch '-' :: (field l.year ++
    (l.hour ++ ch ':' :: (l.minute ++ l.rest)))))))

structure Vms.Ok (l : Vms) : Prop where
  name : ch ';' ∉ l.name ∧ ∀ c ∈ l.name.head?, c ∉ str ['+', 'b', 'c', 'd', 'l', 'p', 's', '-']
  version : ch ' ' ∉ l.version.1
  blocks : Word l.blocks.1
  mday : Number l.mday ∧ l.mday ≠ []
  month : ∃ m, Month l.month m
  year : Number l.year.1 ∧ l.year.1 ≠ []
  hour : Number l.hour ∧ l.hour ≠ []
  minute : Number l.minute ∧ l.minute ≠ []
  rest : ∃ c r, l.rest = c :: r ∧ (c = ch ':' ∨ c = ch ' ')

/-- What it says, where `dir` is the name before `.DIR` if it is a directory. -/
def Vms.info (l : Vms) (month : Nat) (dir : Option Text) : Info :=
  ⟨dir.getD l.name, dir.isSome, !dir.isSome, none, .minute,
    seconds (value l.year.1) month (value l.mday) + value l.hour * 3600 + value l.minute * 60, none⟩

/-- A directory is called NAME.DIR. -/
def Vms.Dir (l : Vms) : Option Text → Prop
  | some n => n ≠ [] ∧ l.name = n ++ str ['.', 'D', 'I', 'R']
  | none => ∀ n, n ≠ [] → l.name ≠ n ++ str ['.', 'D', 'I', 'R']

end Spec.Ftp
