import Verif.Model.Copy
import Verif.Model.IntText
import Verif.Model.Log
/-
Model of WvConfEmu, which has the interface of WvConf on a UniConf (uniconf/wvconfemu.cc, include/wvconfemu.h).

The UniConf is the whole of a root with one generator, whose operations are `I`. A section that is found is known by its name, as
everything that is done with it goes to the UniConf with that name. The caches of values and entries are not modelled: they only
keep the texts that are returned. NULL is as good as "" for a section and an entry, as for UniConfKey.
-/
namespace Wv.ConfEmu
open TempGen (Value)

abbrev Text := List Byte

/-- `CallbackInfo` (include/wvconfemu.h:107-121); `cb` stands for the callback with its userdata. -/
structure Cb where
  cb : Nat
  sect : Option Text
  key : Option Text
  cookie : Nat
deriving DecidableEq

/-- A call of a callback. -/
structure Call where
  cb : Nat
  sect : Text
  key : Text
  value : Text
deriving DecidableEq

/-- `WvConfEmu` (include/wvconfemu.h:104-130): `sections` are the names of the sections that were looked up. -/
structure Emu (σ : Type) where
  gen : σ
  sections : List Text
  hold : Bool
  dirty : Bool
  callbacks : List Cb

/-- The constructor (uniconf/wvconfemu.cc:219-226). -/
def new {σ : Type} (g : σ) : Emu σ := ⟨g, [], false, false, []⟩

/-- The key of `uniconf[section][entry]`. -/
def key2 (s e : Text) : Key := Key.join (Key.parse s) (Key.parse e)

variable {σ : Type} (I : IGen σ)

/-- `get` (uniconf/wvconfemu.cc:437-449). -/
def get (c : Emu σ) (s e : Text) (d : Option Text) : Option Text :=
  if s = [] ∨ e = [] then d
  else match I.get c.gen (key2 s e) with
    | none => d
    | some v => some v

/-- `getint` (uniconf/wvconfemu.cc:428-434). -/
def getint (c : Emu σ) (s e : Text) (d : Int) : Int :=
  if s = [] ∨ e = [] then d else IntText.getmeint I c.gen (key2 s e) d

/-- `set` (uniconf/wvconfemu.cc:505-516). -/
def set (c : Emu σ) (s e : Text) (v : Option Text) : Emu σ :=
  if e = [] then c
  else
    let v := match v with
      | some (x :: r) => some (x :: r)
      | _ => none
    { c with gen := I.set c.gen (key2 s e) v, dirty := true }

/-- `setint` (uniconf/wvconfemu.cc:498-502); `none` is undefined behaviour in the conversion to text. -/
def setint (c : Emu σ) (s e : Text) (v : Int) : Option (Emu σ) :=
  if e = [] then some c else (IntText.setmeint I c.gen (key2 s e) v).map fun g => { c with gen := g }

/-- `maybeset` (uniconf/wvconfemu.cc:527-532). -/
def maybeset (c : Emu σ) (s e : Text) (v : Option Text) : Emu σ :=
  if e ≠ [] ∧ get I c s e none = none then set I c s e v else c

/-- `maybesetint` (uniconf/wvconfemu.cc:519-524). -/
def maybesetint (c : Emu σ) (s e : Text) (v : Int) : Option (Emu σ) :=
  if e ≠ [] ∧ get I c s e none = none then setint I c s e v else some c

/-- `delete_section` (uniconf/wvconfemu.cc:535-539). -/
def deleteSection (c : Emu σ) (s : Text) : Emu σ := { c with gen := I.set c.gen (Key.parse s) none, dirty := true }

/-- `zap` (uniconf/wvconfemu.cc:255-258). -/
def zap (c : Emu σ) : Emu σ := { c with gen := I.set c.gen [] none }

/-- `flush` (uniconf/wvconfemu.cc:300-304). -/
def flush (c : Emu σ) : Emu σ := { c with gen := I.commit c.gen, dirty := false }

/-- `isclean` (uniconf/wvconfemu.cc:261-264), of an emulation of a UniConf that is not null. -/
def isclean (c : Emu σ) : Bool := !c.dirty

/-- `operator[]` (uniconf/wvconfemu.cc:307-321). -/
def sectionOf (c : Emu σ) (s : Text) : Emu σ × Option Text :=
  if Key.numsegments (Key.parse s) ≠ 1 then (c, none)
  else if s ∈ c.sections then (c, some s)
  else if I.exists c.gen (Key.parse s) then ({ c with sections := s :: c.sections }, some s)
  else (c, none)

/-- `WvConfigSectionEmu::get(entry)` (uniconf/wvconfemu.cc:104-115). -/
def secGet (c : Emu σ) (s e : Text) : Option Text := if e = [] then none else I.get c.gen (key2 s e)

/-- `WvConfigSectionEmu::set` (uniconf/wvconfemu.cc:118-127). -/
def secSet (c : Emu σ) (s e : Text) (v : Text) : Emu σ :=
  if e = [] then c else { c with gen := I.set c.gen (key2 s e) (if v = [] then none else some v) }

/-- "Inherits". -/
def inherits : Text := str ['I', 'n', 'h', 'e', 'r', 'i', 't', 's']

/-- `(*s)["Inherits"] ? (*this)[(*s)["Inherits"]->value] : NULL` (uniconf/wvconfemu.cc:469); `(*s)[...]` is
    uniconf/wvconfemu.cc:83-101. -/
def nextSection (c : Emu σ) (s : Text) : Emu σ × Option Text :=
  if I.exists c.gen (key2 s inherits) then sectionOf I c ((I.get c.gen (key2 s inherits)).getD []) else (c, none)

/-- What a search comes to: a value, no value, or it is not over after so many rounds. -/
inductive Got where
  | value (v : Text)
  | none
  | more
deriving DecidableEq

/-- The inner loop of `fuzzy_get` (uniconf/wvconfemu.cc:467-474). -/
def chain (e : Text) : Nat → Emu σ → List Text → Option Text → Got × Emu σ × List Text
  | 0, c, cache, _ => (.more, c, cache)
  | _ + 1, c, cache, none => (.none, c, cache)
  | n + 1, c, cache, some s =>
    if s ∈ cache then (.none, c, cache)
    else match secGet I c s e with
      | some v => (.value v, c, cache)
      | none =>
        let r := nextSection I c s
        chain e n r.1 (s :: cache) r.2

/-- The outer loop (uniconf/wvconfemu.cc:465-475); each inner loop gets `n` rounds. -/
def fuzzyLoop (e : Text) (n : Nat) : Emu σ → List Text → List Text → Got × Emu σ
  | c, _, [] => (.none, c)
  | c, cache, s :: ss =>
    let f := sectionOf I c s
    match chain I e n f.1 cache f.2 with
    | (.value v, c, _) => (.value v, c)
    | (.none, c, cache) => fuzzyLoop e n c cache ss
    | (.more, c, _) => (.more, c)

/-- `fuzzy_get` (uniconf/wvconfemu.cc:458-478); the result is `none` if it is not over. -/
def fuzzyGet (n : Nat) (c : Emu σ) (ss : List Text) (e : Text) (d : Option Text) : Option (Option Text) × Emu σ :=
  match fuzzyLoop I e n c [] ss with
  | (.value v, c) => (some (some v), c)
  | (.none, c) => (some d, c)
  | (.more, c) => (none, c)

/-- `strncasecmp(s, w, strlen(w)) == 0`. -/
def startsWith (s w : Text) : Bool := w.map tolower == (s.take w.length).map tolower

/-- `check_for_bool_string` (uniconf/wvconfemu.cc:542-556); `none` is undefined behaviour in `atoi`. -/
def checkBool (s : Text) : Option Int :=
  if Key.strcasecmp s (str ['o', 'f', 'f']) = 0 ∨ Key.strcasecmp s (str ['f', 'a', 'l', 's', 'e']) = 0 ∨ startsWith s (str ['n', 'o']) then some 0
  else if Key.strcasecmp s (str ['o', 'n']) = 0 ∨ Key.strcasecmp s (str ['t', 'r', 'u', 'e']) = 0 ∨ Key.strcasecmp s (str ['y', 'e', 's']) = 0 then some 1
  else Num.num s

/-- What `parse_wvconf_request` finds. -/
structure Request where
  error : Int
  sect : Text
  entry : Text
  value : Option Text
deriving DecidableEq

/-- The text after the first `ch`, and before it; `none` if there is none (`strchr`). -/
def cutAt (x : Byte) (t : Text) : Option (Text × Text) :=
  if x ∈ t then some (t.takeWhile (· != x), (t.dropWhile (· != x)).drop 1) else none

/-- `parse_wvconf_request` (uniconf/wvconfemu.cc:34-64); of what is found at an error nothing is used. -/
def parseRequest (r : Text) : Request :=
  match cutAt (ch '[') r with
  | none => ⟨-1, [], [], none⟩
  | some (_, a) =>
    match cutAt (ch ']') a with
    | none => ⟨-2, [], [], none⟩
    | some (s, b) =>
      let f : Text × Option Text := match cutAt (ch '=') b with
        | none => (b, none)
        | some (e, v) => (e, some (trimString v))
      let s := trimString s
      ⟨if s = [] then -3 else 0, s, trimString f.1, f.2⟩

/-- `getraw` (uniconf/wvconfemu.cc:415-425). -/
def getraw (c : Emu σ) (r : Text) : Option Text × Int :=
  let q := parseRequest r
  if q.error ≠ 0 then (none, q.error) else (get I c q.sect q.entry q.value, 0)

/-- `setraw` (uniconf/wvconfemu.cc:481-495). -/
def setraw (c : Emu σ) (r : Text) : Emu σ × Option Text × Int :=
  let q := parseRequest r
  if q.error = 0 then
    let c := set I c q.sect q.entry q.value
    (c, get I c q.sect q.entry q.value, 0)
  else (c, none, q.error)

/-- `load_file` (uniconf/wvconfemu.cc:273-280): `J` is the UniIniGen of the file, in the state `t`; `n` bounds the rounds of
    `UniConf::copy`. -/
def loadFile {τ : Type} (J : IGen τ) (n : Nat) (c : Emu σ) (t : τ) : Emu σ × Bool :=
  let r := Copy.copy (Copy.left J) (Copy.right I) n (t, c.gen) [] [] true
  ({ c with gen := r.1.2 }, r.2)

/-- `notify` (uniconf/wvconfemu.cc:197-216), for the key `k` that changed. -/
def notify (c : Emu σ) (k : Key) : List Call :=
  let s := Key.printable (Key.first k 1)
  let e := Key.printable (Key.removefirst k 1)
  if c.hold then []
  else
    let v := (I.get c.gen (key2 s e)).getD []
    (c.callbacks.filter fun b =>
      (b.sect.getD [] = [] ∨ Key.strcasecmp (b.sect.getD []) s = 0) ∧ (b.key.getD [] = [] ∨ Key.strcasecmp (b.key.getD []) e = 0)).map fun b =>
        ⟨b.cb, s, e, v⟩

/-- `add_callback` (uniconf/wvconfemu.cc:324-354), of a callback that is not null. -/
def addCallback (c : Emu σ) (b : Cb) : Emu σ :=
  if c.callbacks.any fun x => x.cookie == b.cookie && x.sect == b.sect && x.key == b.key then c
  else { c with callbacks := c.callbacks ++ [b] }

/-- `del_callback` (uniconf/wvconfemu.cc:357-375), of a cookie that is not null. -/
def delCallback (c : Emu σ) (s e : Option Text) (cookie : Nat) : Emu σ :=
  { c with callbacks := c.callbacks.filter fun x => !(x.cookie == cookie && x.sect == s && x.key == e) }

end Wv.ConfEmu
