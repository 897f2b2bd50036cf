import Verif.Model.Key
import Verif.Model.Log
/-!
`WvConf` (configfile/wvconf.cc, configfile/cfgsection.cc, configfile/cfgentry.cc).

Strings have no NUL in them, and are not NULL where the code does not look for it. Callbacks do not use the configuration while they
run: they are written down in `calls`.
-/
namespace Wv.ConfFile

abbrev Text := List Byte

/-- `WvConfigEntry` (include/wvconf.h:35-47). -/
structure Entry where
  name : Text
  value : Text
deriving DecidableEq

/-- `WvConfigSection` (include/wvconf.h:53-71). -/
structure Section where
  name : Text
  entries : List Entry
deriving DecidableEq

/-- `WvConfCallbackInfo` (include/wvconf.h:78-90); NULL is as good as "" for the section and the entry. -/
structure Cb where
  sect : Text
  entry : Text
  cookie : Nat
deriving DecidableEq

/-- A call of a callback: its cookie, and the parameters. -/
structure Call where
  cookie : Nat
  sect : Text
  entry : Text
  old : Text
  new : Text
deriving DecidableEq

/-- `WvConf` (include/wvconf.h:104-261). -/
structure Conf where
  sections : List Section
  global : List Entry
  dirty : Bool
  error : Bool
  loadedOnce : Bool
  callbacks : List Cb
  calls : List Call
deriving DecidableEq

/-- `strcasecmp(a, b) == 0`. -/
def ci (a b : Text) : Bool := Key.strcasecmp a b == 0

/-- `WvConfigSection::operator[]` and `get` (configfile/cfgsection.cc:26-44). -/
def entGet (es : List Entry) (e : Text) : Option Text := (es.find? fun x => ci x.name e).map (·.value)

/-- `e->set(value)` for the first entry of that name (configfile/cfgsection.cc:61-62). -/
def replace (e v : Text) : List Entry → List Entry
  | [] => []
  | x :: es => if ci x.name e then { x with value := v } :: es else x :: replace e v es

/-- `WvConfigSection::set` (configfile/cfgsection.cc:47-65). -/
def entSet (es : List Entry) (entry v : Text) : List Entry :=
  let clean := trimString entry
  if v = [] then es.eraseP fun x => ci x.name clean
  else if es.any fun x => ci x.name clean then replace clean v es
  else es ++ [⟨clean, v⟩]

/-- `WvConfigSection::quick_set` (configfile/cfgsection.cc:68-73). -/
def quickSet (es : List Entry) (entry v : Text) : List Entry := es ++ [⟨trimString entry, v⟩]

/-- `WvConf::operator[]` (configfile/wvconf.cc:413-425). -/
def find (c : Conf) (s : Text) : Option Section := c.sections.find? fun x => ci x.name s

/-- `cfg[section]->get(entry)`: the value of an entry in a section itself. -/
def val (c : Conf) (s e : Text) : Option Text := (find c s).bind fun x => entGet x.entries e

/-- "Inherits". -/
def inherits : Text := str ['I', 'n', 'h', 'e', 'r', 'i', 't', 's']

/-- The section from which a section inherits (configfile/wvconf.cc:278). -/
def next (c : Conf) (s : Section) : Option Section := (entGet s.entries inherits).bind (find c)

/-- The loop of `get` (configfile/wvconf.cc:276-283): the value, and the names in `cache`. The loop ends as no section is seen twice;
    the number is more than there are sections. -/
def getLoop (c : Conf) (e : Text) : Nat → List Text → Option Section → Option Text × List Text
  | 0, cache, _ => (none, cache)
  | _ + 1, cache, none => (none, cache)
  | n + 1, cache, some s =>
    if cache.contains s.name then (none, cache)
    else match entGet s.entries e with
      | some v => (some v, cache)
      | none => getLoop c e n (s.name :: cache) (next c s)

/-- `WvConf::get` (configfile/wvconf.cc:270-286). -/
def get (c : Conf) (s e : Text) (d : Option Text) : Option Text :=
  match (getLoop c e (c.sections.length + 1) [] (find c s)).1 with
  | some v => some v
  | none => (entGet c.global e).or d

/-- `fuzzy_get` for one entry (configfile/wvconf.cc:331-351): one `cache` for all sections. -/
def fuzzyGet1 (c : Conf) (e : Text) (d : Option Text) : List Text → List Text → Option Text
  | _, [] => d
  | cache, s :: ss =>
    match getLoop c e (c.sections.length + 1) cache (find c s) with
    | (some v, _) => some v
    | (none, cache) => fuzzyGet1 c e d cache ss

/-- `fuzzy_get` for several entries (configfile/wvconf.cc:305-328). -/
def fuzzyGet (c : Conf) (d : Option Text) : List Text → List (Text × Text) → Option Text
  | _, [] => d
  | cache, (s, e) :: r =>
    match getLoop c e (c.sections.length + 1) cache (find c s) with
    | (some v, _) => some v
    | (none, cache) => fuzzyGet c d cache r

/-- `run_callbacks` (configfile/wvconf.cc:564-578). -/
def runCallbacks (c : Conf) (s e old new : Text) : Conf :=
  { c with calls := c.calls ++ (c.callbacks.filter fun b => (b.sect = [] || ci b.sect s) && (b.entry = [] || ci b.entry e)).map fun b =>
      ⟨b.cookie, s, e, old, new⟩ }

/-- `run_all_callbacks` (configfile/wvconf.cc:581-587). -/
def runAllCallbacks (c : Conf) : Conf := { c with calls := c.calls ++ c.callbacks.map fun b => ⟨b.cookie, [], [], [], []⟩ }

/-- Change the first section of that name. -/
def onSection (s : Text) (f : List Entry → List Entry) : List Section → List Section
  | [] => []
  | x :: l => if ci x.name s then { x with entries := f x.entries } :: l else x :: onSection s f l

/-- `WvConf::set` (configfile/wvconf.cc:354-382). -/
def set (c : Conf) (s e : Text) (v : Option Text) : Conf :=
  if find c s = none ∧ (v = none ∨ v = some []) then c
  else
    let c := if find c s = none then { c with sections := c.sections ++ [⟨s, []⟩] } else c
    let old := ((find c s).bind fun x => entGet x.entries e).getD []
    let v := v.getD []
    if old ≠ v then
      let c := runCallbacks c s e old v
      { c with sections := onSection s (fun es => entSet es e v) c.sections, dirty := true }
    else c

/-- `maybeset` (configfile/wvconf.cc:405-410). -/
def maybeset (c : Conf) (s e : Text) (v : Option Text) : Conf := if v ≠ none ∧ get c s e none = none then set c s e v else c

/-- `delete_section` (configfile/wvconf.cc:428-436). -/
def deleteSection (c : Conf) (s : Text) : Conf :=
  if find c s = none then c else { c with sections := c.sections.eraseP fun x => ci x.name s, dirty := true }

/-- `add_callback` and `del_callback` (configfile/wvconf.cc:539-561): section and entry are compared with `==`. -/
def addCallback (c : Conf) (b : Cb) : Conf := { c with callbacks := c.callbacks ++ [b] }
def delCallback (c : Conf) (b : Cb) : Conf := { c with callbacks := c.callbacks.erase b }

/-- `strchr`: what is before and after the first `b`. -/
def cut (b : Byte) : Text → Option (Text × Text)
  | [] => none
  | c :: t => if c = b then some ([], t) else (cut b t).map fun r => (c :: r.1, r.2)

/-- `parse_section` (configfile/wvconf.cc:439-452). -/
def parseSection (l : Text) : Option Text :=
  match l with
  | [] => none
  | c :: t => if c ≠ ch '[' then none
    else match cut (ch ']') t with
      | some (n, []) => some (trimString n)
      | _ => none

/-- `parse_value` (configfile/wvconf.cc:455-466), and what is left of the line. -/
def parseValue (l : Text) : Text × Option Text :=
  match cut (ch '=') l with
  | some (n, v) => (n, some (trimString v))
  | none => (l, none)

/-- The lines that `getline` gives; the last need not end with a newline. -/
def linesGo (acc : Text) : Text → List Text
  | [] => if acc = [] then [] else [acc]
  | c :: t => if c = 10 then acc :: linesGo [] t else linesGo (acc ++ [c]) t
def lines (t : Text) : List Text := linesGo [] t

/-- The state of the loop of `load_file`: `cur` is the place of the section, `none` for the global section. -/
structure Load where
  sections : List Section
  global : List Entry
  cur : Option Nat
  quick : Bool

/-- Change an entry of the current section. -/
def Load.put (l : Load) (f : List Entry → List Entry) : Load :=
  match l.cur with
  | none => { l with global := f l.global }
  | some i => { l with sections := l.sections.modify i fun s => { s with entries := f s.entries } }

/-- One line of `load_file` (configfile/wvconf.cc:216-253). -/
def loadLine (l : Load) (line : Text) : Load :=
  let t := trimString line
  match parseSection t with
  | some [] => { l with cur := none, quick := false }
  | some p => match l.sections.findIdx? fun x => ci x.name p with
    | some i => { l with cur := some i, quick := false }
    | none => { l with sections := l.sections ++ [⟨p, []⟩], cur := some l.sections.length, quick := true }
  | none =>
    let r := parseValue t
    let name := trimString r.1
    if name = [] then l
    else if l.quick then l.put fun es => quickSet es name (r.2.getD []) else l.put fun es => entSet es name (r.2.getD [])

/-- The loop of `load_file` (configfile/wvconf.cc:216-253). -/
def loadText (ss : List Section) (g : List Entry) (t : Text) : Load := (lines t).foldl loadLine ⟨ss, g, none, false⟩

/-- The file: its directory can not be there, it can not be there, can not be read, or is there, with or without the sticky bit. -/
inductive File where
  | nodir
  | missing
  | unreadable
  | there (sticky : Bool) (t : Text)
deriving DecidableEq

/-- `load_file` (configfile/wvconf.cc:177-258). -/
def loadFile (c : Conf) : File → Conf
  | .nodir => c
  | .missing => c
  | .there false t =>
    let l := loadText c.sections c.global t
    { runAllCallbacks { c with sections := l.sections, global := l.global } with loadedOnce := true }
  | _ => if c.loadedOnce then c else { c with error := true }

/-- The constructor (configfile/wvconf.cc:56-63). -/
def new (f : File) : Conf := loadFile ⟨[], [], false, false, false, [], []⟩ f

/-- `WvConfigSection::dump` (configfile/cfgsection.cc:76-88). -/
def dump (es : List Entry) : Text := es.flatMap fun e =>
  if e.value ≠ [] then e.name ++ str [' ', '=', ' '] ++ e.value ++ [10] else e.name ++ str [' ', '='] ++ [10]

/-- What `save` writes (configfile/wvconf.cc:501-509). -/
def saveText (c : Conf) : Text := dump c.global ++ c.sections.flatMap fun s => 10 :: ch '[' :: s.name ++ str [']'] ++ [10] ++ dump s.entries

/-- What `save` does to a file that can be written (configfile/wvconf.cc:474-516), as the states of the file one after the other:
    opened and truncated; with the sticky bit; with more and more of the text; with the mode it had. -/
def saveSteps (c : Conf) (f : File) : List File :=
  let old := match f with
    | .there sticky _ => sticky
    | _ => false
  .there old [] :: ((List.range ((saveText c).length + 1)).map fun n => .there true ((saveText c).take n)) ++ [.there old (saveText c)]

/-- `save` (configfile/wvconf.cc:469-523), to the file that was loaded. A file that can not be read can not be written.
    If there is no directory, the error is ENOENT, and `error` is not set. Writing itself does not fail: the code does not look. -/
def save (c : Conf) (f : File) : Conf × File :=
  if c.error then (c, f)
  else match f with
    | .nodir => (c, f)
    | .unreadable => ({ c with error := true }, f)
    | _ => (c, (saveSteps c f).getLast?.getD f)

/-- `flush` (configfile/wvconf.cc:527-536). -/
def flush (c : Conf) (f : File) : Conf × File :=
  if !c.dirty || c.error then (c, f)
  else
    let r := save c f
    ({ r.1 with dirty := false }, r.2)

end Wv.ConfFile
