import Verif.Spec.Args
/-
Model of WvArgs: utils/wvargs.cc. argp of the C library is modelled as far as needed: it is given the table of options; the uses of options on
the command line come in their order with their arguments, then the other arguments; short names are looked for in the table, first match,
and so are long names (in full); the parser is called with the key of the entry. argp's own options (--help, --usage, --version) and
abbreviations are left out, and so are options with float and double arguments and the texts for --help.
-/
namespace Wv.Args
open Wv
open Spec.Args (Text Vars upd Kind Use)

/-- WvArgsOption and its subclasses (utils/wvargs.cc:22-47, 113-529). `desc`: there is a description of the argument. -/
structure Opt where
  id : Nat
  short : Int
  long : Option Text
  kind : Kind
  desc : Bool

/-- An entry of the table for argp. -/
structure Entry where
  name : Option Text
  key : Int
  arg : Bool

/-- WvArgsData (utils/wvargs.cc:53-104). `opts` is `options_list`. `dict` is `options_dict`: the options by number, each with the key it was
    filed under. `table` is `argp_`, as argp sees it. -/
structure St where
  opts : List Opt
  nextId : Nat
  dict : List (Int × Nat)
  nokey : Int
  table : Option (List Entry)
  index : Nat
  args : List (Option Text)
  required : Nat
  maximum : Nat
  noexit : Bool

/-- The constructor (utils/wvargs.cc:532-536). -/
def new (noexit : Bool) : St := ⟨[], 0, [], -1, none, 0, [], 0, 0, noexit⟩

inductive Found where
  | undef
  | missing
  | found (o : Opt)

/-- Looking up a key: of what is filed under it, the first whose key it is now. An option that was deleted is undefined behaviour to look
    at. (That an option filed under another key is met by chance is left out.) -/
def find (opts : List Opt) (k : Int) : List (Int × Nat) → Found
  | [] => .missing
  | (f, id) :: l =>
    if f = k then
      match opts.find? (fun o => o.id = id) with
      | none => .undef
      | some o => if o.short = k then .found o else find opts k l
    else find opts k l

/-- `options_dict.remove(ptr)`: what the key of the option finds. -/
def dictRemove (st : St) (o : Opt) : Option St :=
  match find st.opts o.short st.dict with
  | .undef => none
  | .missing => some st
  | .found p => some { st with dict := st.dict.erase (p.short, p.id) }

/-- `add` (utils/wvargs.cc:558-568). -/
def add (st : St) (short : Int) (long : Option Text) (kind : Kind) (desc : Bool) : St :=
  let key := if short = 0 then st.nokey else short
  { st with
    opts := st.opts ++ [⟨st.nextId, key, long, kind, desc⟩], nextId := st.nextId + 1, dict := st.dict ++ [(key, st.nextId)],
    nokey := if short = 0 then st.nokey - 1 else st.nokey }

def update (st : St) (o : Opt) : St := { st with opts := st.opts.map fun p => if p.id = o.id then o else p }

/-- The body of the loop of `remove` (utils/wvargs.cc:580-612). -/
def removeStep (short : Int) (long : Option Text) (st : St) (o : Opt) : Option St :=
  let ms := short ≠ 0 ∧ o.short = short
  let ml := long.isSome ∧ o.long = long
  if (ms ∧ ml) ∨ (ms ∧ o.long.isNone) ∨ (ml ∧ o.short = 0) then
    (dictRemove st o).map fun st => { st with opts := st.opts.filter (fun p => p.id ≠ o.id), table := none }
  else if ms then
    let o' := { o with short := 0 }
    (dictRemove (update st o') o').map fun st => { st with dict := st.dict ++ [(0, o.id)] }
  else if ml then some (update st { o with long := none })
  else some st

/-- `remove` (utils/wvargs.cc:573-614). -/
def remove (st : St) (short : Int) (long : Option Text) : Option St :=
  st.opts.foldlM (removeStep short long) st

/-- A `char` as an `int`. -/
def charInt (c : Byte) : Int := if c.toNat < 128 then c.toNat else c.toNat - 256

/-- `add_option` and its companions (utils/wvargs.cc:856-945): a name that was there before is removed. -/
def addOption (st : St) (short : Byte) (long : Option Text) (kind : Kind) (desc : Bool) : Option St :=
  (remove st (charInt short) long).map fun st => add st (charInt short) long kind desc

/-- `remove_option` (utils/wvargs.cc:948-957). -/
def removeShort (st : St) (c : Byte) : Option St := remove st (charInt c) none
def removeLong (st : St) (n : Text) : Option St := remove st 0 (some n)

/-- `add_required_arg`, `add_optional_arg` (utils/wvargs.cc:966-987, 709-718); LONG_MAX is 2^63 - 1. -/
def addArg (st : St) (required multiple : Bool) : St :=
  { st with
    required := if required then st.required + 1 else st.required + 1 - 1,
    maximum := if multiple then 9223372036854775807 else if st.maximum < 9223372036854775807 then st.maximum + 1 else st.maximum }

/-- Whether an option takes an argument (utils/wvargs.cc:107-110, 266-269): one whose argument has no description does not, for argp. -/
def entry (o : Opt) : Entry := ⟨o.long, o.short, Spec.Args.takes o.kind && o.desc⟩

/-- The additions of `argp_build` (utils/wvargs.cc:632-706): the memory grows at most once for each. `false`: behind the end. -/
def room (index size : Nat) : Nat → Bool
  | 0 => true
  | n + 1 =>
    let size := if size - 1 ≤ index then 2 * size else size
    decide (index + 1 < size) && room (index + 1) size n

/-- `argp_build` (utils/wvargs.cc:644-652). `argp_index` is where it was left: what is added there argp does not see, since the first entry
    of the new table ends it. -/
def build (st : St) : Option St :=
  match st.table with
  | some _ => some st
  | none =>
    let n := st.opts.length
    if room st.index (n + 2) n then
      some { st with table := some (if st.index = 0 then st.opts.map entry else []), index := st.index + n }
    else none

/-- `strtol(s, &end, 10)`: the value as far as it fits, whether it did not fit, what is left. -/
def strtol (s : Text) : Int × Bool × Text :=
  let t := s.dropWhile isspace
  let r := match t with
    | c :: r => if c = ch '-' ∨ c = ch '+' then r else t
    | [] => []
  let neg : Bool := match t with
    | c :: _ => c = ch '-'
    | [] => false
  let ds := r.takeWhile isdigit
  if ds = [] then (0, false, s)
  else
    let n : Nat := ds.foldl (fun n c => n * 10 + (c.toNat - 48)) 0
    let v : Int := if neg then -n else n
    if v < -9223372036854775808 then (-9223372036854775808, true, r.dropWhile isdigit)
    else if 9223372036854775807 < v then (9223372036854775807, true, r.dropWhile isdigit)
    else (v, false, r.dropWhile isdigit)

/-- What a call leads to: the program ends, undefined behaviour, or it goes on with a result. -/
inductive Out (α : Type) where
  | go (a : α)
  | exit
  | undef

/-- `process` of the options (utils/wvargs.cc:140-529); `false`: an error message is returned. -/
def act (k : Kind) (arg : Option Text) (s : Vars) : Out (Vars × Bool) :=
  match k with
  | .set v => .go ({ s with bools := upd s.bools v true }, true)
  | .reset v => .go ({ s with bools := upd s.bools v false }, true)
  | .flip v => .go ({ s with bools := upd s.bools v (!s.bools v) }, true)
  | .call0 v ok => .go ({ s with lists := upd s.lists v (s.lists v ++ [[]]) }, ok)
  | .int v =>
    match arg with
    | none => .undef
    | some t =>
      let r := strtol t
      if r.2.1 ∨ r.1 > 2147483647 ∨ r.1 < -2147483648 then .go (s, false)
      else if r.2.2 ≠ [] then .go (s, false)
      else .go ({ s with ints := upd s.ints v r.1 }, true)
  | .long v =>
    match arg with
    | none => .undef
    | some t =>
      let r := strtol t
      if r.2.1 then .go (s, false)
      else if r.2.2 ≠ [] then .go (s, false)
      else .go ({ s with ints := upd s.ints v r.1 }, true)
  | .string v => .go ({ s with strs := upd s.strs v arg }, true)
  | .list v => .go ({ s with lists := upd s.lists v (s.lists v ++ [arg.getD []]) }, true)
  | .call1 v ok => .go ({ s with lists := upd s.lists v (s.lists v ++ [arg.getD []]) }, ok (arg.getD []))

/-- `argp_usage` and what follows when the program may not be ended. -/
def usage {α : Type} (st : St) (a : α) : Out α := if st.noexit then .go a else .exit

/-- `parser` for the key of an option (utils/wvargs.cc:727-770). 0 is the key for other arguments. -/
def parser (st : St) (s : Vars) (key : Int) (arg : Option Text) : Out (St × Vars × Bool) :=
  if key = 0 then
    let a := ({ st with args := st.args ++ [arg] }, s, true)
    if 0 ≥ st.maximum then usage st a else .go a
  else
    match find st.opts key st.dict with
    | .undef => .undef
    | .missing => usage st (st, s, false)
    | .found o =>
      match act o.kind arg s with
      | .go (s, true) => .go (st, s, true)
      | .go (s, false) => usage st (st, s, false)
      | .exit => .exit
      | .undef => .undef

/-- The entry of the table argp finds for a use. A key is a short name only if it is positive. -/
def lookup (t : List Entry) : Use → Option Entry
  | .short c _ => t.find? fun e => 0 < e.key ∧ e.key = charInt c
  | .long n _ => t.find? fun e => e.name = some n

/-- argp with the options: an unknown option, a missing argument and one too many are errors. -/
def options (t : List Entry) (st : St) (s : Vars) : List Use → Out (St × Vars × Bool)
  | [] => .go (st, s, true)
  | u :: us =>
    match lookup t u with
    | none => usage st (st, s, false)
    | some e =>
      if e.arg = u.arg.isSome then
        match parser st s e.key u.arg with
        | .go (st, s, true) => options t st s us
        | o => o
      else usage st (st, s, false)

/-- argp with the other arguments (utils/wvargs.cc:733-740); `n` came before. -/
def others (st : St) (n : Nat) : List Text → Out St
  | [] => .go st
  | a :: l =>
    if n ≥ st.maximum then
      if st.noexit then others { st with args := st.args ++ [some a] } (n + 1) l else .exit
    else others { st with args := st.args ++ [some a] } (n + 1) l

/-- `process` (utils/wvargs.cc:784-815): the result, and the arguments in `args`. -/
def process (st : St) (s : Vars) (us : List Use) (pos : List Text) : Out (St × Vars × Bool) :=
  match build st with
  | none => .undef
  | some st =>
    match options (st.table.getD []) st s us with
    | .go (st, s, true) =>
      match others st 0 pos with
      | .go st => if pos.length < st.required then usage st (st, s, true) else .go (st, s, true)
      | .exit => .exit
      | .undef => .undef
    | o => o

end Wv.Args
