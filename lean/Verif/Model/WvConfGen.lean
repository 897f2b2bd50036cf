import Verif.Spec.WvConfGen
import Verif.Model.ConfFile
/-!
`UniWvConfGen` (uniconf/uniwvconfgen.cc): a UniConf generator on a `WvConf`. Its state is that of the `WvConf`, as modelled for C72.
-/
namespace Wv.WvConfGen
open Wv.ConfFile (Conf Text)

/-- `key.first()`, as a string (uniconf/uniwvconfgen.cc:72, 78). -/
def sect (k : Key) : Text := Key.printable (Key.first k 1)
/-- `key.last(key.numsegments() - 1)`, as a string (uniconf/uniwvconfgen.cc:72, 79). -/
def entry (k : Key) : Text := Key.printable (Key.last k (Key.numsegments k - 1))

/-- The callback that the constructor registers (uniconf/uniwvconfgen.cc:52-57). -/
def own : ConfFile.Cb := ⟨[], [], 0⟩

/-- The constructor, of a `WvConf` with this file. -/
def make (f : ConfFile.File) : Conf := ConfFile.addCallback (ConfFile.new f) own

/-- `get` (uniconf/uniwvconfgen.cc:67-73); `temp`: `tempkey` and `tempvalue`, while a notification is under way. -/
def get (c : Conf) (temp : Option (Key × Text)) (k : Key) : Option Text :=
  match temp with
  | some (tk, tv) => if Key.eq k tk then some tv else ConfFile.get c (sect k) (entry k) none
  | none => ConfFile.get c (sect k) (entry k) none

/-- `set` (uniconf/uniwvconfgen.cc:76-86). -/
def set (c : Conf) (k : Key) (v : Option Text) : Conf :=
  if v = none ∧ ConfFile.find c (sect k) ≠ none then ConfFile.deleteSection c (Key.printable k)
  else ConfFile.set c (sect k) (entry k) v

/-- `notify` (uniconf/uniwvconfgen.cc:39-49): what is told for a call of the callback. -/
def notify (x : ConfFile.Call) : Key × Text := (Key.join (Key.parse x.sect) (Key.parse x.entry), x.new)

/-- All that was told. -/
def told (c : Conf) : List (Key × Text) := (c.calls.filter fun x => x.cookie == 0).map notify

/-- `haschildren` (uniconf/uniwvconfgen.cc:95-101). -/
def haschildren (c : Conf) (k : Key) : Bool := (ConfFile.find c (Key.printable k)).isSome

/-- What `iterator` gives (uniconf/uniwvconfgen.cc:104-112, 118-145): no iterator is as good as an empty one. -/
def iter (c : Conf) (k : Key) : List (Key × Text) :=
  match ConfFile.find c (Key.printable k) with
  | some s => s.entries.map fun e => (Key.parse e.name, e.value)
  | none => []

end Wv.WvConfGen
