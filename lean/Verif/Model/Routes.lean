import Verif.Spec.Routes
import Verif.Model.Addr
import Verif.Model.Split
import Verif.Model.Uuid
/-
The routes: linuxstreams/wviproute.cc, include/wviproute.h, and `addroute`, `delroute` of linuxstreams/wvinterface.cc as far as they change the routes of the kernel. The commands
`ip route add` and `del` are run and do what the kernel does (Spec/Routes); `del` fails if there is no such route. Not modelled: the log; errors of `ioctl`; a system without the command
`ip`.
-/
namespace Wv.Routes
open Spec.Routes
open Spec.Addr (Addr Net)

abbrev Text := List Byte

/-- A route (include/wviproute.h:17-31). -/
structure Route where
  ifc : Text
  ip : Net
  gw : Addr
  metric : Int
  table : Text
  src : Addr
  deriving DecidableEq

def zero : Addr := ⟨0, 0, 0, 0⟩

/-- The default of `WvStringList::split` (include/wvstringlist.h:51). -/
def blanks : List Byte := [32, 9, 13, 10]

/-- `strtoul(s, NULL, 16)` as an `uint32_t`. -/
def hex (s : Text) : Nat := (Uuid.strtoul16 s).1 % 2 ^ 32

/-- A line of /proc/net/route (linuxstreams/wviproute.cc:71-105): a route, or none. RTF_UP is 1. The outer `none`: `atoi` is undefined. -/
def procRoute (line : Text) : Option (Option Route) :=
  match Split.split blanks 0 line with
  | ifc :: addr :: gate :: flags :: _ :: _ :: metric :: mask :: _ :: _ :: _ =>
    (Num.num metric).map fun m =>
      if hex flags % 2 = 0 then none
      else some ⟨ifc, ⟨Addr.ofMem (hex addr), Addr.ofMem (hex mask)⟩, Addr.ofMem (hex gate), m, defaultTable, zero⟩
  | _ => some none

/-- The variables of the second loop (linuxstreams/wviproute.cc:60-61). -/
structure Vars where
  ifc : Text
  gate : Text
  table : Text
  metric : Int
  src : Text

/-- The loop over pairs of words (linuxstreams/wviproute.cc:135-167). -/
def pairs (v : Vars) : List Text → Option Vars
  | w1 :: w2 :: r =>
    if w1 = str ['t', 'a', 'b', 'l', 'e'] then
      if w2 = str ['l', 'o', 'c', 'a', 'l'] then some v else pairs { v with table := w2 } r
    else if w1 = str ['d', 'e', 'v'] then pairs { v with ifc := w2 } r
    else if w1 = str ['v', 'i', 'a'] then pairs { v with gate := w2 } r
    else if w1 = str ['m', 'e', 't', 'r', 'i', 'c'] then (Num.num w2).bind fun m => pairs { v with metric := m } r
    else if w1 = str ['s', 'r', 'c'] then pairs { v with src := w2 } r
    else pairs v r
  | _ => some v

/-- A line of `ip route list table all` (linuxstreams/wviproute.cc:115-186), with what `src` is from the lines before: what it is then, and a route, or none. -/
def ipRoute (src : Text) (line : Text) : Option (Text × Option Route) :=
  match Split.split blanks 0 line with
  | w :: r =>
    if r.length < 2 then some (src, none)
    else if w = str ['b', 'r', 'o', 'a', 'd', 'c', 'a', 's', 't'] ∨ w = str ['l', 'o', 'c', 'a', 'l'] then some (src, none)
    else
      (Addr.netParse (if w = defaultTable then str ['0', '/', '0'] else w)).bind fun net =>
      (pairs ⟨[], [], [], 0, src⟩ r).map fun v =>
        if v.table = [] then (v.src, none)
        else if v.ifc = [] then (v.src, none)
        else (v.src, some ⟨v.ifc, net, if v.gate = [] then zero else Addr.parse v.gate, v.metric, v.table, if v.src = [] then zero else Addr.parse v.src⟩)
  | [] => some (src, none)

/-- The lines of /proc/net/route (linuxstreams/wviproute.cc:69-106), after the first. -/
def procRoutes : List Text → Option (List Route)
  | [] => some []
  | l :: ls => (procRoute l).bind fun r => (procRoutes ls).map fun rs => r.toList ++ rs

/-- The lines of the command (linuxstreams/wviproute.cc:112-188). -/
def ipRoutes (src : Text) : List Text → Option (List Route)
  | [] => some []
  | l :: ls => (ipRoute src l).bind fun r => (ipRoutes r.1 ls).map fun rs => r.2.toList ++ rs

/-- `get_kernel` (linuxstreams/wviproute.cc:58-189), from the lines of the file and of the command. -/
def getKernel (file command : List Text) : Option (List Route) :=
  (procRoutes (file.drop 1)).bind fun a => (ipRoutes [] command).map fun b => a ++ b

/-- `WvIPRoute::operator==` (linuxstreams/wviproute.cc:38-45). -/
def eq (r s : Route) : Bool :=
  Addr.network r.ip == Addr.network s.ip && r.ip.mask == s.ip.mask && r.gw == s.gw && r.ifc == s.ifc && r.metric == s.metric && r.table == s.table

/-- `realtable` (linuxstreams/wviproute.cc:192-198). -/
def realtable (r : Route) : Text := if !Addr.isDefault r.ip && r.table == defaultTable then mainTable else r.table

inductive Cmd where
  | del (r : Route)
  | add (r : Route)
  deriving DecidableEq

/-- `set_kernel` (linuxstreams/wviproute.cc:202-249): what it deletes, then what it adds. -/
def setKernel (old new : List Route) : List Cmd :=
  ((old.filter fun o => o.metric ≠ 99 ∧ ¬ new.any fun n => eq n o).map .del) ++ ((new.filter fun n => ¬ old.any fun o => eq o n).map .add)

/-- The route of the kernel that a command names: of this table. -/
def named (r : Route) : Row := ⟨r.ifc, Addr.network r.ip, r.ip.mask, r.gw, r.metric, realtable r⟩

/-- `delroute` (linuxstreams/wvinterface.cc:474-520): with the command, unless the table is "default" and it is not a default route; then, and if it fails, with `ioctl`, which works on
    the main table. -/
def delroute (kernel : List Row) (isdef : Bool) (k : Row) : List Row :=
  if (isdef || k.table != defaultTable) && kernel.contains k then del kernel k else del kernel { k with table := mainTable }

/-- `addroute` (linuxstreams/wvinterface.cc:445-464, 363-443): if there is a gateway, a route to it is added before and deleted after. The command is run, except for "default" and not
    a default route. -/
def addroute (kernel : List Row) (isdef : Bool) (k : Row) : List Row :=
  let k' := if isdef || k.table != defaultTable then k else { k with table := mainTable }
  let extra : Row := ⟨k.ifc, k.gw, ⟨255, 255, 255, 255⟩, zero, 255, defaultTable⟩
  if k.gw = zero then add kernel k'
  else delroute (add (add kernel { extra with table := mainTable }) k') false extra

def exec (kernel : List Row) : Cmd → List Row
  | .del r => delroute kernel (Addr.isDefault r.ip) (named r)
  | .add r => addroute kernel (Addr.isDefault r.ip) (named r)

/-- `find` (linuxstreams/wviproute.cc:252-263): an address becomes a network with a mask of 32 bits (include/wvaddr.h:336). -/
def find (l : List Route) (a : Addr) : Option Route := l.find? fun r => Addr.includes r.ip ⟨a, ⟨255, 255, 255, 255⟩⟩

end Wv.Routes
