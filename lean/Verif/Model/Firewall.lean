import Verif.Spec.Firewall
import Verif.Model.Addr
/-
The firewall: linuxstreams/wvipfirewall.cc, include/wvipfirewall.h. Several objects share the rules of the kernel. What `system` runs are the lines of a command, with -A or -D and the
redirection of `shutup()` put in. Not modelled: the log; what the shell makes of the name of a protocol with special characters.
-/
namespace Wv.Firewall
open Spec.Firewall
open Wv.Addr (Port)
open Spec.Addr (Addr)

abbrev Text := List Byte

def text (l : List Char) : Text := l.map ch

/-- A number in a command. -/
def num (n : Int) : Text := (Num.ofSigned 32 n).getD []

/-- `ad == none ? WvString("") : WvString("-d %s", ad)` (linuxstreams/wvipfirewall.cc:38, 54, 120). -/
def dest (a : Addr) : Text := if a = ⟨0, 0, 0, 0⟩ then [] else text ['-', 'd', ' '] ++ Addr.printable a

def iptables : Text := text ['i', 'p', 't', 'a', 'b', 'l', 'e', 's', ' ']
def nat : Text := iptables ++ text ['-', 't', ' ', 'n', 'a', 't', ' ']
def mangle : Text := iptables ++ text ['-', 't', ' ', 'm', 'a', 'n', 'g', 'l', 'e', ' ']
def dport : Text := text [' ', '-', '-', 'd', 'p', 'o', 'r', 't', ' ']
def accept : Text := text [' ', '-', 'j', ' ', 'A', 'C', 'C', 'E', 'P', 'T', ' ']
def services : Text := text [' ', 'S', 'e', 'r', 'v', 'i', 'c', 'e', 's']
def tproxy : Text := text [' ', 'T', 'P', 'r', 'o', 'x', 'y', ' ', '-', 'p', ' ', 't', 'c', 'p', ' ']
def toPorts : Text := text [' ', '-', 'j', ' ', 'R', 'E', 'D', 'I', 'R', 'E', 'C', 'T', ' ', '-', '-', 't', 'o', '-', 'p', 'o', 'r', 't', 's', ' ']
def proto : Text := text ['-', 'p', ' ']
def tcp : Text := text ['t', 'c', 'p']
def udp : Text := text ['u', 'd', 'p']

/-- `port_command` (linuxstreams/wvipfirewall.cc:29-41). -/
def portLine (pr : Text) (a : Port) : Line := ⟨iptables, services ++ accept ++ proto ++ pr ++ ch ' ' :: dest a.addr ++ dport ++ num a.port⟩

/-- `redir_command` (linuxstreams/wvipfirewall.cc:44-57). -/
def redirLine (src : Port) (dst : Int) : Line := ⟨nat, tproxy ++ dest src.addr ++ dport ++ num src.port ++ toPorts ++ num dst⟩

/-- `redir_port_range_command` (linuxstreams/wvipfirewall.cc:110-125). -/
def rangeLine (lo hi : Port) (dst : Int) : Line :=
  ⟨nat, tproxy ++ dest lo.addr ++ dport ++ (if lo.port = 0 then [] else num lo.port) ++ ch ':' :: (if hi.port = 0 then [] else num hi.port) ++ toPorts ++ num dst⟩

/-- `redir_all_command` (linuxstreams/wvipfirewall.cc:127-136). -/
def redirAllLine (dst : Int) : Line := ⟨nat, tproxy ++ toPorts ++ num dst⟩

/-- `proto_command` (linuxstreams/wvipfirewall.cc:138-143). -/
def protoLine (p : Text) : Line := ⟨iptables, services ++ ch ' ' :: proto ++ p ++ accept⟩

/-- The mark (linuxstreams/wvipfirewall.cc:100, 105). -/
def mark (snat : Bool) : Text := if snat then text ['0', 'x', 'F', 'A', '5', '8'] else text ['0', 'x', 'F', 'A', '5', '7']

/-- `forward_command` (linuxstreams/wvipfirewall.cc:59-108): three lines. `dst == WvIPAddr(...)` compares the addresses only. -/
def fwdLines (pr : Text) (src dst : Port) (snat : Bool) : List Line :=
  let chain := text [' ', 'F', 'A', 'S', 'T', 'F', 'O', 'R', 'W', 'A', 'R', 'D', ' ', '-', 'p', ' '] ++ pr ++ dport ++ num src.port
  let here := dst.addr = ⟨127, 0, 0, 1⟩ ∨ dst.addr = ⟨0, 0, 0, 0⟩
  [⟨nat, chain ++ ch ' ' :: dest src.addr ++
      (if here then text [' ', '-', 'j', ' ', 'R', 'E', 'D', 'I', 'R', 'E', 'C', 'T', ' ', '-', '-', 't', 'o', '-', 'p', 'o', 'r', 't', ' '] ++ num dst.port
       else text [' ', '-', 'j', ' ', 'D', 'N', 'A', 'T', ' ', '-', '-', 't', 'o', '-', 'd', 'e', 's', 't', 'i', 'n', 'a', 't', 'i', 'o', 'n', ' '] ++ Addr.portPrintable dst)⟩,
   ⟨mangle, chain ++ text [' ', '-', 'j', ' ', 'M', 'A', 'R', 'K', ' ', '-', '-', 's', 'e', 't', '-', 'm', 'a', 'r', 'k', ' '] ++ mark snat ++ ch ' ' :: dest src.addr⟩,
   ⟨iptables, text [' ', 'F', 'F', 'A', 'S', 'T', 'F', 'O', 'R', 'W', 'A', 'R', 'D'] ++ accept ++ proto ++ pr ++ dport ++ num dst.port ++
      text [' ', '-', 'm', ' ', 'm', 'a', 'r', 'k', ' ', '-', '-', 'm', 'a', 'r', 'k', ' '] ++ mark snat ++ ch ' ' ::
      (if here then [] else text ['-', 'd', ' '] ++ Addr.printable dst.addr)⟩]

/-- What can be added (include/wvipfirewall.h:50-97). -/
inductive Entry where
  | port (a : Port)
  | fwd (src dst : Port) (snat : Bool)
  | redir (src : Port) (dst : Int)
  | redirAll (dst : Int)
  | range (lo hi : Port) (dst : Int)
  | proto (p : Text)
  deriving DecidableEq

/-- The lines that are run for it (linuxstreams/wvipfirewall.cc:149-150, 183-184, 220, 242, 265, 290). -/
def Entry.lines : Entry → List Line
  | .port a => [portLine tcp a, portLine udp a]
  | .fwd s d n => fwdLines tcp s d n ++ fwdLines udp s d n
  | .redir s d => [redirLine s d]
  | .redirAll d => [redirAllLine d]
  | .range l h d => [rangeLine l h d]
  | .proto p => [protoLine p]

/-- The object: a list for each kind (include/wvipfirewall.h:98-109). -/
structure Fw where
  addrs : List Port
  ffwds : List (Port × Port × Bool)
  redirs : List (Port × Int)
  redirAlls : List Int
  ranges : List (Port × Port × Int)
  protos : List Text

def Fw.new : Fw := ⟨[], [], [], [], [], []⟩

/-- The objects, the rules of the kernel, and the static `enable`. -/
structure World where
  enable : Bool
  kernel : List Line
  fws : List Fw

/-- `if (enable) system(...)`. -/
def sysAdd (w : World) (l : List Line) : World := if w.enable then { w with kernel := append w.kernel l } else w
def sysDel (w : World) (l : List Line) : World := if w.enable then { w with kernel := delete w.kernel l } else w

/-- The list part of `add_port`, `add_forward`, `add_redir`, `add_redir_all`, `add_redir_port_range`, `add_proto` (linuxstreams/wvipfirewall.cc:146-292). -/
def Fw.add (f : Fw) : Entry → Fw
  | .port a => { f with addrs := f.addrs ++ [a] }
  | .fwd s d n => { f with ffwds := f.ffwds ++ [(s, d, n)] }
  | .redir s d => { f with redirs := f.redirs ++ [(s, d)] }
  | .redirAll d => { f with redirAlls := f.redirAlls ++ [d] }
  | .range l h d => { f with ranges := f.ranges ++ [(l, h, d)] }
  | .proto p => { f with protos := f.protos ++ [p] }

/-- How often the loop of `del_...` runs the command: once if it is found, for a forward once for each that is found (linuxstreams/wvipfirewall.cc:160-177, 195-215, 225-237,
    247-259, 270-284, 295-307). -/
def Fw.found (f : Fw) : Entry → Nat
  | .port a => if a ∈ f.addrs then 1 else 0
  | .fwd s d n => f.ffwds.count (s, d, n)
  | .redir s d => if (s, d) ∈ f.redirs then 1 else 0
  | .redirAll d => if d ∈ f.redirAlls then 1 else 0
  | .range l h d => if (l, h, d) ∈ f.ranges then 1 else 0
  | .proto p => if p ∈ f.protos then 1 else 0

/-- The command, so often. -/
def delTimes (w : World) (e : Entry) : Nat → World
  | 0 => w
  | n + 1 => delTimes (sysDel w e.lines) e n

/-- `del_...`: the lists stay as they are. -/
def del (w : World) (f : Fw) (e : Entry) : World := delTimes w e (f.found e)

/-- A loop of `zap` (linuxstreams/wvipfirewall.cc:313-354): the first of the list is deleted and unlinked, until the list is empty. -/
def zapLoop {α : Type} (entry : α → Entry) (put : Fw → List α → Fw) (w : World) (f : Fw) : List α → World × Fw
  | [] => (w, put f [])
  | x :: l => zapLoop entry put (del w (put f (x :: l)) (entry x)) (put f l) l

/-- `zap` (linuxstreams/wvipfirewall.cc:311-355), which the destructor calls. -/
def zap (w : World) (f : Fw) : World × Fw :=
  let r := zapLoop .port (fun f l => { f with addrs := l }) w f f.addrs
  let r := zapLoop (fun x => .fwd x.1 x.2.1 x.2.2) (fun f l => { f with ffwds := l }) r.1 r.2 f.ffwds
  let r := zapLoop (fun x => .redir x.1 x.2) (fun f l => { f with redirs := l }) r.1 r.2 f.redirs
  let r := zapLoop .redirAll (fun f l => { f with redirAlls := l }) r.1 r.2 f.redirAlls
  let r := zapLoop (fun x => .range x.1 x.2.1 x.2.2) (fun f l => { f with ranges := l }) r.1 r.2 f.ranges
  zapLoop .proto (fun f l => { f with protos := l }) r.1 r.2 f.protos

inductive Op where
  | make
  | add (i : Nat) (e : Entry)
  | del (i : Nat) (e : Entry)
  | zap (i : Nat)
  | enable (b : Bool)

/-- A call; calls of objects that are not there do nothing. -/
def step (w : World) : Op → World
  | .make => { w with fws := w.fws ++ [Fw.new] }
  | .add i e =>
    match w.fws[i]? with
    | none => w
    | some f => { sysAdd w e.lines with fws := w.fws.set i (f.add e) }
  | .del i e =>
    match w.fws[i]? with
    | none => w
    | some f => del w f e
  | .zap i =>
    match w.fws[i]? with
    | none => w
    | some f => let r := zap w f; { r.1 with fws := w.fws.set i r.2 }
  | .enable b => { w with enable := b }

def run (w : World) (ops : List Op) : World := ops.foldl step w

end Wv.Firewall
