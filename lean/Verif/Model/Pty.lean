import Verif.Spec.Pty
/-!
`WvPty` (linuxstreams/wvpty.cc, include/wvpty.h). What the system answers is a parameter; changing the owner and the mode of the terminal and the log messages (which are compiled to nothing,
linuxstreams/wvpty.cc:21) are left out.
-/
namespace Wv.Pty
open Wv Spec.Pty

/-- `xvals`, `yvals` (linuxstreams/wvpty.cc:27-28). -/
def xvals : List Byte := str ['p', 'q', 'r', 's', 't', 'u', 'v', 'w', 'x', 'y', 'z', 'P', 'Q', 'R', 'S', 'T']
def yvals : List Byte := str ['0', '1', '2', '3', '4', '5', '6', '7', '8', '9', 'a', 'b', 'c', 'd', 'e', 'f']

/-- `pty`, `tty` with the two characters (linuxstreams/wvpty.cc:29-38). -/
def ptyName (x y : Byte) : Text := str ['/', 'd', 'e', 'v', '/', 'p', 't', 'y'] ++ [x, y]
def ttyName (x y : Byte) : Text := str ['/', 'd', 'e', 'v', '/', 't', 't', 'y'] ++ [x, y]

/-- What is opened and closed. -/
inductive Ev where
  | opened (name : Text) (fd : Nat)
  | closed (fd : Nat)
deriving DecidableEq, Repr

/-- What one round of the loops does: goes on, gives up, or has found a pair. -/
inductive Round where
  | more
  | none
  | pair (master slave : Nat)
deriving DecidableEq, Repr

/-- One round (linuxstreams/wvpty.cc:38-71). -/
def round (sys : Text → Opened) (x y : Byte) : Round × List Ev :=
  match sys (ptyName x y) with
  | .fd m =>
    match sys (ttyName x y) with
    | .fd s => (.pair m s, [.opened (ptyName x y) m, .opened (ttyName x y) s])
    | .noent => (.none, [.opened (ptyName x y) m, .closed m])
    | .other => (.more, [.opened (ptyName x y) m, .closed m])
  | .noent => (.none, [])
  | .other => (.more, [])

/-- The inner loop (linuxstreams/wvpty.cc:36-72). -/
def inner (sys : Text → Opened) (x : Byte) : List Byte → Round × List Ev
  | [] => (.more, [])
  | y :: l =>
    match round sys x y with
    | (.more, e) => let r := inner sys x l; (r.1, e ++ r.2)
    | r => r

/-- `open_pty` (linuxstreams/wvpty.cc:24-77): the outer loop. That the names are stored is in a macro that is empty. -/
def outer (sys : Text → Opened) (ys : List Byte) : List Byte → Round × List Ev
  | [] => (.none, [])
  | x :: l =>
    match inner sys x ys with
    | (.more, e) => let r := outer sys ys l; (r.1, e ++ r.2)
    | r => r

def openPty (sys : Text → Opened) : Round × List Ev := outer sys yvals xvals

/-- The object, and its process as the system has it: `pid` is none for -1, `raw` is `_exit_status`; `fd`; the names; `sys` says whether the process is there and ended, or was waited for. -/
structure St where
  pid : Option Nat
  raw : Nat
  fd : Option Nat
  master : Option Text
  slave : Option Text
deriving DecidableEq, Repr

/-- What the constructor does in the parent: an object, with what was opened and closed, or the end of the process. -/
inductive Made where
  | obj (s : St) (ev : List Ev)
  | exit (code : Nat)
deriving DecidableEq, Repr

/-- The constructor in the parent (linuxstreams/wvpty.cc:79-90, 144-155): `fork` fails or gives a pid; closing may fail. -/
def make (sys : Text → Opened) (fork : Option Nat) (closes : Bool) : Made :=
  match openPty sys with
  | (.pair m s, e) =>
    match fork with
    | none => .obj ⟨none, 242, none, none, none⟩ e
    | some p => if closes then .obj ⟨some p, 242, some m, none, none⟩ (e ++ [.closed s]) else .exit 242
  | (_, e) => .obj ⟨none, 242, none, none, none⟩ e

/-- The steps of the child that can fail. -/
inductive Step where
  | closeMaster
  | setsid
  | dup (n : Nat)
  | closeSlave
  | setfl (n : Nat)
  | pre
  | exec
deriving DecidableEq, Repr

/-- What the child has: descriptors, with the files they are of; whether the file is not to block; which functions were called. -/
structure Child where
  fds : Nat → Option Nat
  session : Bool
  nonblock : Nat → Bool
  pre : Bool
  post : Bool

/-- The program runs in place of the child, or the child ends. -/
inductive Run where
  | exec (c : Child)
  | exit (code : Nat) (c : Child)

def upd {β : Type} (f : Nat → β) (a : Nat) (b : β) : Nat → β := fun x => if x = a then b else f x

/-- A step, and then the rest; if it fails, `_exit(242)` (linuxstreams/wvpty.cc:141-142). -/
def step (ok : Step → Bool) (c : Child) (s : Step) (f : Child → Child) (k : Child → Run) : Run :=
  if ok s then k (f c) else .exit 242 c

/-- `dup2(slave_fd, n)` for all (linuxstreams/wvpty.cc:111-119). -/
def dups (ok : Step → Bool) (slave : Nat) : List Nat → Child → (Child → Run) → Run
  | [], c, k => k c
  | n :: l, c, k => step ok c (.dup n) (fun c => { c with fds := upd c.fds n (c.fds slave) }) fun c => dups ok slave l c k

/-- The flags of the file of a descriptor: none but two are kept, so that it blocks. -/
def block (n : Nat) (c : Child) : Child :=
  match c.fds n with
  | some f => { c with nonblock := upd c.nonblock f false }
  | none => c

/-- `fcntl` for all (linuxstreams/wvpty.cc:126-135). -/
def setfls (ok : Step → Bool) : List Nat → Child → (Child → Run) → Run
  | [], c, k => k c
  | n :: l, c, k => step ok c (.setfl n) (block n) fun c => setfls ok l c k

/-- The child (linuxstreams/wvpty.cc:91-143); `hasPre`, `hasPost`: whether there are callbacks; `pre_exec_cb` returns false if its step fails. -/
def child (ok : Step → Bool) (hasPre hasPost : Bool) (master slave : Nat) (c : Child) : Run :=
  step ok c .closeMaster (fun c => { c with fds := upd c.fds master none }) fun c =>
  step ok c .setsid (fun c => { c with session := true }) fun c =>
  dups ok slave [0, 1, 2] c fun c =>
  let rest := fun c => setfls ok [0, 1, 2] c fun c =>
    let run := fun (c : Child) => if ok .exec then .exec c else .exit 242 { c with post := hasPost }
    if hasPre then (let c := { c with pre := true }; if ok .pre then run c else .exit 242 c) else run c
  if 2 < slave then step ok c .closeSlave (fun c => { c with fds := upd c.fds slave none }) rest else rest c

/-- `WEXITSTATUS`, `WIFSIGNALED`, `WTERMSIG` of the C library. -/
def wexitstatus (raw : Nat) : Nat := raw / 256 % 256
def wtermsig (raw : Nat) : Nat := raw % 128
def wifsignaled (raw : Nat) : Bool := 0 < raw % 128 && raw % 128 < 127

/-- The object, whether the process has ended, and the signals that were sent, with the pid. -/
structure World where
  obj : St
  ended : Bool
  sent : List (Nat × Nat)
deriving DecidableEq, Repr

/-- `monitor_child` (linuxstreams/wvpty.cc:163-174): waiting goes on until the process ends. -/
def World.monitor (f : Fate) (w : World) (wait : Bool) : World :=
  match w.obj.pid with
  | none => w
  | some _ =>
    if w.ended || wait then { w with ended := true, obj := { w.obj with pid := none, raw := f.raw } } else w

/-- The calls (linuxstreams/wvpty.cc:157-206). -/
def World.op (f : Fate) (w : World) : Op → Ret × World
  | .ends => (.unit, { w with ended := true })
  | .kill n =>
    match w.obj.pid with
    | none => (.unit, w)
    | some p => (.unit, { w with sent := w.sent ++ [(p, n)] })
  | .exited =>
    let w := w.monitor f false
    (.bool w.obj.pid.isNone, w)
  | .killed =>
    let w := w.monitor f false
    (.bool (w.obj.pid.isNone && wifsignaled w.obj.raw), w)
  | .finish =>
    let w := w.monitor f true
    (.int (wexitstatus w.obj.raw), w)
  | .status =>
    let w := w.monitor f false
    if w.obj.pid.isNone then
      let w := w.monitor f false
      (.int (if w.obj.pid.isNone && wifsignaled w.obj.raw then wtermsig w.obj.raw else wexitstatus w.obj.raw), w)
    else (.int 242, w)

def World.run (f : Fate) (w : World) : List Op → List Ret × World
  | [] => ([], w)
  | o :: l =>
    let r := w.op f o
    let q := World.run f r.2 l
    (r.1 :: q.1, q.2)

end Wv.Pty
