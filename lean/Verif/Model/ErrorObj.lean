import Verif.Spec.ErrorObj
/-
Model of WvErrorBase and WvError: utils/wverror.cc, include/wverror.h (not win32). Each object has a callback that was set with `onerror`; how often it is
called is recorded. `sys` is `::strerror`. `isok` and `geterr` are not overridden. `none` is an assertion that fails.
-/
namespace Wv.ErrorObj
open Wv
open Spec.ErrorObj (Text Op upd)

/-- `errnum`, `errstring` (null is `none`), calls of `onerror_cb`. -/
structure Obj where
  num : Int
  text : Option Text
  calls : Nat
  deriving DecidableEq

/-- `!!errstring` (include/wvstring.h): neither null nor empty. -/
def given (t : Option Text) : Bool :=
  match t with
  | none => false
  | some t => t ≠ []

/-- `seterr(int)` (utils/wverror.cc:141-156). -/
def seterr (o : Obj) (n : Int) : Option Obj :=
  if o.num = 0 then
    if n ≠ -1 ∨ given o.text then
      some { o with num := n, calls := if n ≠ 0 then o.calls + 1 else o.calls }
    else none
  else some o

/-- `seterr_both` (utils/wverror.cc:178-186). -/
def seterrBoth (o : Obj) (n : Int) (t : Text) : Option Obj :=
  if t ≠ [] then
    if o.num = 0 then seterr { o with text := some t } n else some o
  else none

/-- `seterr(WvStringParm)` (utils/wverror.cc:159-162). -/
def seterrText (o : Obj) (t : Text) : Option Obj := seterrBoth o (-1) t

/-- `errstr` (utils/wverror.cc:124-138); `strerror` (utils/wverror.cc:90-121). -/
def errstr (sys : Int → Text) (o : Obj) : Option Text :=
  if o.num < 0 then (if given o.text then o.text else none)
  else if given o.text then o.text else some (sys o.num)

/-- `seterr(const WvErrorBase &)` (utils/wverror.cc:165-175). -/
def seterrObj (sys : Int → Text) (o e : Obj) : Option Obj :=
  if o.num = 0 then
    if given e.text then (errstr sys e).bind fun t => seterr { o with text := some t } e.num
    else seterr o e.num
  else some o

/-- `noerr` (include/wverror.h:89-90). -/
def noerr (o : Obj) : Obj := { o with num := 0, text := none }

/-- `isok` (include/wverror.h:53-54). -/
def isok (o : Obj) : Bool := o.num = 0

/-- `WvError::set(prefix, e)` (include/wverror.h:143-149). -/
def setPre (sys : Int → Text) (o : Obj) (p : Text) (e : Obj) : Option Obj :=
  if !isok e then (errstr sys e).bind fun t => seterrBoth o e.num (p ++ str [':', ' '] ++ t) else some o

/-- The calls. Assigning (include/wverror.h:41-42, 130-133) resets first, also if it is the same object. -/
def step (sys : Int → Text) (s : Nat → Obj) : Op → Option (Nat → Obj)
  | .set k n => (seterr (s k) n).map fun o => upd s k o
  | .text k t => (seterrText (s k) t).map fun o => upd s k o
  | .both k n t => (seterrBoth (s k) n t).map fun o => upd s k o
  | .copy k j => (seterrObj sys (s k) (s j)).map fun o => upd s k o
  | .assign k j => (seterrObj sys ((upd s k (noerr (s k))) k) ((upd s k (noerr (s k))) j)).map fun o => upd (upd s k (noerr (s k))) k o
  | .pre k p j => (setPre sys (s k) p (s j)).map fun o => upd s k o
  | .reset k => some (upd s k (noerr (s k)))

def run (sys : Int → Text) (s : Nat → Obj) : List Op → Option (Nat → Obj)
  | [] => some s
  | o :: l => (step sys s o).bind fun s => run sys s l

def new : Nat → Obj := fun _ => ⟨0, none, 0⟩

end Wv.ErrorObj
