import Verif.Model.IntText
/-
Model of the calls of UniPermGen that change permissions (uniconf/unipermgen.cc). The state is that of the inner generator; reading
is `Perm.getperm` of Model/IGen.lean.
-/
namespace Wv.PermGen
open Wv Wv.Perm
open Wv.TempGen (Value)

variable {σ : Type} (I : IGen σ)

/-- `setowner` (uniconf/unipermgen.cc:35-38). -/
def setowner (s : σ) (path : Key) (owner : Option Value) : σ := I.set s (attr path (str ['o', 'w', 'n', 'e', 'r'])) owner

/-- `setgroup` (uniconf/unipermgen.cc:51-54). -/
def setgroup (s : σ) (path : Key) (group : Option Value) : σ := I.set s (attr path (str ['g', 'r', 'o', 'u', 'p'])) group

/-- `setperm` (uniconf/unipermgen.cc:66-71). The bool becomes a string by the constructor for an int (include/wvstring.h:159):
    "1" or "0". -/
def setperm (s : σ) (path : Key) (level : Level) (type : Kind) (val : Bool) : σ :=
  I.set s (attr path (level2str level ++ ch '-' :: type2str type)) (some (if val then str ['1'] else str ['0']))

/-- `chmod` with three digits (uniconf/unipermgen.cc:119-138). -/
def chmod (s : σ) (path : Key) (user group world : UInt32) : σ :=
  let r : UInt32 := 4
  let w : UInt32 := 2
  let x : UInt32 := 1
  let s := setperm I s path .user .read (user &&& r != 0)
  let s := setperm I s path .user .write (user &&& w != 0)
  let s := setperm I s path .user .exec (user &&& x != 0)
  let s := setperm I s path .group .read (group &&& r != 0)
  let s := setperm I s path .group .write (group &&& w != 0)
  let s := setperm I s path .group .exec (group &&& x != 0)
  let s := setperm I s path .world .read (world &&& r != 0)
  let s := setperm I s path .world .write (world &&& w != 0)
  setperm I s path .world .exec (world &&& x != 0)

/-- `chmod` with a mode (uniconf/unipermgen.cc:141-148). -/
def chmodMode (s : σ) (path : Key) (mode : UInt32) : σ :=
  let user := (mode &&& 0o700) >>> 6
  let group := (mode &&& 0o070) >>> 3
  let world := mode &&& 0o007
  chmod I s path user group world

/-- `getowner` (uniconf/unipermgen.cc:41-48). -/
def getowner (s : σ) (path : Key) : Option Value := getname (I.get s) (str ['o', 'w', 'n', 'e', 'r']) path

/-- `getgroup` (uniconf/unipermgen.cc:57-63). -/
def getgroup (s : σ) (path : Key) : Option Value := getname (I.get s) (str ['g', 'r', 'o', 'u', 'p']) path

/-- What `str2int` with the default -1 makes of a value (uniconf/unipermgen.cc:98-99). -/
def num (v : Value) : Int := IntText.str2int (some v) (-1)

/-- `getperm` (uniconf/unipermgen.cc:74-90). -/
def getperm (s : σ) (path : Key) (cred : Cred) (type : Kind) : Bool := Perm.getperm num (I.get s) path cred type

end Wv.PermGen
