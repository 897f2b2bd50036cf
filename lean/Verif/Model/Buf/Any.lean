import Verif.Model.Buf.InPlace
import Verif.Model.Buf.Dyn
import Verif.Spec.Queue
/-
A `WvBufStore *` of any of the three kinds, and the API of WvBufBase (include/wvbufbase.h), which forwards to the store.
-/
namespace Wv.Buf

/-- A store behind its virtual functions (include/wvbufstore.h:30-140). -/
inductive Any
  | inplace (s : InPlace)
  | circ (s : Circ)
  | dyn (s : Dyn)

namespace Any

def get : Any → Nat → Option (Loc × Any)
  | inplace s, n => (Store.get s n).map fun r => (r.1, inplace r.2)
  | circ s, n => (Store.get s n).map fun r => (r.1, circ r.2)
  | dyn s, n => (Store.get s n).map fun r => (r.1, dyn r.2)

def alloc : Any → Nat → Option (Loc × Any)
  | inplace s, n => (Store.alloc s n).map fun r => (r.1, inplace r.2)
  | circ s, n => (Store.alloc s n).map fun r => (r.1, circ r.2)
  | dyn s, n => (Store.alloc s n).map fun r => (r.1, dyn r.2)

def mutablepeek : Any → Int → Nat → Option (Loc × Any)
  | inplace s, o, n => (Store.mutablepeek s o n).map fun r => (r.1, inplace r.2)
  | circ s, o, n => (Store.mutablepeek s o n).map fun r => (r.1, circ r.2)
  | dyn s, o, n => (Store.mutablepeek s o n).map fun r => (r.1, dyn r.2)

def unget : Any → Nat → Option Any
  | inplace s, n => (Store.unget s n).map inplace
  | circ s, n => (Store.unget s n).map circ
  | dyn s, n => (Store.unget s n).map dyn

def unalloc : Any → Nat → Option Any
  | inplace s, n => (Store.unalloc s n).map inplace
  | circ s, n => (Store.unalloc s n).map circ
  | dyn s, n => (Store.unalloc s n).map dyn

def write : Any → Loc → List Byte → Option Any
  | inplace s, p, d => (Store.write s p d).map inplace
  | circ s, p, d => (Store.write s p d).map circ
  | dyn s, p, d => (Store.write s p d).map dyn

def read : Any → Loc → Nat → Option (List Byte)
  | inplace s, p, n => Store.read s p n
  | circ s, p, n => Store.read s p n
  | dyn s, p, n => Store.read s p n

def used : Any → Nat
  | inplace s => Store.used s
  | circ s => Store.used s
  | dyn s => Store.used s

def optgettable : Any → Nat
  | inplace s => Store.optgettable s
  | circ s => Store.optgettable s
  | dyn s => Store.optgettable s

def ungettable : Any → Nat
  | inplace s => Store.ungettable s
  | circ s => Store.ungettable s
  | dyn s => Store.ungettable s

def free : Any → Nat
  | inplace s => Store.free s
  | circ s => Store.free s
  | dyn s => Store.free s

def optallocable : Any → Nat
  | inplace s => Store.optallocable s
  | circ s => Store.optallocable s
  | dyn s => Store.optallocable s

def optpeekable : Any → Int → Nat
  | inplace s => Store.optpeekable s
  | circ s => Store.optpeekable s
  | dyn s => Store.optpeekable s

def zap : Any → Any
  | inplace s => inplace (Store.zap s)
  | circ s => circ (Store.zap s)
  | dyn s => dyn (Store.zap s)

instance : Store Any where
  used := used
  optgettable := optgettable
  get := get
  unget := unget
  ungettable := ungettable
  zap := zap
  free := free
  optallocable := optallocable
  alloc := alloc
  unalloc := unalloc
  optpeekable := optpeekable
  mutablepeek := mutablepeek
  read := read
  write := write

/-- `merge(instore, count)` (utils/wvbufferstore.cc:198-226): only dynamic buffers use sub-buffers. -/
def merge (dst src : Any) (count : Nat) : Option (Any × Any) :=
  match dst, src with
  | dyn d, dyn s => (Dyn.merge d s count).map fun r => (dyn r.1, dyn r.2)
  | _, _ => basicmerge dst src count

open Spec.Queue in
/-- The constructors: WvInPlaceBuf and WvCircularBuf of a memory of `cap` bytes that holds `d` at its start
    (include/wvbufbase.h:603-635, 813-845), WvDynBuf (include/wvbufbase.h:973-977). -/
def init (k : Kind) (d : List Byte) : Option Any :=
  match k with
  | .inplace cap => (InPlace.reset (fun i => d.getD i 0) d.length cap).map inplace
  | .circular cap => (Circ.reset (fun i => d.getD i 0) d.length cap).map circ
  | .dynamic g lo hi => if d = [] then (Dyn.empty g lo hi).map dyn else none

open Spec.Queue in
/-- One call on one buffer, and the bytes found at the pointer it returns, or copied out. `alloc` is the call and
    the caller's writes through the pointer, as in fastput (utils/wvbufferstore.cc:163-167). -/
def exec (s : Any) : Op → Option (List Byte × Any)
  | .put d => (put s d).map fun s => ([], s)
  | .alloc d => (fastput s d).map fun s => ([], s)
  | .get n => getBytes s n
  | .unget n => (Store.unget s n).map fun s => ([], s)
  | .unalloc n => (Store.unalloc s n).map fun s => ([], s)
  | .peek off n => peekBytes s off n
  | .copy off n => copy s off n
  | .poke d off => (poke s d off).map fun s => ([], s)
  | .zap => some ([], Store.zap s)

end Any
end Wv.Buf
