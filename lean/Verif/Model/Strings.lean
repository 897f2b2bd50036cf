import Verif.Model.Format
/-
Model of the reference-counted strings: WvFastString and WvString (include/wvstring.h:67-417, utils/wvstring.cc:12-92,
241-383).

Memory is a list of buffers in the order of their allocation; a freed one stays in the list as `none`, so that a pointer
into it is an error. Each buffer has an address, which only the comparisons of pointers see. A pointer is null, points into
the data of a buffer, or points to a string of the program's own, at an address and with a text. `none` as a result is
undefined behaviour: use of freed memory, a write outside of a buffer, use of a null pointer. Allocation does not fail.
-/
namespace Wv.Strings
open Wv.Format (header)

/-- The member `buf`: NULL, `&nullbuf`, or an allocated buffer (include/wvstring.h:98). -/
inductive Ref where
  | no
  | nul
  | blk (id : Nat)
  deriving DecidableEq, Repr

/-- A `char *`. -/
inductive Ptr where
  | null
  | at (id off : Nat)
  | ext (a : Nat) (t : List Byte)
  deriving DecidableEq, Repr

/-- A WvFastString or WvString: `buf` and `str` (include/wvstring.h:98-99). -/
structure Str where
  buf : Ref
  str : Ptr
  deriving DecidableEq, Repr

/-- An allocated WvStringBuf at address `base` (include/wvstring.h:67-72). -/
structure Buf where
  base : Nat
  size : Nat
  links : Nat
  data : List Byte
  deriving DecidableEq, Repr

/-- The buffers, and the links of `nullbuf` (utils/wvstring.cc:12). -/
structure Mem where
  heap : List (Option Buf)
  nulls : Nat
  deriving DecidableEq, Repr

/-- calloc: the address it gives for a number of bytes. -/
abbrev Calloc := Mem → Nat → Nat

/-- The memory at the start: `nullbuf = { 0, 1, {0} }` (utils/wvstring.cc:12). -/
def Mem.new : Mem := ⟨[], 1⟩

/-- A buffer that has not been freed. -/
def Mem.buf (m : Mem) (id : Nat) : Option Buf := (m.heap[id]?).join

/-- Stores a buffer; `none` frees it. -/
def Mem.put (m : Mem) (id : Nat) (b : Option Buf) : Mem := { m with heap := m.heap.set id b }

/-- `buf->links`. -/
def links (m : Mem) : Ref → Option Nat
  | .no => none
  | .nul => some m.nulls
  | .blk id => (m.buf id).map Buf.links

/-- The count in `link(_buf, _str)` (utils/wvstring.cc:257-263). -/
def link (m : Mem) : Ref → Option Mem
  | .no => some m
  | .nul => some { m with nulls := m.nulls + 1 }
  | .blk id => (m.buf id).map fun b => m.put id (some { b with links := b.links + 1 })

/-- `unlink()` (utils/wvstring.cc:247-254). -/
def unlink (m : Mem) : Ref → Option Mem
  | .no => some m
  | .nul => if m.nulls ≤ 1 then none else some { m with nulls := m.nulls - 1 }
  | .blk id => (m.buf id).bind fun b =>
      if b.links = 0 then none
      else if b.links = 1 then some (m.put id none)
      else some (m.put id (some { b with links := b.links - 1 }))

/-- The address in a pointer. -/
def addr (m : Mem) : Ptr → Option Nat
  | .null => some 0
  | .at id off => (m.buf id).map fun b => b.base + header + off
  | .ext a _ => some a

/-- The string at a pointer, up to its NUL. -/
def text (m : Mem) : Ptr → Option (List Byte)
  | .null => none
  | .at id off => (m.buf id).bind fun b =>
      if (0 : Byte) ∈ b.data.drop off then some ((b.data.drop off).takeWhile (· != 0)) else none
  | .ext _ t => some t

/-- Stores bytes in a buffer's data. -/
def write (m : Mem) (id off : Nat) (bs : List Byte) : Option Mem :=
  (m.buf id).bind fun b =>
    if off + bs.length ≤ b.data.length then
      some (m.put id (some { b with data := b.data.take off ++ bs ++ b.data.drop (off + bs.length) }))
    else none

/-- `alloc(size)` (utils/wvstring.cc:266-273), with `l` as the links: the memory and the buffer. -/
def alloc (A : Calloc) (m : Mem) (size l : Nat) : Mem × Nat :=
  let s := header + size + 1 ||| 3
  ({ m with heap := m.heap ++ [some ⟨A m s, s, l, List.replicate (s - header) 0⟩] }, m.heap.length)

/-- `newbuf(size)` (utils/wvstring.cc:296-301). -/
def newbuf (A : Calloc) (m : Mem) (size : Nat) : Mem × Str :=
  let r := alloc A m size 1
  (r.1, ⟨.blk r.2, .at r.2 0⟩)

/-- `unique()` with `is_unique()` (utils/wvstring.cc:306-324). -/
def unique (A : Calloc) (m : Mem) (s : Str) : Option (Mem × Str) :=
  (links m s.buf).bind fun l =>
    if l ≤ 1 ∨ s.str = .null then some (m, s)
    else (text m s.str).bind fun t =>
      let r := alloc A m t.length 0
      (write r.1 r.2 0 t).bind fun m1 => (unlink m1 s.buf).bind fun m2 =>
        (link m2 (.blk r.2)).map fun m3 => (m3, ⟨.blk r.2, .at r.2 0⟩)

/-- `WvFastString()` (utils/wvstring.cc:33-36). -/
def newNull (m : Mem) : Option (Mem × Str) := (link m .nul).map fun m => (m, ⟨.nul, .null⟩)

/-- `WvString(const char *)` (utils/wvstring.cc:88-92, include/wvstring.h:408-416). -/
def newText (A : Calloc) (m : Mem) (p : Ptr) : Option (Mem × Str) :=
  (newNull m).bind fun r => (unlink r.1 r.2.buf).bind fun m => (link m .nul).bind fun m => unique A m ⟨.nul, p⟩

/-- `WvString(const WvFastString &)`: `copy_constructor` (utils/wvstring.cc:65-76). -/
def newCopy (A : Calloc) (m : Mem) (s : Str) : Option (Mem × Str) :=
  (newNull m).bind fun r => (unlink r.1 r.2.buf).bind fun m =>
    if s.buf = .no then (link m .nul).bind fun m => unique A m ⟨.nul, s.str⟩
    else (link m s.buf).map fun m => (m, s)

/-- `WvFastString(const WvFastString &)` and `offset(i)` (utils/wvstring.cc:39-48, 79-85): the result holds a link of its own. -/
def offset (m : Mem) (s : Str) (i : Nat) : Option (Mem × Str) :=
  (link m s.buf).bind fun m =>
    match s.str with
    | .null => some (m, s)
    | .at id off => (text m s.str).map fun t => (m, ⟨s.buf, .at id (off + min i t.length)⟩)
    | .ext a t => some (m, ⟨s.buf, .ext (a + min i t.length) (t.drop i)⟩)

/-- `WvFastString::operator=` (utils/wvstring.cc:327-337), which the compiler's own `WvString &operator=(const WvString &)`
    calls. -/
def fastAssign (m : Mem) (s s2 : Str) : Option (Mem × Str) :=
  (addr m s2.str).bind fun a2 => (addr m s.str).bind fun a1 =>
    if s2.buf = s.buf ∧ a2 = a1 then some (m, s)
    else (unlink m s.buf).bind fun m => (link m s2.buf).map fun m => (m, s2)

/-- The copy at the end of the `char *` case of `WvString::operator=` (utils/wvstring.cc:372-374). -/
def reassign (A : Calloc) (m : Mem) (s : Str) (p : Ptr) : Option (Mem × Str) :=
  (unlink m s.buf).bind fun m => (link m .nul).bind fun m => unique A m ⟨.nul, p⟩

/-- The `char *` case of `WvString::operator=` (utils/wvstring.cc:353-375): the address of the source is `a2`, our own `a1`. -/
def assignChars (A : Calloc) (m : Mem) (s : Str) (p : Ptr) (a1 a2 : Nat) : Option (Mem × Str) :=
  match s.str, s.buf with
  | .null, _ => reassign A m s p
  | _, .blk id => (m.buf id).bind fun b =>
      if b.links = 1 ∧ a1 < a2 ∧ a2 ≤ a1 + b.size then
        (text m p).bind fun t => (write m id 0 (t ++ [0])).map fun m => (m, s)
      else reassign A m s p
  | _, _ => reassign A m s p

/-- `WvString::operator=(const WvFastString &)` (utils/wvstring.cc:349-383). -/
def assign (A : Calloc) (m : Mem) (s s2 : Str) : Option (Mem × Str) :=
  (addr m s2.str).bind fun a2 => (addr m s.str).bind fun a1 =>
    if a2 = a1 ∧ (s2.buf = .no ∨ s2.buf = s.buf) then some (m, s)
    else if s2.buf = .no then assignChars A m s s2.str a1 a2
    else (unlink m s.buf).bind fun m => (link m s2.buf).map fun m => (m, s2)

/-- `setsize(i)` (utils/wvstring.cc:25-29). -/
def setsize (A : Calloc) (m : Mem) (s : Str) (n : Nat) : Option (Mem × Str) :=
  (unlink m s.buf).map fun m => newbuf A m n

/-- `edit()` (include/wvstring.h:403-404), then a store of bytes at an index of what it returns. -/
def editAt (A : Calloc) (m : Mem) (s : Str) (i : Nat) (bs : List Byte) : Option (Mem × Str) :=
  (unique A m s).bind fun r =>
    match r.2.str with
    | .at id off => (write r.1 id (off + i) bs).map fun m => (m, r.2)
    | _ => none

/-- The WvString "%s%s" of two texts (include/wvstring.h:384-385): `do_format` leaves a buffer of the text's size. -/
def concat (A : Calloc) (m : Mem) (t1 t2 : List Byte) : Option (Mem × Str) :=
  (Format.format [ch '%', ch 's', ch '%', ch 's'] [some t1, some t2]).bind fun t =>
    let r := newbuf A m t.length
    match r.2.buf with
    | .blk id => (write r.1 id 0 t).map fun m => (m, r.2)
    | _ => none

/-- `append(s)` (utils/wvstring.cc:276-287). -/
def append (A : Calloc) (m : Mem) (s s2 : Str) : Option (Mem × Str) :=
  if s2.str = .null then some (m, s)
  else if s.str = .null then assign A m s s2
  else (text m s.str).bind fun t1 => (text m s2.str).bind fun t2 => (concat A m t1 t2).bind fun r =>
    (fastAssign r.1 s r.2).bind fun q => (unlink q.1 r.2.buf).map fun m => (m, q.2)

/-- What a program does with its WvString variables. Strings of its own are given by their address and text. -/
inductive Op where
  /-- `WvString v;` -/
  | declare (v : Nat)
  /-- `WvString v(p);` for a `char *`, perhaps NULL -/
  | make (v : Nat) (p : Option (Nat × List Byte))
  /-- `WvString v(w);` -/
  | copy (v w : Nat)
  /-- `WvString v(w.offset(i));` -/
  | copyOffset (v w i : Nat)
  /-- `v = w;` -/
  | assign (v w : Nat)
  /-- `v = w.offset(i);` -/
  | assignOffset (v w i : Nat)
  /-- `v = p;` for a `char *`, perhaps NULL -/
  | assignText (v : Nat) (p : Option (Nat × List Byte))
  /-- `v = w.cstr() + i;` -/
  | assignTail (v w i : Nat)
  /-- `v.edit()[i] = c;` -/
  | edit (v i : Nat) (c : Byte)
  /-- `v.setsize(strlen(t)); strcpy(v.edit(), t);` -/
  | fill (v : Nat) (t : List Byte)
  /-- `v.append(w);` -/
  | append (v w : Nat)
  /-- `v.append(p);` for a `char *` -/
  | appendText (v : Nat) (a : Nat) (t : List Byte)
  /-- the destructor -/
  | destroy (v : Nat)

/-- The memory and the variables. -/
structure State where
  mem : Mem
  vars : List (Option Str)
  deriving DecidableEq, Repr

/-- No variable out of `n` exists. -/
def State.new (n : Nat) : State := ⟨Mem.new, List.replicate n none⟩

/-- A variable. -/
def State.get (st : State) (v : Nat) : Option Str := (st.vars[v]?).join

/-- Puts a result into a variable. -/
def State.put (st : State) (v : Nat) (r : Option (Mem × Str)) : Option State :=
  r.map fun r => ⟨r.1, st.vars.set v (some r.2)⟩

/-- A `char *` that may be NULL. -/
def chars : Option (Nat × List Byte) → Ptr
  | none => .null
  | some (a, t) => .ext a t

/-- `p + i`. -/
def Ptr.plus : Ptr → Nat → Ptr
  | .null, _ => .null
  | .at id off, i => .at id (off + i)
  | .ext a t, i => .ext (a + i) (t.drop i)

/-- One statement of the program. -/
def step (A : Calloc) (st : State) : Op → Option State
  | .declare v => st.put v (newNull st.mem)
  | .make v p => st.put v (newText A st.mem (chars p))
  | .copy v w => (st.get w).bind fun s => st.put v (newCopy A st.mem s)
  | .copyOffset v w i => (st.get w).bind fun s => (offset st.mem s i).bind fun t => (newCopy A t.1 t.2).bind fun r =>
      st.put v ((unlink r.1 t.2.buf).map fun m => (m, r.2))
  | .assign v w => (st.get v).bind fun s => (st.get w).bind fun s2 => st.put v (fastAssign st.mem s s2)
  | .assignOffset v w i => (st.get v).bind fun s => (st.get w).bind fun s2 => (offset st.mem s2 i).bind fun t =>
      (assign A t.1 s t.2).bind fun r => st.put v ((unlink r.1 t.2.buf).map fun m => (m, r.2))
  | .assignText v p => (st.get v).bind fun s => st.put v (assign A st.mem s ⟨.no, chars p⟩)
  | .assignTail v w i => (st.get v).bind fun s => (st.get w).bind fun s2 =>
      st.put v (assign A st.mem s ⟨.no, s2.str.plus i⟩)
  | .edit v i c => (st.get v).bind fun s => st.put v (editAt A st.mem s i [c])
  | .fill v t => (st.get v).bind fun s => (setsize A st.mem s t.length).bind fun r =>
      st.put v (editAt A r.1 r.2 0 (t ++ [0]))
  | .append v w => (st.get v).bind fun s => (st.get w).bind fun s2 => st.put v (append A st.mem s s2)
  | .appendText v a t => (st.get v).bind fun s => st.put v (append A st.mem s ⟨.no, .ext a t⟩)
  | .destroy v => (st.get v).bind fun s => (unlink st.mem s.buf).map fun m => ⟨m, st.vars.set v none⟩

/-- A program. -/
def run (A : Calloc) : State → List Op → Option State
  | st, [] => some st
  | st, o :: r => (step A st o).bind fun st => run A st r

/-- The string in a variable, as `cstr()` shows it: null, or a text. The outer `none` is no variable or an error. -/
def State.value (st : State) (v : Nat) : Option (Option (List Byte)) :=
  (st.get v).bind fun s => if s.str = .null then some none else (text st.mem s.str).map some

end Wv.Strings
