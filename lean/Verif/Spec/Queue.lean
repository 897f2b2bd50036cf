/-
Byte queues with an undo area, and what the operations of a buffer do to one. Independent of the model.
-/
namespace Spec.Queue

/-- A queue of bytes, and the bytes taken from it last, which can be put back. -/
structure Q where
  hist : List UInt8
  queue : List UInt8

/-- A buffer in a fixed memory without and with wrapping around, and one that grows as needed. -/
inductive Kind
  | inplace (cap : Nat)
  | circular (cap : Nat)
  | dynamic (granularity minalloc maxalloc : Nat)

/-- Operations on one buffer; `alloc` is followed by the caller writing the bytes `d`. Offsets count from the next byte to be read; negative ones are among the bytes already read. -/
inductive Op
  | put (d : List UInt8)
  | alloc (d : List UInt8)
  | get (n : Nat)
  | unget (n : Nat)
  | unalloc (n : Nat)
  | peek (off : Int) (n : Nat)
  | copy (off : Int) (n : Nat)
  | poke (d : List UInt8) (off : Int)
  | zap

/-- How much can be put. -/
def room : Kind → Q → Nat
  | .inplace cap, q => cap - q.hist.length - q.queue.length
  | .circular cap, q => cap - q.queue.length
  | .dynamic _ _ _, _ => 1073741823

/-- Whether the bytes already read can be looked at. -/
def behind : Kind → Q → Prop
  | .inplace _, _ => True
  | .circular _, q => q.queue ≠ []
  | .dynamic _ _ _, _ => False

/-- Whether `n` bytes can be looked at in one piece, when the buffer says `opt` bytes are in one piece there. -/
def inOnePiece : Kind → Nat → Int → Nat → Prop
  | .dynamic _ _ _, opt, off, n => n ≤ opt ∨ off = 0
  | _, _, _, _ => True

/-- When an operation is allowed; `opt` is what the buffer's optpeekable says. -/
def Legal (k : Kind) (opt : Int → Nat) (q : Q) : Op → Prop
  | .put d => d.length ≤ room k q
  | .alloc d => d.length ≤ room k q
  | .get n => n ≤ q.queue.length
  | .unget n => n ≤ q.hist.length
  | .unalloc n => n ≤ q.queue.length
  | .peek off n => 0 < n ∧ -(q.hist.length : Int) ≤ off ∧ off + n ≤ q.queue.length ∧ (off < 0 → behind k q) ∧
      inOnePiece k (opt off) off n
  | .copy off n => -(q.hist.length : Int) ≤ off ∧ off + n ≤ q.queue.length ∧ (off < 0 → behind k q)
  | .poke d off => -(q.hist.length : Int) ≤ off ∧ off ≤ q.queue.length ∧
      (off + d.length ≤ q.queue.length ∨ 0 ≤ off ∧ off + d.length ≤ q.queue.length + room k q) ∧ (off < 0 → behind k q)
  | .zap => True

/-- The oldest bytes of the undo area may be forgotten at any time. -/
def Forgets (h' h : List UInt8) : Prop := ∃ k, h' = h.drop k

/-- `n` bytes from offset `off` on. -/
def window (q : Q) (off : Int) (n : Nat) : List UInt8 := ((q.hist ++ q.queue).drop (q.hist.length + off).toNat).take n

/-- `l` with `d` written over it, or past its end, at position `i`. -/
def over (l : List UInt8) (i : Nat) (d : List UInt8) : List UInt8 := l.take i ++ d ++ l.drop (i + d.length)

/-- What an operation returns and leaves. -/
def Step (q : Q) (op : Op) (out : List UInt8) (q' : Q) : Prop :=
  match op with
  | .put d => out = [] ∧ q'.queue = q.queue ++ d ∧ Forgets q'.hist q.hist
  | .alloc d => out = [] ∧ q'.queue = q.queue ++ d ∧ Forgets q'.hist q.hist
  | .get n => out = q.queue.take n ∧ q'.queue = q.queue.drop n ∧ ∃ k, q'.hist = q.hist.drop k ++ q.queue.take n
  | .unget n => out = [] ∧ q'.hist = q.hist.take (q.hist.length - n) ∧
      q'.queue = q.hist.drop (q.hist.length - n) ++ q.queue
  | .unalloc n => out = [] ∧ q'.queue = q.queue.take (q.queue.length - n) ∧ Forgets q'.hist q.hist
  | .peek off n => out = window q off n ∧ q'.queue = q.queue ∧ Forgets q'.hist q.hist
  | .copy off n => out = window q off n ∧ q'.queue = q.queue ∧ Forgets q'.hist q.hist
  | .poke d off => out = [] ∧ ∃ k, q'.hist ++ q'.queue = (over (q.hist ++ q.queue) (q.hist.length + off).toNat d).drop k ∧
      q'.hist.length + k = q.hist.length
  | .zap => out = [] ∧ q'.queue = [] ∧ q'.hist = []

/-- Moving `n` bytes from the front of `b` to the end of `a`. -/
def MergeStep (a b : Q) (n : Nat) (a' b' : Q) : Prop :=
  a'.queue = a.queue ++ b.queue.take n ∧ b'.queue = b.queue.drop n ∧ Forgets a'.hist a.hist ∧
    Forgets b'.hist (b.hist ++ b.queue.take n)

/-- The bytes taken from a buffer and not put back, oldest first: `t` before an operation that returned `out`. Writing at a
    negative offset changes them. -/
def taken (op : Op) (out t : List UInt8) : List UInt8 :=
  match op with
  | .get _ => t ++ out
  | .unget n => t.take (t.length - n)
  | .poke d off => if off < 0 then (over t (t.length + off).toNat d).take t.length else t
  | _ => t

/-- Operations on a family of buffers. -/
inductive FOp
  | on (i : Nat) (op : Op)
  | merge (i j n : Nat)

def upd {α : Type} (f : Nat → α) (i : Nat) (a : α) : Nat → α := fun j => if j = i then a else f j

end Spec.Queue
