import Verif.Spec.Retry
/-
Model of UniRetryGen: uniconf/uniretrygen.cc, on top of uniconf/unifiltergen.cc. The operations and what the inner generator does are
those of Spec/Retry. Times are in milliseconds. What a reconnect callback does is left out; it is recorded that it was called.
Notifications are left out.
-/
namespace Wv.Retry
open Wv
open Spec.Retry (Op Ans Inner Ev ask)

/-- The object (include/uniretrygen.h:44-58). `log` records what is done about the connection. -/
structure St (σ : Type) where
  inner : Option σ
  next : Int
  log : List Ev

variable {σ : Type} (M : Inner σ) (interval : Int)

/-- What the world says during a call: the time, what `wvcreate` gives if it is called, the time at the end. -/
structure World (σ : Type) where
  t1 : Int
  made : Option σ
  t2 : Int

/-- `maybe_reconnect` (uniconf/uniretrygen.cc:68-103). -/
def reconnect (s : St σ) (w : World σ) : St σ :=
  match s.inner with
  | some _ => s
  | none =>
    if w.t1 < s.next then s
    else
      match w.made with
      | none => { s with log := s.log ++ [.attempt w.t1 false false] }
      | some g =>
        if M.ok g then { s with inner := some g, log := s.log ++ [.attempt w.t1 true true, .callback] }
        else { s with next := s.next + interval, log := s.log ++ [.attempt w.t1 true false, .release] }

/-- `maybe_disconnect` (uniconf/uniretrygen.cc:106-122). -/
def disconnect (s : St σ) (t : Int) : St σ :=
  match s.inner with
  | none => s
  | some g => if M.ok g then s else { inner := none, next := t + interval, log := s.log ++ [.lost t, .release] }

/-- The constructor (uniconf/uniretrygen.cc:52-65); `t0` is the time at its start. -/
def new (t0 : Int) (w : World σ) : St σ := reconnect M interval ⟨none, t0, []⟩ w

/-- The answers without an inner generator that is all right (uniconf/uniretrygen.cc:139-143, 170-181, 213-229, 240-244, 269-273 and
    uniconf/unifiltergen.cc:128-134). -/
def offline : Op → Ans
  | .get k => .val (if Key.eq k [] then some [] else none)
  | .exists k => .bool (Key.eq k [])
  | .haschildren _ => .bool false
  | .iterator _ => .iter none
  | .recursive _ => .iter none
  | .isok => .bool false
  | .refresh => .bool false
  | .set _ _ => .unit
  | .setv _ => .unit
  | .commit => .unit
  | .prefetch _ _ => .unit
  | .flush => .unit

/-- What happens between `maybe_reconnect` and `maybe_disconnect` in all but `recursiveiterator`. -/
def middle (s : St σ) (op : Op) : St σ × Ans :=
  match s.inner with
  | some g =>
    if M.ok g then
      let r := ask M g op
      ({ s with inner := some r.1 }, r.2)
    else (s, offline op)
  | none => (s, offline op)

/-- A call (uniconf/uniretrygen.cc:125-287). `setv` is that of UniFilterGen (uniconf/unifiltergen.cc:101-105), `flush_buffers` does
    nothing (include/uniretrygen.h:72). -/
def call (s : St σ) (w : World σ) (op : Op) : St σ × Ans :=
  match op with
  | .setv l =>
    match s.inner with
    | some g => ({ s with inner := some (M.gen.setv g l) }, .unit)
    | none => (s, .unit)
  | .flush => (s, .unit)
  | .recursive k =>
    let s := reconnect M interval s w
    let a := match s.inner with
      | some g => M.recursive g k
      | none => none
    (disconnect M interval s w.t2, .iter a)
  | op =>
    let s := reconnect M interval s w
    let r := middle M s op
    (disconnect M interval r.1 w.t2, r.2)

/-- `~UniFilterGen` (uniconf/unifiltergen.cc:18-23). -/
def destroy (s : St σ) : List Ev :=
  match s.inner with
  | some _ => s.log ++ [.release]
  | none => s.log

/-- What may happen: a call, or the inner generator changes by itself. -/
inductive Step (σ : Type) where
  | call (w : World σ) (op : Op)
  | change (f : σ → σ)

def step (s : St σ) : Step σ → St σ
  | .call w op => (call M interval s w op).1
  | .change f => { s with inner := s.inner.map f }

def run (s : St σ) (l : List (Step σ)) : St σ := l.foldl (step M interval) s

end Wv.Retry
