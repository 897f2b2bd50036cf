import Verif.Spec.Coder
import Verif.Model.EncStream
import Verif.Lemmas.EncStream
/-!
C70: a stream that encodes passes every byte through its chain once, in order, and at the end asks the chain to finish.
-/
namespace Props
open Wv Wv.EncStream
open Spec.Coder (Coder Runs Ended TakesAll)

namespace Enc70

/-- The stream below takes what it is given and has no errors, and the chain is always ok. -/
def Works {τ : Type} (W : Coder τ) (dev : Nat → Ans) : Prop :=
  (∀ t n, n ≤ (dev t).take n) ∧ (∀ t, (dev t).err = false) ∧ (∀ c, W.ok c = true)

theorem Works.good {τ : Type} {W : Coder τ} {dev : Nat → Ans} (h : Works W dev) : Good W dev := ⟨h.1, h.2.1, h.2.2⟩

def bytes (s : String) : List Byte := s.toList.map ch

/-- An encoder for the examples: it gives out pairs of bytes, each pair in reverse, and at the end a single byte with "=". -/
def pairs : List Byte → List Byte × List Byte
  | a :: b :: r => let (o, l) := pairs r; (b :: a :: o, l)
  | l => ([], l)

def pairCoder : Coder (List Byte) :=
  ⟨fun s _ t => ((pairs (s ++ t)).2, t.length, (pairs (s ++ t)).1), fun s => ([], if s = [] then [] else s ++ [ch '=']), fun _ => true, fun _ => false⟩

/-- An encoder that fails when it is given a 'x'. -/
def failCoder : Coder Bool :=
  ⟨fun s _ t => (s || t.contains (ch 'x'), t.length, t), fun s => (s, [ch '.']), fun s => !s, fun _ => false⟩

/-- A stream below that gives these pieces and is then at its end; it takes `k` bytes at most. -/
def dev (pieces : List String) (k : Nat) : Nat → Ans := fun t =>
  ⟨bytes (pieces.getD t ""), decide (t + 1 < pieces.length), false, fun n => min k n, true, 1, ch '?'⟩

/-- A stream below that has nothing to be read, and takes everything. -/
def sink : Nat → Ans := fun _ => ⟨[], true, false, fun n => n, true, 100, ch '?'⟩

theorem works_sink : Works pairCoder sink := ⟨fun _ n => Nat.le_refl n, fun _ => rfl, fun _ => rfl⟩

end Enc70
open Enc70

/-- C70 (reading): for every stream below, whatever it answers and when, for every two chains, and every history of calls that leaves
    `queuemin` alone, also if it comes to errors: what the stream below gave (`got`) is what went into the chain (`fed`) and what the
    chain did not take yet; and what the chain gave out for it is what the user has read, followed by what is still there to be read,
    so that no byte is lost, doubled or moved. Once the stream is closed, the chain has been asked to finish after the last byte.
    Missing: `queuemin` (`C70_queuemin_fails`); that a user who reads while the stream is ok gets everything (`C70_eof_fails`). -/
theorem C70_read_partial {σ τ : Type} (R : Coder σ) (W : Coder τ) (dev : Nat → Ans) (a : σ) (b : τ) (l : List Op)
    (hq : ∀ n, Op.queuemin n ∉ l) :
    let s := run R W dev (new a b) l
    (∃ fed, s.got = fed ++ s.readin ∧ Runs R a fed (s.returned ++ (s.inbuf ++ s.readout)) s.rc)
    ∧ (s.closed = true → TakesAll R → Ended R a s.got (s.returned ++ (s.inbuf ++ s.readout)) s.rc) := by
  intro s
  have h := ri_run R W dev a l (new a b) hq (ri_new R a b)
  have e : s.returned ++ (s.inbuf ++ s.readout) = s.returned ++ s.inbuf ++ s.readout := (List.append_assoc _ _ _).symm
  refine ⟨?_, fun hc hall => ?_⟩
  · obtain ⟨fed, a1, a2⟩ := h.flow
    exact ⟨fed, a1, by rw [e]; exact a2⟩
  · rw [e]; exact ((h.atEnd (h.cl hc)).2 hall).2

/-- A history in which five bytes are read in pieces through the chain, up to the end of the stream below. -/
example : let s := run pairCoder pairCoder (Enc70.dev ["abc", "d", "e"] 9) (new [] []) [.read 3, .read 1, .read 9, .read 9, .read 2, .read 9]
    s.got = bytes "abcde" ∧ s.returned = bytes "badce=" ∧ s.closed = true ∧ s.inbuf ++ s.readout = [] := by decide +kernel

example : TakesAll pairCoder := fun _ _ => Nat.le_refl _

/-- C70 (writing): if the stream below takes what it is given, and there are no errors, then for every history of calls without
    `nowrite`: what `write` took (`accepted`) is what went into the chain and what waits for it, and what the chain gave out for it is
    what the stream below got, in order. Once the stream is closed, all that `write` took went into the chain, the chain has been
    asked to finish after the last byte, and all that it gave out is below.
    Missing: a stream below that does not take everything (`C70_limit_fails`), `nowrite` (`C70_nowrite_fails`), and errors of the
    chain (`C70_order_fails`). -/
theorem C70_write_partial {σ τ : Type} (R : Coder σ) (W : Coder τ) (dev : Nat → Ans) (a : σ) (b : τ) (l : List Op)
    (hw : Works W dev) (hn : Op.nowrite ∉ l) :
    let s := run R W dev (new a b) l
    (∃ fed left c, s.accepted = fed ++ left ∧ Runs W b fed s.below c)
    ∧ (s.closed = false → s.isClosing = false ∧ ∃ fed, s.accepted = fed ++ (s.writein ++ s.outbuf) ∧ Runs W b fed s.below s.wc)
    ∧ (s.closed = true → TakesAll W → ∃ c, Ended W b s.accepted s.below c) := by
  intro s
  rcases wi_run R hw.good b l (new a b) hn (wi_new a b) with ⟨h1, h2⟩ | ⟨h1, h2⟩
  · obtain ⟨fed, a1, a2⟩ := h2.flowing.flow
    rw [List.append_assoc] at a1
    refine ⟨⟨fed, _, _, a1, a2⟩, fun _ => ⟨h1, fed, a1, a2⟩, fun hc => ?_⟩
    have := h2.closed
    rw [show (run R W dev (new a b) l).closed = true from hc] at this; cases this
  · refine ⟨h2.flow, fun hc => ?_, fun _ hall => h2.atEnd hall⟩
    have := h2.closed
    rw [show (run R W dev (new a b) l).closed = false from hc] at this; cases this

example : let s := run pairCoder pairCoder sink (new [] []) [.delay true, .write (bytes "abc"), .delay false, .write (bytes "de"), .poll, .close]
    s.accepted = bytes "abcde" ∧ s.below = bytes "badce=" ∧ s.closed = true := by decide +kernel

example : Works pairCoder sink ∧ TakesAll pairCoder := ⟨works_sink, fun _ _ => Nat.le_refl _⟩

/-- C70 (flush): after `flush`, while the stream is open, every byte that `write` took went into the chain, and all that the chain gave
    out for it is below. -/
theorem C70_flush {σ τ : Type} (R : Coder σ) (W : Coder τ) (dev : Nat → Ans) (a : σ) (b : τ) (l : List Op)
    (hw : Works W dev) (hn : Op.nowrite ∉ l) (hall : TakesAll W) (ho : (run R W dev (new a b) l).closed = false) :
    let s := run R W dev (new a b) (l ++ [.flush])
    Runs W b s.accepted s.below s.wc ∧ s.accepted = (run R W dev (new a b) l).accepted := by
  intro s
  have e : s = flush R W dev (run R W dev (new a b) l) := by
    show run R W dev (new a b) (l ++ [.flush]) = _
    unfold run; rw [List.foldl_append]; rfl
  rw [e]
  exact flush_all R hw.good b _ (wi_run R hw.good b l (new a b) hn (wi_new a b)) ((fl_run R W dev l (new a b)).trans rfl) ho hall

example : let l := [Op.delay true, .write (bytes "abc"), .write (bytes "d")]
    (run pairCoder pairCoder sink (new [] []) l).below = [] ∧ (run pairCoder pairCoder sink (new [] []) l).closed = false
    ∧ (run pairCoder pairCoder sink (new [] []) (l ++ [.flush])).below = bytes "badc" := by decide +kernel

/-- With `queuemin`, the claim is false: at the end of the stream below, `read` gives the user bytes that nobody wrote, and others are
    lost. (`close`, called by `uread`, appends what the chain gave to the buffer in which `read` has just allocated room.) -/
theorem C70_queuemin_fails : let s := run pairCoder pairCoder (Enc70.dev ["abcd"] 9) (new [] []) [.queuemin 3, .read 9]
    s.got = bytes "abc" ∧ s.returned = bytes "???b" ∧ s.inbuf ++ s.readout = [] := by decide +kernel

/-- A user who reads while the stream is ok does not get everything: when the stream below is at its end, `read` returns nothing
    and the stream is closed, though what was read from below is still there to be read. -/
theorem C70_eof_fails : let s := run pairCoder pairCoder (Enc70.dev ["abcd"] 9) (new [] []) [.read 9]
    isok s = false ∧ s.returned = [] ∧ s.inbuf = bytes "badc" := by decide +kernel

/-- What the stream below does not take is lost, though `write` took it. -/
theorem C70_limit_fails : let s := run pairCoder pairCoder (Enc70.dev ["", "", "", "", "", ""] 3) (new [] []) [.write (bytes "abcd"), .write (bytes "ef"), .close]
    s.accepted = bytes "abcdef" ∧ s.below = bytes "badfe" ∧ s.closed = true := by decide +kernel

/-- After `nowrite`, the end that the chain gives out is lost: the stream below was told at once that there is nothing to come. -/
theorem C70_nowrite_fails : let s := run pairCoder pairCoder sink (new [] []) [.write (bytes "abc"), .nowrite, .close]
    s.accepted = bytes "abc" ∧ s.below = bytes "ba" ∧ s.closed = true := by decide +kernel

/-- When the chain fails, the stream is closed before what the chain gave out is written: the end of the chain's output is below, and
    the output before it is lost. -/
theorem C70_order_fails : let s := run pairCoder failCoder sink (new [] false) [.write (bytes "ab"), .write (bytes "cx")]
    s.accepted = bytes "abcx" ∧ s.below = bytes "ab." ∧ s.closed = true := by decide +kernel

end Props
