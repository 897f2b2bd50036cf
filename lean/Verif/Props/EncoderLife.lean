import Verif.Lemmas.Encoder
import Verif.Model.Base64
import Verif.Model.Hex
import Verif.Model.Backslash
import Verif.Model.Xor
import Verif.Model.CounterMode
import Verif.Model.Chain
import Verif.Model.WordWrap
/- C06: the life cycle common to all encoders. -/
namespace Props
open Wv
universe u
variable {σ : Type u}

/-- A call on an encoder, together with the data the caller adds to the input buffer before the call. -/
inductive EncCall
  | encode (chunk : List Byte) (flush finish : Bool)
  | finish
  | reset

/-- Perform a call: the encoder, its buffers, and the value returned. -/
def EncCall.step (I : EncImpl σ) (s : Enc σ × Io) : EncCall → (Enc σ × Io) × Bool
  | .encode chunk flush fin =>
    let (e, io, r) := I.encode s.1 { s.2 with inb := s.2.inb ++ chunk } flush fin
    ((e, io), r)
  | .finish => let (e, io, r) := I.finish s.1 s.2; ((e, io), r)
  | .reset => let (e, r) := I.reset s.1; ((e, s.2), r)

/-- A history of calls, with the values returned. -/
def EncCall.steps (I : EncImpl σ) (s : Enc σ × Io) : List EncCall → (Enc σ × Io) × List Bool
  | [] => (s, [])
  | c :: cs =>
    let (s, r) := c.step I s
    let (s, rs) := EncCall.steps I s cs
    (s, r :: rs)

/-- The data handed over in a history. -/
def EncCall.data : List EncCall → List Byte
  | [] => []
  | .encode c _ _ :: r => c ++ EncCall.data r
  | _ :: r => EncCall.data r

/-- Finished, or in error. -/
def Inactive (e : Enc σ) : Prop := e.okay = false ∨ e.finished = true

theorem finish_inactive (I : EncImpl σ) (e : Enc σ) (io : Io) (h : Inactive e) :
    I.finish e io = ({ e with finished := true }, io, false) := by
  have : (e.okay && !e.finished) = false := by rcases h with h | h <;> simp [h]
  simp [EncImpl.finish, this, Enc.setfinished]

theorem encode_inactive (I : EncImpl σ) (e : Enc σ) (io : Io) (fl fin : Bool) (h : Inactive e) :
    I.encode e io fl fin = ({ e with finished := e.finished || fin }, io, false) := by
  have : (e.okay && !e.finished && (!io.inb.isEmpty || fl)) = false := by rcases h with h | h <;> simp [h]
  cases fin
  · simp [EncImpl.encode, this]
  · simp [EncImpl.encode, this, finish_inactive I e io h]

/-- C06 (dead until reset): for every encoder whatsoever, once it is finished or in error, any history of calls other
    than reset returns false each time, produces nothing and consumes nothing, and the encoder stays so. -/
theorem C06_inactive_forever (I : EncImpl σ) (calls : List EncCall) (hnr : EncCall.reset ∉ calls) (e : Enc σ) (io : Io)
    (h : Inactive e) :
    let r := EncCall.steps I (e, io) calls
    Inactive r.1.1 ∧ r.1.1.okay = e.okay ∧ r.1.1.st = e.st ∧ r.1.2.out = io.out ∧
    r.1.2.inb = io.inb ++ EncCall.data calls ∧ (∀ b ∈ r.2, b = false) := by
  induction calls generalizing e io with
  | nil => simp [EncCall.steps, EncCall.data, h]
  | cons c cs ih =>
    have hnr' : EncCall.reset ∉ cs := fun hm => hnr (by simp [hm])
    cases c with
    | reset => simp at hnr
    | finish =>
      simp only [EncCall.steps, EncCall.step, EncCall.data, finish_inactive I e io h]
      have := ih hnr' { e with finished := true } io (Or.inr rfl)
      simpa using this
    | encode chunk fl fin =>
      simp only [EncCall.steps, EncCall.step, EncCall.data, encode_inactive I e _ fl fin h]
      have := ih hnr' { e with finished := e.finished || fin } { io with inb := io.inb ++ chunk }
        (by rcases h with h | h <;> simp [Inactive, h])
      simpa using this

example : Inactive (Base64.decoder.encode Base64.newDecoder ⟨str ['!'], []⟩ false false).1 := by
  unfold Inactive; decide +kernel

/-- Is it a call that finishes the encoder? -/
def EncCall.isFinish : EncCall → Bool
  | .finish => true
  | .encode _ _ fin => fin
  | .reset => false

theorem finish_finished (I : EncImpl σ) (e : Enc σ) (io : Io) : (I.finish e io).1.finished = true := by
  simp [EncImpl.finish, Enc.setfinished]

theorem step_finish (I : EncImpl σ) (s : Enc σ × Io) (c : EncCall) (h : c.isFinish = true) :
    (c.step I s).1.1.finished = true := by
  cases c with
  | reset => simp [EncCall.isFinish] at h
  | finish => simp only [EncCall.step]; exact finish_finished I _ _
  | encode chunk fl fin =>
    simp only [EncCall.isFinish] at h
    subst h
    simp only [EncCall.step, EncImpl.encode, if_true]
    exact finish_finished I _ _

/-- C06 (finish once): in a history without reset, at most one finishing call returns true. -/
theorem C06_finish_at_most_once (I : EncImpl σ) (calls : List EncCall) (hnr : EncCall.reset ∉ calls)
    (s : Enc σ × Io) :
    ((calls.zip (EncCall.steps I s calls).2).filter (fun p => p.1.isFinish && p.2)).length ≤ 1 := by
  induction calls generalizing s with
  | nil => simp
  | cons c cs ih =>
    have hnr' : EncCall.reset ∉ cs := fun hm => hnr (by simp [hm])
    simp only [EncCall.steps, List.zip_cons_cons, List.filter_cons]
    split
    · rename_i hc
      have hf : c.isFinish = true := by simp at hc; exact hc.1
      have hfin := step_finish I s c hf
      have hall := (C06_inactive_forever I cs hnr' (c.step I s).1.1 (c.step I s).1.2 (Or.inr hfin)).2.2.2.2.2
      have : (cs.zip (EncCall.steps I (c.step I s).1 cs).2).filter (fun p => p.1.isFinish && p.2) = [] := by
        apply List.filter_eq_nil_iff.mpr
        rintro ⟨c', b⟩ hm
        have := hall b (List.of_mem_zip hm).2
        simp [this]
      rw [this]; simp
    · exact ih hnr' _

/-- C06 (reset): reset succeeds and gives back exactly a new encoder, whatever happened before, for each encoder whose
    documentation says that it supports reset. -/
theorem C06_reset_like_new :
    (∀ e, Base64.encoder.reset e = (Base64.newEncoder, true)) ∧
    (∀ e, Base64.decoder.reset e = (Base64.newDecoder, true)) ∧
    (∀ up e, (Hex.encoder up).reset e = (Hex.newEncoder, true)) ∧
    (∀ e, Hex.decoder.reset e = (Hex.newDecoder, true)) ∧
    (∀ n e, (Backslash.encoder n).reset e = (Backslash.newEncoder, true)) ∧
    (∀ e, Backslash.decoder.reset e = (Backslash.newDecoder, true)) ∧
    (∀ e, nullEncoder.reset e = ({ st := () }, true)) ∧
    (∀ e, passthrough.reset e = ({ st := 0 }, true)) ∧
    (∀ w e, (WordWrap.encoder w).reset e = (WordWrap.new, true)) := by
  refine ⟨?_, ?_, ?_, ?_, ?_, ?_, ?_, ?_, ?_⟩ <;> intros <;> rfl

/-- C06 (reset, not supported): for the XOR and counter mode encoders reset fails, and leaves the encoder in error. -/
theorem C06_reset_unsupported (key : List Byte) (block : List Byte → List Byte) :
    (∀ e, ((Xor.encoder key).reset e).2 = false ∧ Inactive ((Xor.encoder key).reset e).1) ∧
    (∀ e, ((Ctr.encoder block).reset e).2 = false ∧ Inactive ((Ctr.encoder block).reset e).1) :=
  ⟨fun _ => ⟨rfl, Or.inl rfl⟩, fun _ => ⟨rfl, Or.inl rfl⟩⟩

/-- C06 (reset of a chain): the chain becomes a chain of its elements as reset, with empty buffers; it succeeds iff each
    element's reset succeeds. -/
theorem C06_reset_chain (e : Enc (List Chain.Elem)) :
    let r := Chain.chain.reset e
    r.2 = e.st.all (fun x => (x.I.reset x.e).2) ∧ r.1.okay = r.2 ∧ r.1.finished = false ∧
    r.1.st = e.st.map (fun x => { I := x.I, e := (x.I.reset x.e).1 }) := by
  have h : ∀ xs : List Chain.Elem, Chain.resetAll xs =
      (xs.map (fun x => { I := x.I, e := (x.I.reset x.e).1 }), xs.all (fun x => (x.I.reset x.e).2)) := by
    intro xs
    induction xs with
    | nil => rfl
    | cons x xs ih => simp [Chain.resetAll, ih]
  have h1 : (Chain.resetAll e.st).1 = e.st.map (fun x => { I := x.I, e := (x.I.reset x.e).1 }) := by rw [h]
  have h2 : (Chain.resetAll e.st).2 = e.st.all (fun x => (x.I.reset x.e).2) := by rw [h]
  rw [← h1, ← h2]
  have h3 : Chain.chain.reset' { e with okay := true, finished := false } =
    ({ st := (Chain.resetAll e.st).1 }, (Chain.resetAll e.st).2) := rfl
  unfold EncImpl.reset
  rw [h3]
  generalize Chain.resetAll e.st = g
  obtain ⟨xs, b⟩ := g
  cases b <;> exact ⟨rfl, rfl, rfl, rfl⟩

end Props
