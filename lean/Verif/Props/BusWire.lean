import Verif.Model.BusWire
import Verif.Spec.BusWire
/- C95: messages over a byte stream. -/
namespace Props
open Wv Wv.BusWire
open Spec.BusWire (complete wire)

/-- What libdbus promises: the length of a message can be seen from its first 16 bytes, and a message is read back as it was written. -/
structure BusLib {M : Type} (L : Lib M) : Prop where
  short : ∀ b : List Byte, b.length < 16 → L.needed b = 0
  least : ∀ m, 16 ≤ (L.bytes m).length
  len : ∀ (m : M) (r b : List Byte), 16 ≤ b.length → b <+: L.bytes m ++ r → L.needed b = (L.bytes m).length
  parse : ∀ m, L.parse (L.bytes m) = some m

namespace BusW

section
variable {M : Type} {L : Lib M} (hL : BusLib L)
include hL

theorem dem_nil : demarshal L [] = (none, []) := by
  unfold demarshal messageLength
  rw [hL.short [] (by decide)]
  rfl

theorem dem_short (m : M) (r b : List Byte) (hb : b <+: L.bytes m ++ r) (h : b.length < (L.bytes m).length) : demarshal L b = (none, b) := by
  unfold demarshal messageLength minHeader
  by_cases h16 : b.length < 16
  · rw [hL.short b h16]
    simp [h16]
  · rw [hL.len m r b (by omega) hb]
    have := hL.least m
    have e : ((L.bytes m).length : Int) > 0 := by omega
    simp only [e, if_true, Int.toNat_natCast]
    rw [if_neg (by omega), if_pos (by omega)]

theorem dem_full (m : M) (r b : List Byte) (hb : b <+: L.bytes m ++ r) (h : (L.bytes m).length ≤ b.length) :
    demarshal L b = (some m, b.drop (L.bytes m).length) := by
  unfold demarshal messageLength minHeader
  have := hL.least m
  rw [hL.len m r b (by omega) hb]
  have e : ((L.bytes m).length : Int) > 0 := by omega
  simp only [e, if_true, Int.toNat_natCast]
  rw [if_neg (by omega), if_neg (by omega)]
  obtain ⟨t, ht⟩ := hb
  have e2 : b.take (L.bytes m).length = L.bytes m := by
    have := congrArg (List.take (L.bytes m).length) ht
    rw [List.take_append_of_le_length h, List.take_left] at this
    exact this
  rw [e2, hL.parse]

omit hL in
theorem wire_cons (m : M) (r : List M) : wire L.bytes (m :: r) = L.bytes m ++ wire L.bytes r := by simp [wire]

/-- The inner loop takes out the complete messages, and leaves less than one. -/
theorem drain_eq : ∀ (f : Nat) (rest : List M) (b : List Byte), b.length < f → b <+: wire L.bytes rest →
    ∃ rest', rest = (drain L f b).1 ++ rest' ∧ b = wire L.bytes (drain L f b).1 ++ (drain L f b).2 ∧
      (∀ m r, rest' = m :: r → (drain L f b).2.length < (L.bytes m).length)
  | 0, _, _, h, _ => by omega
  | f + 1, [], b, hf, hb => by
    have : b = [] := by simpa [wire] using hb
    subst this
    refine ⟨[], ?_⟩
    rw [drain, dem_nil hL]
    simp [wire]
  | f + 1, m :: rest, b, hf, hb => by
    rw [wire_cons] at hb
    by_cases h : (L.bytes m).length ≤ b.length
    · have hd := dem_full hL m _ b hb h
      obtain ⟨t, ht⟩ := hb
      have e2 : b = L.bytes m ++ b.drop (L.bytes m).length := by
        have := congrArg (List.take (L.bytes m).length) ht
        rw [List.take_append_of_le_length h, List.take_left] at this
        calc b = b.take (L.bytes m).length ++ b.drop (L.bytes m).length := (List.take_append_drop _ b).symm
          _ = _ := by rw [this]
      have hp : b.drop (L.bytes m).length <+: wire L.bytes rest := by
        refine ⟨t, ?_⟩
        rw [e2, List.append_assoc] at ht
        exact List.append_cancel_left ht
      have hlen : (b.drop (L.bytes m).length).length < f := by
        have := hL.least m
        rw [List.length_drop]; omega
      obtain ⟨rest', h1, h2, h3⟩ := drain_eq f rest _ hlen hp
      refine ⟨rest', ?_⟩
      rw [drain, hd]
      dsimp only
      refine ⟨by rw [List.cons_append, ← h1], ?_, h3⟩
      rw [wire_cons, List.append_assoc, ← h2, ← e2]
    · have hd := dem_short hL m _ b hb (by omega)
      refine ⟨m :: rest, ?_⟩
      rw [drain, hd]
      dsimp only
      refine ⟨rfl, by simp [wire], fun m' r' he => ?_⟩
      rw [List.cons.injEq] at he
      rw [← he.1]; omega

/-- What holds all the time: `fut` arrives later. -/
def Inv (L : Lib M) (ms : List M) (fut : List Byte) (s : St M) : Prop :=
  ∃ rest, ms = s.delivered ++ rest ∧ wire L.bytes rest = s.inq ++ s.avail ++ fut ∧ ∀ m r, rest = m :: r → s.inq.length < (L.bytes m).length

/-- The outer loop. -/
theorem loop_inv (ms : List M) (fut : List Byte) : ∀ (f : Nat) (os : List Nat) (s : St M), Inv L ms fut s → Inv L ms fut (loop L f os s) ∧
    wire L.bytes (loop L f os s).delivered ++ (loop L f os s).inq ++ (loop L f os s).avail = wire L.bytes s.delivered ++ s.inq ++ s.avail
  | 0, _, s, h => ⟨h, rfl⟩
  | f + 1, os, s, h => by
    obtain ⟨rest, h1, h2, h3⟩ := h
    rw [loop]
    generalize min (min (os.headD 0) (amount L s.inq)) s.avail.length = k
    have hp : s.inq ++ s.avail.take k <+: wire L.bytes rest := by
      rw [h2]
      refine ⟨s.avail.drop k ++ fut, ?_⟩
      rw [List.append_assoc, ← List.append_assoc (s.avail.take k), List.take_append_drop, List.append_assoc]
    obtain ⟨rest', e1, e2, e3⟩ := drain_eq hL _ rest _ (Nat.lt_succ_self _) hp
    generalize drain L ((s.inq ++ s.avail.take k).length + 1) (s.inq ++ s.avail.take k) = d at e1 e2 e3
    have hi : Inv L ms fut ⟨d.2, s.avail.drop k, s.delivered ++ d.1⟩ := by
      refine ⟨rest', by rw [h1, List.append_assoc, ← e1], ?_, e3⟩
      have hw : wire L.bytes rest = wire L.bytes d.1 ++ wire L.bytes rest' := by rw [e1]; simp [wire]
      rw [hw] at h2
      have h4 : s.inq ++ s.avail ++ fut = wire L.bytes d.1 ++ (d.2 ++ s.avail.drop k ++ fut) := by
        rw [← List.append_assoc, ← List.append_assoc, ← e2]
        simp only [List.append_assoc]
        rw [← List.append_assoc (s.avail.take k), List.take_append_drop]
      rw [h4] at h2
      exact List.append_cancel_left h2
    have hw : wire L.bytes (s.delivered ++ d.1) ++ d.2 ++ s.avail.drop k = wire L.bytes s.delivered ++ s.inq ++ s.avail := by
      have : wire L.bytes (s.delivered ++ d.1) = wire L.bytes s.delivered ++ wire L.bytes d.1 := by simp [wire]
      rw [this, List.append_assoc (wire L.bytes s.delivered), ← e2, List.append_assoc, List.append_assoc s.inq, List.take_append_drop, List.append_assoc]
    cases hd : d.1 with
    | nil =>
      dsimp only
      rw [hd] at hi hw
      exact ⟨hi, hw⟩
    | cons x y =>
      dsimp only
      rw [hd] at hi hw
      obtain ⟨g1, g2⟩ := loop_inv ms fut f os.tail _ hi
      exact ⟨g1, g2.trans hw⟩

theorem run_inv (ms : List M) : ∀ (evs : List Ev) (s : St M) (fut : List Byte), Inv L ms (arrived evs ++ fut) s →
    Inv L ms fut (evs.foldl (step L) s) ∧
    wire L.bytes (evs.foldl (step L) s).delivered ++ (evs.foldl (step L) s).inq ++ (evs.foldl (step L) s).avail =
      wire L.bytes s.delivered ++ s.inq ++ s.avail ++ arrived evs
  | [], s, fut, h => ⟨h, by simp [arrived]⟩
  | .arrive b :: r, s, fut, h => by
    obtain ⟨rest, h1, h2, h3⟩ := h
    have hi : Inv L ms (arrived r ++ fut) (step L s (.arrive b)) := ⟨rest, h1, by
      rw [h2]; simp only [step, arrived, List.append_assoc], h3⟩
    obtain ⟨g1, g2⟩ := run_inv ms r _ fut hi
    refine ⟨g1, ?_⟩
    rw [List.foldl_cons, g2]
    simp only [step, arrived, List.append_assoc]
  | .poll os :: r, s, fut, h => by
    have hh := loop_inv hL ms (arrived r ++ fut) (s.inq.length + s.avail.length + 1) os s h
    obtain ⟨g1, g2⟩ := run_inv ms r (step L s (.poll os)) fut hh.1
    refine ⟨g1, ?_⟩
    rw [List.foldl_cons, g2]
    have : wire L.bytes (step L s (.poll os)).delivered ++ (step L s (.poll os)).inq ++ (step L s (.poll os)).avail = _ := hh.2
    rw [this]; rfl

omit hL in
theorem complete_eq : ∀ (del rest : List M) (n : Nat), (∀ m r, rest = m :: r → n < (L.bytes m).length) →
    complete L.bytes (del ++ rest) ((wire L.bytes del).length + n) = del
  | [], [], n, _ => rfl
  | [], m :: r, n, h => by
    rw [List.nil_append, complete, if_neg]
    have := h m r rfl
    simp [wire]; omega
  | m :: del, rest, n, h => by
    rw [List.cons_append, complete, wire_cons, List.length_append, if_pos (by omega)]
    rw [show (L.bytes m).length + (wire L.bytes del).length + n - (L.bytes m).length = (wire L.bytes del).length + n from by omega]
    rw [complete_eq del rest n h]

end
end BusW
open BusW

/-- C95: whatever pieces the bytes of messages arrive in, and however much each `read` gives: the messages delivered are, at all times, exactly those that lie
    completely in what was read so far, in order, each once. -/
theorem C95_received_partial {M : Type} (L : Lib M) (hL : BusLib L) (ms : List M) (evs : List Ev) (ha : arrived evs <+: wire L.bytes ms) :
    (run L evs).delivered = complete L.bytes ms ((arrived evs).length - (run L evs).avail.length) ∧
    ∃ taken, arrived evs = taken ++ (run L evs).avail := by
  obtain ⟨fut, hf⟩ := ha
  have hi : Inv L ms (arrived evs ++ fut) ⟨[], [], []⟩ := by
    refine ⟨ms, rfl, by rw [← hf]; rfl, fun m r _ => ?_⟩
    have := hL.least m
    simp only [List.length_nil]; omega
  obtain ⟨⟨rest, h1, h2, h3⟩, hw⟩ := run_inv hL ms evs _ fut hi
  have hw' : wire L.bytes (run L evs).delivered ++ (run L evs).inq ++ (run L evs).avail = arrived evs := by
    have : wire L.bytes ([] : List M) = [] := rfl
    rw [this] at hw
    simpa [run] using hw
  refine ⟨?_, _, hw'.symm⟩
  have hn : (arrived evs).length - (run L evs).avail.length = (wire L.bytes (run L evs).delivered).length + (run L evs).inq.length := by
    rw [← hw', List.length_append, List.length_append]; omega
  rw [hn]
  have h1' : ms = (run L evs).delivered ++ rest := h1
  have h3' : ∀ m r, rest = m :: r → (run L evs).inq.length < (L.bytes m).length := h3
  have := complete_eq (L := L) (run L evs).delivered rest (run L evs).inq.length h3'
  rw [← h1'] at this
  exact this.symm

/-- C95: each `post_select` takes at least one byte, if there is one and the stream gives one; and with all that the stream can give, up to 4096 bytes. -/
theorem C95_progress {M : Type} (L : Lib M) (s : St M) (o : Nat) (os : List Nat) :
    (loop L (s.inq.length + s.avail.length + 1) (o :: os) s).avail.length ≤ s.avail.length - min o 4096 := by
  have hmono : ∀ (f : Nat) (os : List Nat) (s : St M), (loop L f os s).avail.length ≤ s.avail.length := by
    intro f
    induction f with
    | zero => intro os s; exact Nat.le_refl _
    | succ f ih =>
      intro os s
      rw [loop]
      split
      · simp
      · refine Nat.le_trans (ih _ _) ?_
        simp
  have ham : 4096 ≤ amount L s.inq := by
    unfold amount; dsimp only; split <;> omega
  rw [loop]
  split
  · simp only [List.headD_cons, List.length_drop]; omega
  · refine Nat.le_trans (hmono _ _ _) ?_
    simp only [List.headD_cons, List.length_drop]; omega

/-- C95: what was written, and what is still queued, are the bytes of the messages sent, in order, whether they were sent before or after the connection was authorized. -/
theorem C95_sent {M : Type} (L : Lib M) (l : List (Send M)) : (sends L l).written ++ (sends L l).outq = wire L.bytes (sent l) := by
  have hw : ∀ (o : Out) k, (write o k).written ++ (write o k).outq = o.written ++ o.outq := by
    intro o k; simp [write]
  have h : ∀ (l : List (Send M)) (o : Out), (l.foldl (sstep L) o).written ++ (l.foldl (sstep L) o).outq = o.written ++ o.outq ++ wire L.bytes (sent l) := by
    intro l
    induction l with
    | nil => intro o; simp [sent, wire]
    | cons x l ih =>
      intro o
      rw [List.foldl_cons, ih]
      cases x with
      | send m k =>
        have : (sstep L o (.send m k)).written ++ (sstep L o (.send m k)).outq = o.written ++ o.outq ++ L.bytes m := by
          unfold sstep
          dsimp only
          split
          · rw [hw]; simp
          · simp
        rw [this, show sent (.send m k :: l) = m :: sent l from rfl, wire_cons, List.append_assoc]
      | auth k =>
        have : (sstep L o (.auth k)).written ++ (sstep L o (.auth k)).outq = o.written ++ o.outq := by
          unfold sstep
          dsimp only
          split
          · exact hw o k
          · rfl
        rw [this]; rfl
  simpa [sends] using h l ⟨[], false, []⟩

/-- C95: nothing is written before the connection is authorized. -/
theorem C95_quiet {M : Type} (L : Lib M) (l : List (Send M)) (h : ∀ x ∈ l, ∃ m k, x = .send m k) : (sends L l).written = [] := by
  have h2 : ∀ (l : List (Send M)) (o : Out), (∀ x ∈ l, ∃ m k, x = .send m k) → o.authorized = false → o.written = [] →
      (l.foldl (sstep L) o).written = [] := by
    intro l
    induction l with
    | nil => intro o _ _ hw; exact hw
    | cons x l ih =>
      intro o hl ha hw
      obtain ⟨m, k, rfl⟩ := hl x (by simp)
      refine ih _ (fun x hx => hl x (by simp [hx])) ?_ ?_
      · simp [sstep, ha]
      · simp [sstep, ha, hw]
  exact h2 l _ h rfl rfl

namespace BusW

/-- A library whose messages are a number and so many bytes that there are 16 or more. -/
def toy : Lib (Fin 200) where
  needed b := if b.length < 16 then 0 else if (b.headD 0).toNat < 200 then 16 + (b.headD 0).toNat else -1
  parse b := if h : (b.headD 0).toNat < 200 then (if b.getD 1 0 = 0 then some ⟨(b.headD 0).toNat, h⟩ else none) else none
  bytes m := UInt8.ofNat m.val :: List.replicate (15 + m.val) 0

theorem toy_ok : BusLib toy where
  short b h := by simp [toy, h]
  least m := by simp only [toy, List.length_cons, List.length_replicate]; omega
  len m r b h hb := by
    cases b with
    | nil => simp at h
    | cons x b =>
      have hx : x = UInt8.ofNat m.val := by
        obtain ⟨t, ht⟩ := hb
        have := congrArg List.head? ht
        simpa [toy] using this
      have hm := m.isLt
      have hv : (UInt8.ofNat m.val).toNat = m.val := by
        rw [UInt8.toNat_ofNat']; omega
      simp only [toy, List.headD_cons, hx, hv, List.length_cons, List.length_replicate]
      simp only [List.length_cons] at h
      rw [if_neg (by omega), if_pos hm]
      omega
  parse m := by
    have hm := m.isLt
    have hv : (UInt8.ofNat m.val).toNat = m.val := by
      rw [UInt8.toNat_ofNat']; omega
    simp only [toy, List.headD_cons, hv]
    rw [dif_pos hm]
    have : (UInt8.ofNat m.val :: List.replicate (15 + m.val) 0).getD 1 0 = (0 : UInt8) := by
      rw [List.getD_eq_getElem?_getD, List.getElem?_cons_succ]
      cases h : (List.replicate (15 + m.val) (0 : UInt8))[0]? with
      | none => rfl
      | some x =>
        have := List.mem_of_getElem? h
        rw [List.mem_replicate] at this
        exact this.2
    rw [if_pos this]

end BusW

example : (run toy [.arrive (toy.bytes 3), .arrive ((toy.bytes 5).take 7), .poll [4, 100, 100], .poll [100, 100], .arrive ((toy.bytes 5).drop 7), .poll [100]]).delivered = [3, 5] ∧
    (run toy [.arrive (toy.bytes 3 ++ toy.bytes 5), .poll [20]]).delivered = [3] ∧ BusLib toy :=
  ⟨by decide +kernel, by decide +kernel, toy_ok⟩

example : (sends toy [.send 1 5, .send 2 5, .auth 20, .send 3 100]).written = wire toy.bytes [1, 2, 3] := by decide +kernel

/-- C95: a message that cannot be read, though its length can, keeps the complete ones after it from being delivered, until more bytes arrive. -/
theorem C95_corrupt_fails : let bad : List Byte := 0 :: 1 :: List.replicate 14 0
    (run toy [.arrive (bad ++ toy.bytes 3), .poll [100, 100]]).delivered = [] ∧
    (run toy [.arrive (bad ++ toy.bytes 3), .poll [100, 100]]).inq = toy.bytes 3 ∧
    (run toy [.arrive (bad ++ toy.bytes 3), .poll [100, 100]]).avail = [] ∧
    (run toy [.arrive (toy.bytes 3), .poll [100, 100]]).delivered = [3] := by decide +kernel

/-- C95: with an impossible length everything that was read so far is thrown away. -/
theorem C95_garbage_fails : let bad : List Byte := 255 :: List.replicate 15 0
    (run toy [.arrive (bad ++ toy.bytes 3), .poll [100, 100], .arrive (toy.bytes 4), .poll [100, 100]]).delivered = [4] := by decide +kernel

end Props
