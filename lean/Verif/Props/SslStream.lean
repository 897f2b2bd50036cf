import Verif.Lemmas.SslStream
/-!
C73: a stream over SSL sends what was written, in the right order and once; gives what came; and, with a callback for certificates, does
nothing before that accepts the certificate.
-/
namespace Props
open Wv Wv.SslStream

namespace Ssl73

variable (dev : Nat → Ans)

/-- With no limit on the output, and its delay only after the handshake. -/
def Plain (v : Bool) (l : List Op) : Prop :=
  (∀ n, .limit n ∉ l) ∧ ∀ pre, pre ++ [.delay true] <+: l → (run dev (new v) pre).conn = true ∨ (run dev (new v) pre).live = false

theorem loop_all (hall : ∀ i, (dev i).wr = .all) : ∀ (n : Nat) (b : List Byte) (total : Nat) (s : St), b.length + 1 ≤ n → s.wbIdx = 0 →
    (uwriteLoop dev n b total s).2 = total + b.length ∧ isok (uwriteLoop dev n b total s).1 = isok s
      ∧ (uwriteLoop dev n b total s).1.outbuf = s.outbuf := by
  intro n
  induction n with
  | zero => intro b total s h; omega
  | succ n ih =>
    intro b total s hn hidx
    unfold uwriteLoop
    by_cases hend : (s.wb.isEmpty && b.isEmpty) = true
    · rw [if_pos hend]
      simp only [Bool.and_eq_true, List.isEmpty_iff] at hend
      rw [hend.2]
      exact ⟨rfl, rfl, rfl⟩
    · rw [if_neg hend]
      have hs1 : isok (if s.wb.isEmpty then { s with wb := b.take (bounceSize - s.wbIdx) } else s) = isok s
          ∧ (if s.wb.isEmpty then { s with wb := b.take (bounceSize - s.wbIdx) } else s).wb ≠ []
          ∧ (if s.wb.isEmpty then { s with wb := b.take (bounceSize - s.wbIdx) } else s).outbuf = s.outbuf := by
        split
        next he =>
          refine ⟨rfl, ?_, rfl⟩
          show b.take (bounceSize - s.wbIdx) ≠ []
          rw [hidx]
          cases b with
          | nil => rw [he] at hend; exact absurd rfl hend
          | cons x t => simp [bounceSize]
        next he => exact ⟨rfl, fun h => he (by rw [h]; rfl), rfl⟩
      dsimp only
      generalize (if s.wb.isEmpty then { s with wb := b.take (bounceSize - s.wbIdx) } else s) = s1 at hs1 ⊢
      obtain ⟨hok, hne, hob⟩ := hs1
      have hw : (sslWrite dev s1).2 = .all ∧ (sslWrite dev s1).1.wb = s1.wb ∧ isok (sslWrite dev s1).1 = isok s1 ∧ (sslWrite dev s1).1.outbuf = s1.outbuf := by
        unfold sslWrite; dsimp only; rw [hall]; exact ⟨rfl, rfl, rfl, rfl⟩
      generalize sslWrite dev s1 = r at hw ⊢
      obtain ⟨s2, a⟩ := r
      obtain ⟨ha, hwb, hok2, hob2⟩ := hw
      dsimp only at ha hwb hok2 hob2
      subst ha
      dsimp only
      split
      · exact ⟨rfl, hok2.trans hok, hob2.trans hob⟩
      next hlt =>
        have hpos : 0 < s2.wb.length := by rw [hwb]; exact List.length_pos_iff.mpr hne
        obtain ⟨i1, i2, i3⟩ := ih (b.drop s2.wb.length) (total + s2.wb.length) { s2 with wb := [], wbIdx := 0 } (by rw [List.length_drop]; omega) rfl
        refine ⟨?_, i2.trans (hok2.trans hok), i3.trans (hob2.trans hob)⟩
        rw [i1, List.length_drop]; omega

theorem uwrite_all (hall : ∀ i, (dev i).wr = .all) (b : List Byte) (s : St) (hc : s.conn = true) (hi : s.wbIdx = 0) :
    (uwrite dev b s).2 = b.length ∧ isok (uwrite dev b s).1 = isok s ∧ (uwrite dev b s).1.outbuf = s.outbuf := by
  unfold uwrite
  rw [if_neg (by rw [hc]; decide)]
  split
  next hb => rw [List.isEmpty_iff] at hb; rw [hb]; exact ⟨rfl, rfl, rfl⟩
  · split
    · obtain ⟨h1, h2, h3⟩ := loop_all dev hall (b.length + 2) [] b.length { s with eat := s.eat - b.length } (by simp) hi
      exact ⟨h1, h2, h3⟩
    · obtain ⟨h1, h2, h3⟩ := loop_all dev hall (b.length + 2) (b.drop s.eat) s.eat { s with eat := 0 } (by rw [List.length_drop]; omega) hi
      refine ⟨?_, h2, h3⟩
      rw [h1, List.length_drop]; omega

/-- What one `flush` does, when nothing has to wait. -/
theorem flush_all (hall : ∀ i, (dev i).wr = .all) (hfl : ∀ i, (dev i).flushed = true) {T : List Byte} {s : St} (h : Con T s) :
    (Con T (flush dev s) ∧ (flush dev s).outbuf.length ≤ s.outbuf.length - 1) ∨ (Dead T (flush dev s) ∧ (flush dev s).sent = T) := by
  have hdone : ∀ t : St, Con T t → t.outbuf.length ≤ s.outbuf.length - 1 →
      (Con T (autoclose t) ∧ (autoclose t).outbuf.length ≤ s.outbuf.length - 1) ∨ (Dead T (autoclose t) ∧ (autoclose t).sent = T) := by
    intro t ht hl
    unfold autoclose
    split
    next hc =>
      simp only [Bool.and_eq_true, List.isEmpty_iff] at hc
      right
      refine ⟨close_dead ht.bad ht.pre ht.max, ?_⟩
      show t.sent = T
      obtain ⟨C, h1, h2, _, _⟩ := ht.main
      rw [h1, h2, hc.1.1.2]; simp
    · exact Or.inl ⟨ht, hl⟩
  unfold flush
  dsimp only
  rw [if_pos (hfl _)]
  have h' : Con T { s with want := true, tick := s.tick + 1 } := h.same rfl
  by_cases ho : s.outbuf = []
  · unfold flushOutbuf
    rw [if_pos (by show s.outbuf.isEmpty = true; rw [ho]; rfl)]
    exact hdone _ (h.same rfl) (by show s.outbuf.length ≤ _; rw [ho]; exact Nat.zero_le _)
  · rw [flushOutbuf_eq dev h'.ok ho]
    obtain ⟨n, hn⟩ : ∃ n, n = max 1 (min (dev (s.tick + 1)).chunk s.outbuf.length) := ⟨_, rfl⟩
    obtain ⟨u1, u2, u3⟩ := uwrite_all dev hall (s.outbuf.take n) { s with want := true, tick := s.tick + 1 + 1 } h.conn h.idx
    have hlen : 1 ≤ (s.outbuf.take n).length := by
      rw [List.length_take]
      have := List.length_pos_iff.mpr ho
      omega
    have e : flushed dev { s with want := true, tick := s.tick + 1 }
        = { (uwrite dev (s.outbuf.take n) { s with want := true, tick := s.tick + 1 + 1 }).1 with outbuf := s.outbuf.drop (s.outbuf.take n).length } := by
      unfold flushed
      dsimp only
      rw [← hn, if_pos (u2.trans h'.ok), u1, u3]
    rcases flushed_spec dev h' ho with g | g
    · refine hdone _ g ?_
      rw [e]
      show (s.outbuf.drop (s.outbuf.take n).length).length ≤ s.outbuf.length - 1
      rw [List.length_drop]; omega
    · have hok : isok (flushed dev { s with want := true, tick := s.tick + 1 }) = true := by
        rw [e]; exact u2.trans h'.ok
      rw [g.notok] at hok; cases hok

theorem flush_dead_sent {T : List Byte} {s : St} (h : Dead T s) : Dead T (flush dev s) ∧ (flush dev s).sent = s.sent := by
  have h2 := flush_dead dev h
  exact ⟨h2, ((mon_flush dev s).off h.conn).1⟩

theorem flushes (hall : ∀ i, (dev i).wr = .all) (hfl : ∀ i, (dev i).flushed = true) {T : List Byte} : ∀ (n : Nat) {s : St},
    (Con T s ∧ s.outbuf.length ≤ n) ∨ (Dead T s ∧ s.sent = T) → (run dev s (List.replicate n .flush)).sent = T := by
  intro n
  induction n with
  | zero =>
    intro s h
    rcases h with ⟨h, hl⟩ | ⟨_, h⟩
    · show s.sent = T
      obtain ⟨C, h1, h2, _, _⟩ := h.main
      have : s.outbuf = [] := List.length_eq_zero_iff.mp (by omega)
      rw [h1, h2, this]; simp
    · exact h
  | succ n ih =>
    intro s h
    refine ih (s := flush dev s) ?_
    rcases h with ⟨h, hl⟩ | ⟨h, h2⟩
    · rcases flush_all dev hall hfl h with ⟨g, gl⟩ | g
      · exact Or.inl ⟨g, by omega⟩
      · exact Or.inr g
    · exact Or.inr ⟨(flush_dead_sent dev h).1, (flush_dead_sent dev h).2.trans h2⟩

theorem inv_of (v : Bool) (l : List Op) (h : Plain dev v l) : Inv (run dev (new v) l) := inv_run dev l (inv_new v) h.1 h.2

theorem run_app (s : St) (a b : List Op) : run dev s (a ++ b) = run dev (run dev s a) b := by unfold run; rw [List.foldl_append]

/-- The answers of a device in which everything goes well, after as many rounds of the handshake as are told. -/
def good (n : Nat) : Nat → Ans := fun i => ⟨.all, .data 7 [8, 9], 100, true, false, true, if i < n then .again else .done, true, true⟩

/-- As that, but `SSL_write` tells to wait until the answer `m`. -/
def slow (n m : Nat) : Nat → Ans := fun i => { good n i with wr := if i < m then .wait else .all }

end Ssl73

open Ssl73

/-- For every stream and history of calls, without `outbuf_limit` and with `delay_output(true)` only after the handshake, whatever the
    SSL library and the stream below answer: what the peer is sent is the beginning of what `write` took; and after a call of
    `SSL_write` that told to wait, the next one has the same bytes in the same place. While the stream is in order: before the handshake nothing is sent
    and all that was taken is kept; after that, what was taken is what was sent and then the output buffer, without what of that was sent before. -/
theorem C73_sent_partial (dev : Nat → Ans) (v : Bool) (l : List Op) (h : Plain dev v l) :
    (run dev (new v) l).sent <+: (run dev (new v) l).taken ∧ (run dev (new v) l).bad = false
    ∧ (isok (run dev (new v) l) = true → (run dev (new v) l).conn = false → (run dev (new v) l).sent = [] ∧ (run dev (new v) l).unconn = (run dev (new v) l).taken)
    ∧ (isok (run dev (new v) l) = true → (run dev (new v) l).conn = true →
        (run dev (new v) l).taken = (run dev (new v) l).sent ++ (run dev (new v) l).outbuf.drop (run dev (new v) l).eat)
    ∧ (isok (run dev (new v) l) = true → (run dev (new v) l).conn = true → (run dev (new v) l).outbuf = [] → (run dev (new v) l).sent = (run dev (new v) l).taken) := by
  have hi := inv_of dev v l h
  generalize run dev (new v) l = s at hi ⊢
  cases hi with
  | un g t =>
    refine ⟨by rw [g.sent]; exact List.nil_prefix, g.bad, fun _ _ => ⟨g.sent, t.symm⟩, fun _ hc => ?_, fun _ hc => ?_⟩
    · rw [g.conn] at hc; cases hc
    · rw [g.conn] at hc; cases hc
  | con g =>
    have hm : s.taken = s.sent ++ s.outbuf.drop s.eat := by
      obtain ⟨C, h1, h2, _, _⟩ := g.main
      rw [h2, List.append_assoc, List.take_append_drop]; exact h1
    refine ⟨g.pre, g.bad, fun _ hc => ?_, fun _ _ => hm, fun _ _ ho => ?_⟩
    · rw [g.conn] at hc; cases hc
    · rw [hm, ho]; simp
  | dead g =>
    refine ⟨g.sent, g.bad, fun ho => ?_, fun ho => ?_, fun ho => ?_⟩ <;> · rw [g.notok] at ho; cases ho

-- Written before and after the handshake; `SSL_write` tells to wait twice.
example : Plain (slow 5 13) true [.write [1, 2], .poll true, .poll true, .write [3], .write [4], .flush] :=
  ⟨by intro n; simp, fun pre hp => by
    have : (Op.delay true) ∈ [Op.write [1, 2], .poll true, .poll true, .write [3], .write [4], .flush] := hp.subset (by simp)
    simp at this⟩
example : (run (slow 5 99) (new true) [.write [1, 2], .poll true, .poll true, .write [3], .write [4], .flush]).sent = []
    ∧ (run (slow 5 99) (new true) [.write [1, 2], .poll true, .poll true, .write [3], .write [4], .flush]).retry = some (0, [1, 2])
    ∧ (run (slow 5 13) (new true) [.write [1, 2], .poll true, .poll true, .write [3], .write [4], .flush]).sent = [1, 2, 3, 4] := by decide +kernel

/-- When neither `SSL_write` nor the stream below make it wait, as many calls of `flush` as there are bytes in the output buffer are enough that
    everything is sent that was taken. -/
theorem C73_flush (dev : Nat → Ans) (v : Bool) (l : List Op) (n : Nat) (h : Plain dev v l) (hok : isok (run dev (new v) l) = true)
    (hc : (run dev (new v) l).conn = true) (hn : (run dev (new v) l).outbuf.length ≤ n) (dev' : Nat → Ans) (hall : ∀ i, (dev' i).wr = .all)
    (hfl : ∀ i, (dev' i).flushed = true) :
    (run dev' (run dev (new v) l) (List.replicate n .flush)).sent = (run dev (new v) l).taken := by
  have hi := inv_of dev v l h
  generalize run dev (new v) l = s at hi hok hc hn ⊢
  cases hi with
  | un g t => rw [g.conn] at hc; cases hc
  | con g => exact flushes dev' hall hfl n (Or.inl ⟨g, hn⟩)
  | dead g => rw [g.notok] at hok; cases hok

-- Two bytes in the output buffer, one of them also in the bounce buffer.
example : (run (slow 3 99) (new true) [.poll true, .poll true, .write [1], .write [2]]).outbuf = [1, 2]
    ∧ (run (slow 3 99) (new true) [.poll true, .poll true, .write [1], .write [2]]).wb = [1]
    ∧ (run (good 0) (run (slow 3 99) (new true) [.poll true, .poll true, .write [1], .write [2]]) [.flush]).sent = [1, 2] := by decide +kernel

/-- For every history: what `SSL_read` gave is what `read` gave, and then what is in the buffers. -/
theorem C73_received (dev : Nat → Ans) (v : Bool) (l : List Op) :
    (run dev (new v) l).got = (run dev (new v) l).given ++ (run dev (new v) l).inbuf ++ (run dev (new v) l).rb :=
  rdy_run dev l rfl

example : (run (good 0) (new true) [.poll true, .read 2, .read 5, .queuemin 5, .read 1, .read 2]).got = [7, 8, 9, 7, 8, 9, 7, 8, 9]
    ∧ (run (good 0) (new true) [.poll true, .read 2, .read 5, .queuemin 5, .read 1, .read 2]).given = [7, 8, 9, 7, 8]
    ∧ (run (good 0) (new true) [.poll true, .read 2, .read 5, .queuemin 5, .read 1, .read 2]).inbuf = [9, 7, 8] := by decide +kernel

/-- Once it is connected: what is left of what `SSL_read` gave makes the stream readable without a wait, and the next `read` gives of it what
    it asks for. A `read` that gave something, but less than what was asked for, leaves the stream so, too. -/
theorem C73_ready (dev : Nat → Ans) (s : St) (hc : s.conn = true) :
    (s.rb ≠ [] → noWait s = true ∧ (poll dev true s).2 = true)
    ∧ (∀ n, s.queueMin = 0 → s.inbuf = [] → s.rb ≠ [] → (SslStream.read dev n s).2 = s.rb.take n)
    ∧ (∀ n, s.queueMin = 0 → s.inbuf = [] → (SslStream.read dev n s).2 ≠ [] → (SslStream.read dev n s).2.length < n → (SslStream.read dev n s).1.pending = true)
    ∧ (∀ n b t, s.queueMin = 0 → s.inbuf = [] → s.rb = [] → 0 < n → (dev s.tick).rd = .data b t → (SslStream.read dev n s).2 = (b :: t).take (min n 16384)) := by
  have hread : ∀ n, s.queueMin = 0 → s.inbuf = [] → SslStream.read dev n s = (autoclose (uread dev n s).1, (uread dev n s).2) := by
    intro n hq hi
    have hlt : ¬ s.inbuf.length < s.queueMin := by rw [hq]; exact Nat.not_lt_zero _
    unfold SslStream.read
    simp only [if_neg hlt]
    rw [if_pos (by rw [hi]; rfl)]
  have hpend : ∀ t : St, (autoclose t).pending = t.pending := by intro t; unfold autoclose; split <;> rfl
  refine ⟨fun hr => ?_, fun n hq hi hr => ?_, fun n hq hi => ?_, fun n b t hq hi hr hn hd => ?_⟩
  · have hr' : s.rb.isEmpty = false := by
      cases hx : s.rb with
      | nil => exact absurd hx hr
      | cons a l => rfl
    refine ⟨by unfold noWait; rw [hr']; simp, ?_⟩
    unfold poll
    dsimp only
    have m1 := mon_poll1 dev s
    have e1 : side (if s.want then flush dev s else s) = side s := by
      split
      · exact side_flush dev s
      · rfl
    generalize (if s.want then flush dev s else s) = s1 at m1 e1 ⊢
    have m2 := m1.trans (mon_poll2 dev s1)
    have e2 : side (if (dev s1.tick).lowWant then flush dev { s1 with tick := s1.tick + 1 } else { s1 with tick := s1.tick + 1 }) = side s1 := by
      split
      · rw [side_flush]; rfl
      · rfl
    generalize (if (dev s1.tick).lowWant then flush dev { s1 with tick := s1.tick + 1 } else { s1 with tick := s1.tick + 1 }) = s2 at m2 e2 ⊢
    have hrb : s2.rb = s.rb := congrArg (fun x => x.2.2.2.1) (e2.trans e1)
    rw [if_neg (by
      rcases m2.conn with ⟨a, _⟩ | ⟨_, a⟩
      · rw [a, hc]; simp
      · rw [a]; simp)]
    show ((true && (s2.pending || !s2.rb.isEmpty)) || (dev s1.tick).ready) = true
    rw [hrb, hr']; simp
  · rw [hread n hq hi]
    show (uread dev n s).2 = _
    unfold uread
    by_cases hn : n = 0
    · rw [if_pos (by rw [hn]; simp), hn]; rfl
    · rw [if_neg (by rw [hc]; simpa using hn)]
      dsimp only
      rw [if_pos (by cases hx : s.rb with
        | nil => exact absurd hx hr
        | cons a l => rfl)]
  · rw [hread n hq hi]
    show (uread dev n s).2 ≠ [] → (uread dev n s).2.length < n → (autoclose (uread dev n s).1).pending = true
    rw [hpend]
    unfold uread
    split
    · intro h; exact absurd rfl h
    · dsimp only
      split
      · intro _ hl
        rw [List.length_take] at hl
        simp only [Bool.not_eq_true', decide_eq_false_iff_not]
        omega
      · split
        · intro _ hl
          dsimp only at hl ⊢
          rw [List.length_take] at hl
          simp only [Bool.not_eq_true', decide_eq_false_iff_not]
          omega
        · intro h; exact absurd rfl h
        · intro h; exact absurd rfl h
        · intro h; exact absurd rfl h
  · rw [hread n hq hi]
    show (uread dev n s).2 = _
    unfold uread
    rw [if_neg (by rw [hc]; simpa using (by omega : ¬ n = 0))]
    dsimp only
    rw [if_neg (by rw [hr]; decide)]
    rw [hd]
    show ((b :: t).take bounceSize).take n = _
    rw [List.take_take]; rfl

example : (run (good 0) (new true) [.poll true, .read 2]).conn = true ∧ (run (good 0) (new true) [.poll true, .read 2]).rb = [9]
    ∧ (run (good 0) (new true) [.poll true, .read 4]).pending = true := by decide +kernel

/-- With a callback for certificates: before an attempt at the handshake is not told to fail or to go on, with a valid certificate that the callback accepts,
    the stream does not connect, and nothing is sent or received. -/
theorem C73_verified (dev : Nat → Ans) (l : List Op)
    (h : (run dev (new true) l).conn = true ∨ (run dev (new true) l).sent ≠ [] ∨ (run dev (new true) l).got ≠ []) :
    ∃ i, i < (run dev (new true) l).tick ∧ (dev i).hs ≠ .again ∧ (dev i).hs ≠ .fail ∧ (dev i).cert = true ∧ (dev i).accept = true := by
  have hv := ver_run dev l (s := new true) (fun _ => Or.inl ⟨rfl, rfl, rfl⟩) (run_vcb dev l)
  rcases hv with ⟨a, b, c⟩ | hv
  · rcases h with h | h | h
    · rw [a] at h; cases h
    · exact absurd b h
    · exact absurd c h
  · exact hv

example : (run (good 3) (new true) [.write [1], .poll true, .poll true]).sent = [1]
    ∧ (run (fun i => { good 3 i with accept := false }) (new true) [.write [1], .poll true, .poll true]).sent = []
    ∧ isok (run (fun i => { good 3 i with accept := false }) (new true) [.write [1], .poll true, .poll true]) = false := by decide +kernel

/-- With `delay_output` before the handshake is done, the order is not kept: what is written after that is sent first. -/
theorem C73_delay_fails : ∃ (dev : Nat → Ans) (l : List Op), isok (run dev (new false) l) = true ∧ (run dev (new false) l).outbuf = []
    ∧ (run dev (new false) l).taken = [1, 2] ∧ (run dev (new false) l).sent = [2, 1] :=
  ⟨good 0, [.write [1], .delay true, .write [2], .poll true, .delay false, .flush, .flush], by decide +kernel⟩

/-- With a limit on the output buffer, bytes are sent that `write` did not take, and not those that it took after that. -/
theorem C73_limit_fails : ∃ (dev : Nat → Ans) (l : List Op), isok (run dev (new false) l) = true ∧ (run dev (new false) l).outbuf = []
    ∧ (run dev (new false) l).taken = [1, 4] ∧ (run dev (new false) l).sent = [1, 2] :=
  ⟨slow 0 7, [.poll true, .limit 1, .write [1, 2], .flush, .write [4], .flush, .flush], by decide +kernel⟩

/-- `close` does not write what is in the output buffer, even if nothing would make it wait. -/
theorem C73_close_fails : ∃ (dev : Nat → Ans) (l : List Op), isok (run dev (new false) l) = true ∧ (run dev (new false) l).conn = true
    ∧ (run dev (new false) l).taken = [1] ∧ (run dev (run dev (new false) l) [.flush]).sent = [1]
    ∧ ∀ dev' l', (run dev' (run dev (new false) l) (.close :: l')).sent = [] := by
  refine ⟨slow 0 7, [.poll true, .write [1]], by decide +kernel, by decide +kernel, by decide +kernel, by decide +kernel, fun dev' l' => ?_⟩
  have key : ∀ (l' : List Op) (s : St), s.conn = false → s.live = false → (run dev' s l').sent = s.sent := by
    intro l'
    induction l' with
    | nil => intro s _ _; rfl
    | cons o l' ih =>
      intro s hc hl
      have hm : ∀ t : St, Mon s t → (run dev' t l').sent = s.sent := by
        intro t m
        have hconn : t.conn = false ∧ t.live = false := by
          rcases m.conn with ⟨a, b⟩ | h
          · exact ⟨a.trans hc, b.trans hl⟩
          · exact h
        rw [ih t hconn.1 hconn.2, (m.off hc).1]
      show (run dev' (step dev' s o) l').sent = s.sent
      apply hm
      cases o with
      | write b => exact (mon_write dev' b s).trans (mon_eq rfl rfl rfl rfl rfl rfl)
      | flush => exact mon_flush dev' s
      | poll r =>
        show Mon s (poll dev' r s).1
        unfold poll
        dsimp only
        have m1 := mon_poll1 dev' s
        generalize (if s.want then flush dev' s else s) = s1 at m1 ⊢
        have m2 := m1.trans (mon_poll2 dev' s1)
        generalize (if (dev' s1.tick).lowWant then flush dev' { s1 with tick := s1.tick + 1 } else { s1 with tick := s1.tick + 1 }) = s2 at m2 ⊢
        rw [if_neg (by
          rcases m2.conn with ⟨_, a⟩ | ⟨_, a⟩
          · rw [a, hl]; simp
          · rw [a]; simp)]
        exact m2
      | read n => exact (mon_read dev' n s).trans (mon_eq rfl rfl rfl rfl rfl rfl)
      | noread =>
        refine Mon.trans ?_ (mon_autoclose _)
        unfold noread; dsimp only; split <;> exact mon_eq rfl rfl rfl rfl rfl rfl
      | nowrite =>
        refine Mon.trans ?_ (mon_autoclose _)
        unfold nowrite; dsimp only; split <;> exact mon_eq rfl rfl rfl rfl rfl rfl
      | close => exact mon_close s
      | delay b => exact mon_eq rfl rfl rfl rfl rfl rfl
      | auto b => exact mon_eq rfl rfl rfl rfl rfl rfl
      | limit n => exact mon_eq rfl rfl rfl rfl rfl rfl
      | queuemin n => exact mon_eq rfl rfl rfl rfl rfl rfl
  refine (key l' (close _) rfl rfl).trans ?_
  decide +kernel

/-- `noread` and `nowrite` before the handshake is done: the stream closes, and what was written is lost, though it would have waited for an output buffer
    to be empty. -/
theorem C73_early_fails : ∃ (dev : Nat → Ans) (l : List Op), isok (run dev (new false) l) = true ∧ (run dev (new false) l).taken = [1]
    ∧ isok (run dev (run dev (new false) l) [.noread, .nowrite]) = false ∧ (run dev (run dev (new false) l) [.noread, .nowrite]).sent = []
    ∧ (run dev (run dev (new false) l) [.poll true]).sent = [1] :=
  ⟨good 0, [.write [1]], by decide +kernel⟩

/-- Without a callback, a handshake that failed and was shut down (`SSL_connect` gives 0) is taken to be done. -/
theorem C73_zero_fails : ∃ (dev : Nat → Ans) (l : List Op), (∀ i, (dev i).hs = .zero) ∧ isok (run dev (new false) l) = true
    ∧ (run dev (new false) l).conn = true :=
  ⟨fun i => { good 0 i with hs := .zero }, [.poll true], fun _ => rfl, by decide +kernel⟩

/-- After `nowrite` alone, `write` goes on. -/
theorem C73_nowrite_fails : ∃ (dev : Nat → Ans) (l : List Op), .nowrite ∈ l ∧ (write dev [5] (run dev (new false) l)).2 = 1
    ∧ (run dev (run dev (new false) l) [.write [5]]).sent = [5] :=
  ⟨good 0, [.poll true, .nowrite], by simp, by decide +kernel⟩

end Props
