import Verif.Model.Tcp
import Verif.Model.Resolver
import Verif.Props.Addr
/-
C104: outgoing connections.
-/
namespace Props
open Wv Wv.Tcp Spec.Tcp
open Spec.Addr (Addr)

namespace TcpP

/-- How often a socket was opened, and closed. -/
def opens (n : Nat) (log : List Ev) : Nat := log.countP (fun e => e = .opened n)
def shuts (n : Nat) (log : List Ev) : Nat := log.countP (fun e => e = .shut n)

/-- What always holds; `acc` is what the user wrote, `P` where it may connect to. -/
structure Core (P : Addr → Nat → Prop) (acc : List Byte) (c : Conn) : Prop where
  res : c.connected = true → c.resolved = true
  keep : (c.resolved = false ∨ (c.closed = false ∧ c.err = none)) → sent c.log ++ c.outbuf = acc
  pre : sent c.log <+: acc
  err : c.err = c.log.findSome? Ev.failure
  succ : c.connected = true → c.err = none → ∃ n e, e ∈ c.log ∧ e.success n = true ∧ (c.closed = false → c.fd = some n)
  conv : ∀ n, ∀ e ∈ c.log, e.success n = true → c.connected = true
  wr : Ordered c.log
  tgt : ∀ fd a p r, Ev.connect fd a p r ∈ c.log → P a p
  fds : ∀ n, opens n c.log = shuts n c.log + (if c.fd = some n then 1 else 0)
  used : ∀ n, 0 < opens n c.log → n < c.next
  nofd : c.resolved = false → c.fd = none

/-- And between the calls. -/
structure Inv (P : Addr → Nat → Prop) (acc : List Byte) (c : Conn) : Prop extends Core P acc c where
  live : c.resolved = true → c.closed = false → c.err = none → ∃ n, c.fd = some n
  now : c.resolved = true → P c.addr c.port ∨ c.fd = none

variable {P : Addr → Nat → Prop}

theorem sent_append (l m : List Ev) : sent (l ++ m) = sent l ++ sent m := by simp [sent]
theorem opens_append (n : Nat) (l m : List Ev) : opens n (l ++ m) = opens n l + opens n m := by simp [opens]
theorem shuts_append (n : Nat) (l m : List Ev) : shuts n (l ++ m) = shuts n l + shuts n m := by simp [shuts]

theorem ordered_snoc (l : List Ev) (e : Ev) (h : Ordered l) (he : ∀ fd d, e = .wrote fd d → ∃ x ∈ l, x.success fd = true) : Ordered (l ++ [e]) := by
  intro l' fd d r hl
  rcases List.eq_nil_or_concat r with rfl | ⟨r', x, rfl⟩
  · have := List.append_inj' hl rfl
    obtain ⟨h1, h2⟩ := this
    simp only [List.cons.injEq, and_true] at h2
    rw [← h1]
    exact he fd d h2
  · have e1 : l' ++ Ev.wrote fd d :: (r' ++ [x]) = (l' ++ Ev.wrote fd d :: r') ++ [x] := by simp
    simp only [List.concat_eq_append] at hl
    rw [e1] at hl
    exact h l' fd d r' (List.append_inj' hl rfl).1

theorem find_snoc (l : List Ev) (e : Ev) : (l ++ [e]).findSome? Ev.failure = (l.findSome? Ev.failure).or e.failure := by
  rw [List.findSome?_append]
  simp only [List.findSome?_cons, List.findSome?_nil]
  cases e.failure <;> rfl

/-- Events of failures: nothing else. -/
structure Fails (P : Addr → Nat → Prop) (e : Ev) (x : Err) : Prop where
  fail : e.failure = some x
  quiet : ∀ n, e.success n = false
  none : sent [e] = []
  opens : ∀ n, opens n [e] = 0
  shuts : ∀ n, shuts n [e] = 0
  tgt : ∀ fd a p r, e = .connect fd a p r → P a p

theorem fails_connect (fd : Nat) (a : Addr) (p e : Nat) (hP : P a p) (h1 : e ≠ 106) (h2 : e ≠ 115 ∧ e ≠ 11 ∧ e ≠ 114 ∧ e ≠ 22) :
    Fails P (.connect fd a p (some e)) (.errno e) where
  fail := by simp [Ev.failure, pending, h1, h2]
  quiet n := by simp [Ev.success, h1]
  none := rfl
  opens n := by simp [TcpP.opens]
  shuts n := by simp [TcpP.shuts]
  tgt fd' a' p' r' h := by
    simp only [Ev.connect.injEq] at h
    obtain ⟨_, rfl, rfl, _⟩ := h
    exact hP

/-- The failures that are not from `connect`. -/
def plain : Ev → Bool
  | .nosocket _ => true
  | .sockerr _ => true
  | .wfail _ => true
  | .rfail _ => true
  | .nohost _ => true
  | _ => false

theorem fails_plain (e : Ev) (x : Err) (hp : plain e = true) (h : e.failure = some x) : Fails P e x where
  fail := h
  quiet n := by cases e <;> simp_all [plain, Ev.success]
  none := by cases e <;> simp_all [plain, sent]
  opens n := by cases e <;> simp_all [plain, TcpP.opens]
  shuts n := by cases e <;> simp_all [plain, TcpP.shuts]
  tgt fd a p r e' := by subst e'; simp [plain] at hp

/-- Adding the event of a failure keeps most of it. -/
theorem log_fail {acc : List Byte} {c : Conn} {e : Ev} {x : Err} (h : Core P acc c) (f : Fails P e x) :
    sent (c.log ++ [e]) = sent c.log ∧ Ordered (c.log ++ [e]) ∧ (∀ fd a p r, Ev.connect fd a p r ∈ c.log ++ [e] → P a p) ∧
    (∀ n, ∀ y ∈ c.log ++ [e], y.success n = true → y ∈ c.log) ∧ (∀ n, opens n (c.log ++ [e]) = opens n c.log) ∧ (∀ n, shuts n (c.log ++ [e]) = shuts n c.log) := by
  refine ⟨by rw [sent_append, f.none, List.append_nil], ordered_snoc _ _ h.wr ?_, ?_, ?_, ?_, ?_⟩
  · intro fd d he
    have := f.fail
    rw [he] at this
    simp [Ev.failure] at this
  · intro fd a p r hm
    rcases List.mem_append.mp hm with q | q
    · exact h.tgt fd a p r q
    · exact f.tgt fd a p r (List.mem_singleton.mp q).symm
  · intro n y hy hs
    rcases List.mem_append.mp hy with q | q
    · exact q
    · rw [List.mem_singleton] at q
      rw [q, f.quiet] at hs
      simp at hs
  · intro n; rw [opens_append, f.opens]; rfl
  · intro n; rw [shuts_append, f.shuts]; rfl

/-- A failure is logged and set, if it is the first one, and the socket is closed. -/
theorem fail_ok {acc : List Byte} {c : Conn} {e : Ev} {x : Err} (h : Core P acc c) (f : Fails P e x) (hr : c.resolved = true) (k : Bool)
    (hk : c.connected = true → k = true) :
    let c' := seterr { c with log := c.log ++ [e], connected := k } x
    Core P acc c' ∧ c'.err ≠ none ∧ c'.resolved = true ∧ c'.connected = k ∧ c'.addr = c.addr ∧ c'.port = c.port := by
  obtain ⟨l1, l2, l3, l4, l5, l6⟩ := log_fail h f
  have le : (c.log ++ [e]).findSome? Ev.failure = c.err.or (some x) := by rw [find_snoc, f.fail, h.err]
  unfold seterr
  cases he : c.err with
  | some y =>
    simp only [he, Option.isSome_some, if_true]
    refine ⟨⟨fun _ => hr, ?_, ?_, ?_, ?_, ?_, l2, l3, ?_, ?_, ?_⟩, by simp [he], hr, by trivial, by trivial, by trivial⟩
    · rintro (q | ⟨_, q⟩)
      · simp [hr] at q
      · simp [he] at q
    · rw [l1]; exact h.pre
    · rw [le, he]; rfl
    · intro _ q; simp [he] at q
    · intro n y hy hs; exact hk (h.conv n y (l4 n y hy hs) hs)
    · intro n; rw [l5, l6]; exact h.fds n
    · intro n; rw [l5]; exact h.used n
    · intro q; simp [hr] at q
  | none =>
    simp only [he, Option.isSome_none, Bool.false_eq_true, if_false]
    by_cases hc : c.closed = true
    · rw [if_pos hc]
      refine ⟨⟨fun _ => hr, ?_, ?_, ?_, ?_, ?_, l2, l3, ?_, ?_, ?_⟩, by simp, hr, by trivial, by trivial, by trivial⟩
      · rintro (q | ⟨q, _⟩)
        · simp [hr] at q
        · simp [hc] at q
      · rw [l1]; exact h.pre
      · rw [le, he]; rfl
      · intro _ q; simp at q
      · intro n y hy hs; exact hk (h.conv n y (l4 n y hy hs) hs)
      · intro n; rw [l5, l6]; exact h.fds n
      · intro n; rw [l5]; exact h.used n
      · intro q; simp [hr] at q
    · rw [if_neg hc]
      unfold shut
      cases hf : c.fd with
      | none =>
        simp only [hf]
        refine ⟨⟨fun _ => hr, ?_, ?_, ?_, ?_, ?_, l2, l3, ?_, ?_, ?_⟩, by simp, hr, by trivial, by trivial, by trivial⟩
        · rintro (q | ⟨q, _⟩)
          · simp [hr] at q
          · simp at q
        · rw [l1]; exact h.pre
        · rw [le, he]; rfl
        · intro _ q; simp at q
        · intro n y hy hs; exact hk (h.conv n y (l4 n y hy hs) hs)
        · intro n; rw [l5, l6]; have := h.fds n; rw [hf] at this; exact this
        · intro n; rw [l5]; exact h.used n
        · intro _; rfl
      | some m =>
        simp only [hf]
        refine ⟨⟨fun _ => hr, ?_, ?_, ?_, ?_, ?_, ?_, ?_, ?_, ?_, ?_⟩, by simp, hr, by trivial, by trivial, by trivial⟩
        · rintro (q | ⟨q, _⟩)
          · simp [hr] at q
          · simp at q
        · rw [sent_append, l1]; simpa [sent] using h.pre
        · rw [find_snoc, le, he]; rfl
        · intro _ q; simp at q
        · intro n y hy hs
          rcases List.mem_append.mp hy with q | q
          · exact hk (h.conv n y (l4 n y q hs) hs)
          · rw [List.mem_singleton] at q; subst q; simp [Ev.success] at hs
        · exact ordered_snoc _ _ l2 (by intro fd d q; simp at q)
        · intro fd a p r hm
          rcases List.mem_append.mp hm with q | q
          · exact l3 fd a p r q
          · simp at q
        · intro n
          rw [opens_append, shuts_append, l5, l6, h.fds n, hf]
          by_cases e : m = n
          · subst e; simp [opens, shuts]
          · simp [opens, shuts, e]
        · intro n
          rw [opens_append, l5]
          have : opens n [Ev.shut m] = 0 := by simp [opens]
          rw [this]; exact h.used n
        · intro _; rfl

/-- `connect` with a socket. -/
theorem try_ok {acc : List Byte} {c : Conn} (h : Core P acc c) (n : Nat) (res : Option Nat) (hr : c.resolved = true) (hf : c.fd = some n) (hP : P c.addr c.port) :
    Inv P acc (tryConnect c n res) := by
  have good : ∀ res', res = res' → (res' = none ∨ res' = some 106) →
      Inv P acc { c with log := c.log ++ [.connect n c.addr c.port res'], connected := true } := by
    intro res' _ hres
    have hs : (Ev.connect n c.addr c.port res').success n = true := by rcases hres with q | q <;> simp [Ev.success, q]
    have hn : (Ev.connect n c.addr c.port res').failure = none := by rcases hres with q | q <;> simp [Ev.failure, q]
    refine ⟨⟨fun _ => hr, ?_, ?_, ?_, ?_, fun _ _ _ _ => rfl, ?_, ?_, ?_, ?_, ?_⟩, fun _ _ _ => ⟨n, hf⟩, fun _ => Or.inl hP⟩
    · intro q; rw [sent_append]; simpa [sent] using h.keep q
    · rw [sent_append]; simpa [sent] using h.pre
    · rw [find_snoc, hn, Option.or_none]; exact h.err
    · intro _ _; exact ⟨n, _, List.mem_append_right _ (List.mem_singleton.mpr rfl), hs, fun _ => hf⟩
    · exact ordered_snoc _ _ h.wr (by intro fd d q; simp at q)
    · intro fd a p r hm
      rcases List.mem_append.mp hm with q | q
      · exact h.tgt fd a p r q
      · simp only [List.mem_singleton, Ev.connect.injEq] at q
        obtain ⟨_, rfl, rfl, _⟩ := q
        exact hP
    · intro m; rw [opens_append, shuts_append]
      simpa [opens, shuts] using h.fds m
    · intro m; rw [opens_append]
      have : opens m [Ev.connect n c.addr c.port res'] = 0 := by simp [opens]
      rw [this]; exact h.used m
    · intro q; simp [hr] at q
  unfold tryConnect
  cases res with
  | none => exact good none rfl (Or.inl rfl)
  | some e =>
    dsimp only
    by_cases h1 : e = 106
    · rw [if_pos h1]
      subst h1
      exact good _ rfl (Or.inr rfl)
    · rw [if_neg h1]
      by_cases h2 : e ≠ 115 ∧ e ≠ 11 ∧ e ≠ 114 ∧ e ≠ 22
      · rw [if_pos h2]
        obtain ⟨q1, q2, q3, q4, q5, q6⟩ := fail_ok h (fails_connect n c.addr c.port e hP h1 h2) hr true (fun _ => rfl)
        exact ⟨q1, fun _ _ q => absurd q q2, fun _ => Or.inl (by rw [q5, q6]; exact hP)⟩
      · rw [if_neg h2]
        have hp : pending e = true := by
          unfold pending
          simp only [Bool.or_eq_true, decide_eq_true_eq]
          omega
        have hn : (Ev.connect n c.addr c.port (some e)).failure = none := by simp [Ev.failure, hp]
        have hs : ∀ m, (Ev.connect n c.addr c.port (some e)).success m = false := by intro m; simp [Ev.success, h1]
        refine ⟨⟨fun _ => hr, ?_, ?_, ?_, ?_, ?_, ?_, ?_, ?_, ?_, ?_⟩, fun _ _ _ => ⟨n, hf⟩, fun _ => Or.inl hP⟩
        · intro q; rw [sent_append]; simpa [sent] using h.keep q
        · rw [sent_append]; simpa [sent] using h.pre
        · rw [find_snoc, hn, Option.or_none]; exact h.err
        · intro a b
          obtain ⟨m, y, y1, y2, y3⟩ := h.succ a b
          exact ⟨m, y, List.mem_append_left _ y1, y2, y3⟩
        · intro m y hy hs'
          rcases List.mem_append.mp hy with q | q
          · exact h.conv m y q hs'
          · rw [List.mem_singleton] at q; rw [q, hs] at hs'; simp at hs'
        · exact ordered_snoc _ _ h.wr (by intro fd d q; simp at q)
        · intro fd a p r hm
          rcases List.mem_append.mp hm with q | q
          · exact h.tgt fd a p r q
          · simp only [List.mem_singleton, Ev.connect.injEq] at q
            obtain ⟨_, rfl, rfl, _⟩ := q
            exact hP
        · intro m; rw [opens_append, shuts_append]
          simpa [opens, shuts] using h.fds m
        · intro m; rw [opens_append]
          have : opens m [Ev.connect n c.addr c.port (some e)] = 0 := by simp [opens]
          rw [this]; exact h.used m
        · intro q; simp [hr] at q

theorem connect_ok {acc : List Byte} {c : Conn} (h : Core P acc c) (i : In) (hr : c.resolved = true) (hP : P c.addr c.port) (hc : c.fd = none → c.connected = false) :
    Inv P acc (doConnect c i) := by
  unfold doConnect
  split
  · rename_i n hf
    exact try_ok h n i.conn hr hf hP
  · rename_i hf
    split
    · rename_i e _
      obtain ⟨q1, q2, q3, q4, q5, q6⟩ := fail_ok h (fails_plain (P := P) (.nosocket e) (.errno e) rfl rfl) hr c.connected id
      exact ⟨q1, fun _ _ q => absurd q q2, fun _ => Or.inl (by rw [q5, q6]; exact hP)⟩
    · refine try_ok ?_ c.next i.conn hr rfl hP
      have h0 : opens c.next c.log = 0 := by
        rcases Nat.eq_zero_or_pos (opens c.next c.log) with q | q
        · exact q
        · exact absurd (h.used _ q) (Nat.lt_irrefl _)
      refine ⟨fun _ => hr, ?_, ?_, ?_, ?_, ?_, ?_, ?_, ?_, ?_, ?_⟩
      · intro q; rw [sent_append]; simpa [sent] using h.keep q
      · rw [sent_append]; simpa [sent] using h.pre
      · rw [find_snoc]; simpa [Ev.failure] using h.err
      · intro a; rw [hc hf] at a; simp at a
      · intro m y hy hs
        rcases List.mem_append.mp hy with q | q
        · exact h.conv m y q hs
        · rw [List.mem_singleton] at q; subst q; simp [Ev.success] at hs
      · exact ordered_snoc _ _ h.wr (by intro fd d q; simp at q)
      · intro fd a p r hm
        rcases List.mem_append.mp hm with q | q
        · exact h.tgt fd a p r q
        · simp at q
      · intro m
        rw [opens_append, shuts_append]
        have := h.fds m
        rw [hf] at this
        by_cases e : c.next = m
        · subst e
          rw [this]; simp [opens, shuts]
        · simpa [opens, shuts, e] using this
      · intro m
        rw [opens_append]
        by_cases e : c.next = m
        · subst e; intro _; exact Nat.lt_succ_self _
        · have : opens m [Ev.opened c.next] = 0 := by simp [opens, e]
          rw [this]
          intro q; exact Nat.lt_succ_of_lt (h.used m q)
      · intro q; simp [hr] at q

theorem resolver_ok {acc : List Byte} {c : Conn} (h : Inv P acc c) (i : In) (hr : c.resolved = false) (hP : ∀ a l, i.dns = some (a :: l) → P a c.port) :
    Inv P acc (checkResolver c i) := by
  have hcon : c.connected = false := by
    cases hc : c.connected with
    | false => rfl
    | true => have := h.res hc; rw [hr] at this; simp at this
  have core : ∀ a, Core P acc { c with addr := a, resolved := true } := fun a =>
    ⟨fun _ => rfl, fun _ => h.keep (Or.inl hr), h.pre, h.err, fun q => by simp [hcon] at q, h.conv, h.wr, h.tgt, h.fds, h.used, fun q => by simp at q⟩
  unfold checkResolver
  split
  · exact h
  · obtain ⟨q1, q2, q3, q4, q5, q6⟩ := fail_ok (core c.addr) (fails_plain (P := P) (.nohost c.hostname) (.host c.hostname) rfl rfl) rfl c.connected id
    refine ⟨q1, fun _ _ q => absurd q q2, fun _ => Or.inr ?_⟩
    have hf : c.fd = none := h.nofd hr
    show (seterr _ _).fd = none
    unfold seterr shut
    split
    · exact hf
    · dsimp only
      split
      · exact hf
      · rw [hf]
  · rename_i a l hd
    exact connect_ok (core a) i rfl (hP a l hd) (fun _ => hcon)

theorem uwrite_ok {acc : List Byte} {c : Conn} (h : Inv P acc c) (d : List Byte) (w : W) :
    ((uwrite c d w).1 = c ∧ (uwrite c d w).2 = 0) ∨
    (∃ fd, (uwrite c d w).1 = { c with log := c.log ++ [.wrote fd (d.take (uwrite c d w).2)] } ∧ (∃ e ∈ c.log, e.success fd = true) ∧ isok c = true ∧ c.resolved = true) ∨
    ((uwrite c d w).2 = 0 ∧ Inv P acc (uwrite c d w).1 ∧ isok (uwrite c d w).1 = false ∧ (uwrite c d w).1.outbuf = []) := by
  unfold uwrite
  split
  · exact Or.inl ⟨rfl, rfl⟩
  · rename_i hc
    have hc : c.connected = true := by simpa using hc
    have hr := h.res hc
    split
    · exact Or.inl ⟨rfl, rfl⟩
    · rename_i fd hf
      split
      · exact Or.inl ⟨rfl, rfl⟩
      · rename_i hk
        simp only [Bool.or_eq_true, Bool.not_eq_true', not_or, Bool.not_eq_false, Bool.not_eq_true] at hk
        obtain ⟨hk, _⟩ := hk
        have hk' := hk
        unfold fdok at hk'
        simp only [Bool.and_eq_true, Bool.not_eq_true', Option.isNone_iff_eq_none] at hk'
        split
        · refine Or.inr (Or.inl ⟨fd, ?_, ?_, ?_, hr⟩)
          · dsimp only
            rw [List.length_take, ← List.take_take]
            rename_i n
            congr 5
            rw [List.take_length]
          · obtain ⟨m, e, e1, e2, e3⟩ := h.succ hc hk'.1.2
            have := e3 hk'.1.1
            rw [hf] at this
            simp only [Option.some.injEq] at this
            subst this
            exact ⟨e, e1, e2⟩
          · unfold isok; rw [hk]; simp
        · exact Or.inl ⟨rfl, rfl⟩
        · rename_i e
          obtain ⟨q1, q2, q3, q4, q5, q6⟩ := fail_ok h.toCore (fails_plain (P := P) (.wfail e) (.errno e) rfl rfl) hr c.connected id
          refine Or.inr (Or.inr ⟨rfl, ⟨q1, fun _ _ q => absurd q q2, fun q => ?_⟩, ?_, ?_⟩)
          · rcases h.now hr with p | p
            · exact Or.inl (by rw [q5, q6]; exact p)
            · rw [p] at hf; simp at hf
          · dsimp only
            unfold isok fdok
            rw [q3]
            cases hx : (seterr { c with log := c.log ++ [.wfail e], connected := c.connected } (.errno e)).err with
            | none => exact absurd hx q2
            | some y => simp [hx]
          · dsimp only
            unfold seterr shut
            simp [hk'.1.2, hk'.1.1, hf]

theorem isok_keep {c : Conn} {acc : List Byte} (h : Inv P acc c) (hk : isok c = true) : c.resolved = false ∨ (c.closed = false ∧ c.err = none) := by
  unfold isok fdok at hk
  simp only [Bool.or_eq_true, Bool.not_eq_true', Bool.and_eq_true, Option.isNone_iff_eq_none] at hk
  rcases hk with q | ⟨⟨q1, q2⟩, _⟩
  · exact Or.inl q
  · exact Or.inr ⟨q1, q2⟩

theorem not_isok {c : Conn} {acc : List Byte} (h : Inv P acc c) (hk : isok c = false) : ¬ (c.resolved = false ∨ (c.closed = false ∧ c.err = none)) := by
  rintro (q | ⟨q1, q2⟩)
  · simp [isok, q] at hk
  · cases hr : c.resolved with
    | false => simp [isok, hr] at hk
    | true =>
      obtain ⟨n, hn⟩ := h.live hr q1 q2
      simp [isok, fdok, hr, q1, q2, hn] at hk

/-- If it is not ok, the output does not matter. -/
theorem zap_ok {acc : List Byte} {c : Conn} (h : Inv P acc c) (hk : isok c = false) (o : List Byte) : Inv P acc { c with outbuf := o } :=
  ⟨⟨h.res, fun q => absurd q (not_isok (c := c) h hk), h.pre, h.err, h.succ, h.conv, h.wr, h.tgt, h.fds, h.used, h.nofd⟩, h.live, h.now⟩

/-- Something is written: from `o` to the socket, the rest stays. -/
theorem wrote_ok {acc acc' : List Byte} {c : Conn} (h : Inv P acc c) (hk : isok c = true) (hr : c.resolved = true) (fd : Nat) (d o : List Byte)
    (hs : ∃ e ∈ c.log, e.success fd = true) (ho : sent c.log ++ d ++ o = acc') : Inv P acc' { c with log := c.log ++ [.wrote fd d], outbuf := o } := by
  have e : sent (c.log ++ [.wrote fd d]) = sent c.log ++ d := by simp [sent]
  refine ⟨⟨h.res, ?_, ?_, ?_, ?_, ?_, ?_, ?_, ?_, ?_, h.nofd⟩, h.live, h.now⟩
  · intro _; rw [e]; exact ho
  · rw [e]; exact ⟨o, ho⟩
  · rw [find_snoc]; simpa [Ev.failure] using h.err
  · intro a b
    obtain ⟨m, y, y1, y2, y3⟩ := h.succ a b
    exact ⟨m, y, List.mem_append_left _ y1, y2, y3⟩
  · intro m y hy hs'
    rcases List.mem_append.mp hy with q | q
    · exact h.conv m y q hs'
    · rw [List.mem_singleton] at q; subst q; simp [Ev.success] at hs'
  · refine ordered_snoc _ _ h.wr ?_
    intro fd' d' q
    simp only [Ev.wrote.injEq] at q
    obtain ⟨rfl, _⟩ := q
    exact hs
  · intro fd' a p r hm
    rcases List.mem_append.mp hm with q | q
    · exact h.tgt fd' a p r q
    · simp at q
  · intro m; rw [opens_append, shuts_append]
    simpa [opens, shuts] using h.fds m
  · intro m; rw [opens_append]
    have : opens m [Ev.wrote fd d] = 0 := by simp [opens]
    rw [this]; exact h.used m

theorem flush_ok {acc : List Byte} {c : Conn} (h : Inv P acc c) (w : W) : Inv P acc (flush c w) := by
  unfold flush
  split
  · exact h
  · split
    · rename_i hk
      exact zap_ok h (by simpa using hk) []
    · rename_i hk
      have hk : isok c = true := by simpa using hk
      have hkeep := h.keep (isok_keep h hk)
      dsimp only
      rcases uwrite_ok h c.outbuf w with ⟨q1, q2⟩ | ⟨fd, q1, q2, q3, q4⟩ | ⟨q1, q2, q3, q4⟩
      · rw [q1, q2, if_pos hk, List.drop_zero]; exact h
      · rw [q1]
        have hk2 : isok { c with log := c.log ++ [.wrote fd (c.outbuf.take (uwrite c c.outbuf w).2)] } = true := hk
        rw [if_pos hk2]
        exact wrote_ok h hk q4 fd _ _ q2 (by rw [List.append_assoc, List.take_append_drop]; exact hkeep)
      · rw [if_neg (by rw [q3]; simp)]
        exact zap_ok q2 q3 []

theorem flushes_ok {acc : List Byte} (l : List W) : ∀ {c : Conn}, Inv P acc c → Inv P acc (l.foldl flush c) := by
  induction l with
  | nil => intro c h; exact h
  | cons w l ih => intro c h; exact ih (flush_ok h w)

theorem err_ok {acc : List Byte} {c : Conn} (h : Inv P acc c) (hr : c.resolved = true) (e : Ev) (x : Err) (hp : plain e = true) (hx : e.failure = some x) (k : Bool)
    (hk : c.connected = true → k = true) : Inv P acc (seterr { c with log := c.log ++ [e], connected := k } x) := by
  obtain ⟨q1, q2, q3, q4, q5, q6⟩ := fail_ok h.toCore (fails_plain (P := P) e x hp hx) hr k hk
  refine ⟨q1, fun _ _ q => absurd q q2, fun _ => ?_⟩
  rcases h.now hr with p | p
  · exact Or.inl (by rw [q5, q6]; exact p)
  · refine Or.inr ?_
    unfold seterr shut
    split
    · exact p
    · dsimp only
      split
      · exact p
      · rw [p]

/-- Setting `connected` before or after the error is the same. -/
theorem seterr_connected (c : Conn) (e : Ev) (x : Err) :
    { seterr { c with log := c.log ++ [e] } x with connected := true } = seterr { c with log := c.log ++ [e], connected := true } x := by
  unfold seterr shut
  cases c.err <;> cases c.closed <;> cases c.fd <;> rfl

theorem flush_same (c : Conn) (w : W) : (flush c w).resolved = c.resolved ∧ (flush c w).connected = c.connected ∧ (flush c w).addr = c.addr ∧ (flush c w).port = c.port ∧
    (flush c w).hostname = c.hostname ∧ (c.fd = none → (flush c w).fd = none) ∧ (c.connected = false → (flush c w).fd = c.fd) ∧ (c.closed = true → (flush c w).closed = true) ∧
    ((flush c w).closed = true → c.closed = true ∨ (flush c w).fd = none) := by
  unfold flush uwrite seterr shut
  cases h1 : c.outbuf.isEmpty <;> cases h2 : isok c <;> cases h3 : c.connected <;> cases h4 : c.fd <;> cases h5 : fdok c <;> cases w <;>
    cases h6 : c.err <;> cases h7 : c.closed <;> simp_all [isok, fdok] <;> (try (split <;> simp_all))

theorem flushes_same (l : List W) : ∀ c : Conn, (l.foldl flush c).resolved = c.resolved ∧ (l.foldl flush c).connected = c.connected ∧ (l.foldl flush c).port = c.port ∧
    (l.foldl flush c).hostname = c.hostname ∧ (c.closed = true → (l.foldl flush c).closed = true) ∧ ((l.foldl flush c).closed = true → c.closed = true ∨ (l.foldl flush c).fd = none) := by
  induction l with
  | nil => intro c; exact ⟨rfl, rfl, rfl, rfl, id, Or.inl⟩
  | cons w l ih =>
    intro c
    obtain ⟨a1, a2, a3, a4, a5, a6⟩ := ih (flush c w)
    obtain ⟨b1, b2, _, b4, b5, b6, _, b8, b9⟩ := flush_same c w
    have keep : ∀ (l : List W) (c : Conn), c.fd = none → (l.foldl flush c).fd = none := by
      intro l
      induction l with
      | nil => intro c h; exact h
      | cons w l ih => intro c h; exact ih _ ((flush_same c w).2.2.2.2.2.1 h)
    refine ⟨a1.trans b1, a2.trans b2, a3.trans b4, a4.trans b5, fun q => a5 (b8 q), fun q => ?_⟩
    rcases a6 q with p | p
    · rcases b9 p with x | x
      · exact Or.inl x
      · exact Or.inr (keep l _ x)
    · exact Or.inr p

theorem select_ok {acc : List Byte} {c : Conn} (h : Inv P acc c) (i : In) (hP : c.resolved = false → ∀ a l, i.dns = some (a :: l) → P a c.port) : Inv P acc (postSelect c i) := by
  unfold postSelect
  split
  · rename_i hr
    split
    · exact resolver_ok h i (by simpa using hr) (hP (by simpa using hr))
    · exact h
  · rename_i hr
    have hr : c.resolved = true := by simpa using hr
    have h' := flushes_ok i.writes h
    have hr' : (i.writes.foldl flush c).resolved = true := by rw [(flushes_same i.writes c).1]; exact hr
    generalize i.writes.foldl flush c = c' at h' hr'
    dsimp only
    split
    · rename_i hs
      have hcon : c'.connected = false := by
        simp only [Bool.and_eq_true, Bool.not_eq_true'] at hs
        exact hs.2
      split
      · rw [seterr_connected]
        exact err_ok h' hr' _ _ rfl rfl true (fun _ => rfl)
      · rename_i n hf
        split
        · rw [seterr_connected]
          exact err_ok h' hr' _ _ rfl rfl true (fun _ => rfl)
        · split
          · rw [seterr_connected]
            exact err_ok h' hr' _ _ rfl rfl true (fun _ => rfl)
          · refine connect_ok h'.toCore i hr' ?_ (fun q => by rw [hf] at q; simp at q)
            rcases h'.now hr' with q | q
            · exact q
            · rw [hf] at q; simp at q
    · exact h'

theorem seterr_same (c : Conn) (x : Err) : (seterr c x).port = c.port ∧ (seterr c x).hostname = c.hostname ∧ (seterr c x).resolved = c.resolved ∧
    (c.closed = true → (seterr c x).closed = true) ∧ ((seterr c x).closed = true → (c.closed = true → c.fd = none) → (seterr c x).fd = none) := by
  unfold seterr shut
  cases h1 : c.err <;> cases h2 : c.closed <;> cases h3 : c.fd <;> simp_all

theorem connect_same (c : Conn) (i : In) : (doConnect c i).port = c.port ∧ (doConnect c i).hostname = c.hostname ∧ (doConnect c i).resolved = c.resolved ∧
    ((doConnect c i).closed = true → c.closed = true ∨ (doConnect c i).fd = none) := by
  have key : ∀ (c : Conn) n r, (tryConnect c n r).port = c.port ∧ (tryConnect c n r).hostname = c.hostname ∧ (tryConnect c n r).resolved = c.resolved ∧
      ((tryConnect c n r).closed = true → c.closed = true ∨ (tryConnect c n r).fd = none) := by
    intro c n r
    unfold tryConnect
    split
    · exact ⟨rfl, rfl, rfl, Or.inl⟩
    · split
      · exact ⟨rfl, rfl, rfl, Or.inl⟩
      · split
        · rename_i e _ _
          obtain ⟨a1, a2, a3, _, a5⟩ := seterr_same { c with log := c.log ++ [.connect n c.addr c.port (some e)], connected := true } (.errno e)
          refine ⟨a1, a2, a3, fun q => ?_⟩
          by_cases hc : c.closed = true
          · exact Or.inl hc
          · exact Or.inr (a5 q (fun p => absurd p hc))
        · exact ⟨rfl, rfl, rfl, Or.inl⟩
  unfold doConnect
  split
  · exact key _ _ _
  · split
    · rename_i e _
      obtain ⟨a1, a2, a3, _, a5⟩ := seterr_same { c with log := c.log ++ [.nosocket e] } (.errno e)
      refine ⟨a1, a2, a3, fun q => ?_⟩
      by_cases hc : c.closed = true
      · exact Or.inl hc
      · exact Or.inr (a5 q (fun p => absurd p hc))
    · exact key _ _ _

/-- What `post_select` leaves: the port and the name; once resolved always resolved; if it closes, the socket is gone. -/
theorem select_same (c : Conn) (i : In) : (postSelect c i).port = c.port ∧ (postSelect c i).hostname = c.hostname ∧ (c.resolved = true → (postSelect c i).resolved = true) ∧
    ((c.closed = true → c.fd = none) → c.resolved = true → (postSelect c i).closed = true → (postSelect c i).fd = none) ∧
    ((c.closed = false) → (postSelect c i).closed = true → (postSelect c i).fd = none) := by
  unfold postSelect
  split
  · rename_i hr
    have hr : c.resolved = false := by simpa using hr
    split
    · unfold checkResolver
      split
      · exact ⟨rfl, rfl, id, fun _ q => by simp [hr] at q, fun q p => by simp [q] at p⟩
      · obtain ⟨a1, a2, a3, _, a5⟩ := seterr_same { c with resolved := true, log := c.log ++ [.nohost c.hostname] } (.host c.hostname)
        refine ⟨a1, a2, fun _ => a3, fun _ q => by simp [hr] at q, fun q p => a5 p (fun x => ?_)⟩
        simp [q] at x
      · rename_i a l _
        obtain ⟨a1, a2, a3, a4⟩ := connect_same { c with addr := a, resolved := true } i
        refine ⟨a1, a2, fun _ => a3, fun _ q => by simp [hr] at q, fun q p => ?_⟩
        rcases a4 p with x | x
        · simp [q] at x
        · exact x
    · exact ⟨rfl, rfl, id, fun _ q => by simp [hr] at q, fun q p => by simp [q] at p⟩
  · obtain ⟨f1, f2, f3, f4, f5, f6⟩ := flushes_same i.writes c
    have fn : (c.closed = true → c.fd = none) → (i.writes.foldl flush c).closed = true → (i.writes.foldl flush c).fd = none := by
      intro q p
      rcases f6 p with x | x
      · have keep : ∀ (l : List W) (c : Conn), c.fd = none → (l.foldl flush c).fd = none := by
          intro l
          induction l with
          | nil => intro c h; exact h
          | cons w l ih => intro c h; exact ih _ ((flush_same c w).2.2.2.2.2.1 h)
        exact keep _ _ (q x)
      · exact x
    generalize i.writes.foldl flush c = c' at *
    have fin : ∀ d : Conn, d.port = c'.port → d.hostname = c'.hostname → d.resolved = c'.resolved →
        ((c'.closed = true → c'.fd = none) → d.closed = true → d.fd = none) →
        d.port = c.port ∧ d.hostname = c.hostname ∧ (c.resolved = true → d.resolved = true) ∧
        ((c.closed = true → c.fd = none) → c.resolved = true → d.closed = true → d.fd = none) ∧ (c.closed = false → d.closed = true → d.fd = none) := by
      intro d d1 d2 d3 d4
      refine ⟨d1.trans f3, d2.trans f4, fun q => by rw [d3, f1]; exact q, fun q _ p => d4 (fn q) p, fun q p => d4 (fn (fun x => by simp [q] at x)) p⟩
    dsimp only
    split
    · have se : ∀ (e : Ev) (x : Err), (seterr { c' with log := c'.log ++ [e] } x).port = c'.port ∧ (seterr { c' with log := c'.log ++ [e] } x).hostname = c'.hostname ∧
          (seterr { c' with log := c'.log ++ [e] } x).resolved = c'.resolved ∧
          ((c'.closed = true → c'.fd = none) → (seterr { c' with log := c'.log ++ [e] } x).closed = true → (seterr { c' with log := c'.log ++ [e] } x).fd = none) := by
        intro e x
        obtain ⟨a1, a2, a3, _, a5⟩ := seterr_same { c' with log := c'.log ++ [e] } x
        exact ⟨a1, a2, a3, fun q p => a5 p q⟩
      split
      · exact fin _ (se _ _).1 (se _ _).2.1 (se _ _).2.2.1 (se _ _).2.2.2
      · rename_i n hf
        split
        · exact fin _ (se _ _).1 (se _ _).2.1 (se _ _).2.2.1 (se _ _).2.2.2
        · split
          · exact fin _ (se _ _).1 (se _ _).2.1 (se _ _).2.2.1 (se _ _).2.2.2
          · obtain ⟨a1, a2, a3, a4⟩ := connect_same c' i
            refine fin _ a1 a2 a3 (fun q p => ?_)
            rcases a4 p with x | x
            · rw [hf] at q; simp at q; simp [q] at x
            · exact x
    · exact fin _ rfl rfl rfl id

theorem loop_ok {acc : List Byte} (l : List (W × In)) : ∀ {c : Conn}, Inv P acc c → (c.resolved = false → ∀ x ∈ l, ∀ a r, x.2.dns = some (a :: r) → P a c.port) →
    Inv P acc (flushLoop c l) ∧ (flushLoop c l).port = c.port := by
  induction l with
  | nil =>
    intro c h _
    unfold flushLoop
    split
    · exact ⟨h, rfl⟩
    · rename_i q
      simp only [Bool.or_eq_true, not_or, Bool.not_eq_true] at q
      exact ⟨zap_ok h q.2 [], rfl⟩
  | cons x l ih =>
    intro c h hP
    obtain ⟨w, i⟩ := x
    unfold flushLoop
    split
    · exact ⟨h, rfl⟩
    · split
      · rename_i q
        exact ⟨zap_ok h (by simpa using q) [], rfl⟩
      · have hp : (flush c w).port = c.port := (flush_same c w).2.2.2.1
        have hf : (flush c w).resolved = c.resolved := (flush_same c w).1
        have h1 := select_ok (flush_ok h w) i (fun q a r e => by rw [hp]; exact hP (by rw [← hf]; exact q) (w, i) (by simp) a r e)
        have h2 : (postSelect (flush c w) i).port = c.port := (select_same _ i).1.trans hp
        obtain ⟨q1, q2⟩ := ih h1 (fun q y hy a r e => by
          rw [h2]
          refine hP ?_ y (by simp [hy]) a r e
          cases hx : c.resolved with
          | false => rfl
          | true =>
            have := (select_same (flush c w) i).2.2.1 (hf.trans hx)
            rw [q] at this; simp at this)
        exact ⟨q1, q2.trans h2⟩

/-- The socket is closed. -/
theorem shut_ok {acc : List Byte} {c : Conn} (h : Inv P acc c) : Inv P acc (shut { c with closed := true }) ∧ (shut { c with closed := true }).port = c.port := by
  unfold shut
  cases hf : c.fd with
  | none =>
    simp only [hf]
    refine ⟨⟨⟨h.res, ?_, h.pre, h.err, ?_, h.conv, h.wr, h.tgt, ?_, h.used, ?_⟩, ?_, ?_⟩, by trivial⟩
    · rintro (q | ⟨q, _⟩)
      · exact h.keep (Or.inl q)
      · simp at q
    · intro a b
      obtain ⟨m, y, y1, y2, _⟩ := h.succ a b
      exact ⟨m, y, y1, y2, fun q => by simp at q⟩
    · intro n; have := h.fds n; rw [hf] at this; exact this
    · intro _; rfl
    · intro _ q; simp at q
    · intro _; exact Or.inr rfl
  | some m =>
    simp only [hf]
    refine ⟨⟨⟨h.res, ?_, ?_, ?_, ?_, ?_, ?_, ?_, ?_, ?_, ?_⟩, ?_, ?_⟩, by trivial⟩
    · rintro (q | ⟨q, _⟩)
      · have := h.nofd q; rw [hf] at this; simp at this
      · simp at q
    · rw [sent_append]; simpa [sent] using h.pre
    · rw [find_snoc]; simpa [Ev.failure] using h.err
    · intro a b
      obtain ⟨n, y, y1, y2, _⟩ := h.succ a b
      exact ⟨n, y, List.mem_append_left _ y1, y2, fun q => by simp at q⟩
    · intro n y hy hs
      rcases List.mem_append.mp hy with q | q
      · exact h.conv n y q hs
      · rw [List.mem_singleton] at q; subst q; simp [Ev.success] at hs
    · exact ordered_snoc _ _ h.wr (by intro fd d q; simp at q)
    · intro fd a p r hm
      rcases List.mem_append.mp hm with q | q
      · exact h.tgt fd a p r q
      · simp at q
    · intro n
      rw [opens_append, shuts_append, h.fds n, hf]
      by_cases e : m = n
      · subst e; simp [opens, shuts]
      · simp [opens, shuts, e]
    · intro n
      rw [opens_append]
      have : opens n [Ev.shut m] = 0 := by simp [opens]
      rw [this]; exact h.used n
    · intro _; rfl
    · intro _ q; simp at q
    · intro _; exact Or.inr rfl

theorem close_ok {acc : List Byte} {c : Conn} (h : Inv P acc c) (l : List (W × In)) (hP : c.resolved = false → ∀ x ∈ l, ∀ a r, x.2.dns = some (a :: r) → P a c.port) :
    Inv P acc (close c l) ∧ (close c l).port = c.port := by
  unfold close
  split
  · exact ⟨h, rfl⟩
  · obtain ⟨q1, q2⟩ := loop_ok l h hP
    obtain ⟨q3, q4⟩ := shut_ok q1
    exact ⟨q3, q4.trans q2⟩

theorem write_ok {acc : List Byte} {c : Conn} (h : Inv P acc c) (d : List Byte) (w1 w2 : W) :
    Inv P (acc ++ d.take (write c d w1 w2).2) (write c d w1 w2).1 ∧ (write c d w1 w2).1.port = c.port := by
  have up : ∀ (x : Conn), uwrite x d w1 = uwrite x d w1 → (uwrite x d w1).1.port = x.port := by
    intro x _
    unfold uwrite
    split
    · rfl
    · split
      · rfl
      · split
        · rfl
        · split
          · rfl
          · rfl
          · exact (seterr_same _ _).1
  unfold write
  split
  · simp only [List.take_zero, List.append_nil]; exact ⟨h, by trivial⟩
  · rename_i hk
    simp only [Bool.or_eq_true, Bool.not_eq_true', not_or, Bool.not_eq_false, Bool.not_eq_true] at hk
    obtain ⟨hk, _⟩ := hk
    have hkeep := h.keep (isok_keep h hk)
    dsimp only
    rw [List.take_length]
    -- what stays is put in the buffer
    have put : ∀ {c : Conn}, Inv P acc c → isok c = true → ∀ o, sent c.log ++ o = acc ++ d → Inv P (acc ++ d) { c with outbuf := o } := by
      intro c h hk o ho
      exact ⟨⟨h.res, fun _ => ho, ⟨o, ho⟩, h.err, h.succ, h.conv, h.wr, h.tgt, h.fds, h.used, h.nofd⟩, h.live, h.now⟩
    cases hb : c.outbuf.isEmpty with
    | false =>
      rw [if_neg (by simp)]
      refine ⟨flush_ok (put h hk _ ?_) w2, (flush_same _ w2).2.2.2.1⟩
      rw [List.drop_zero, ← List.append_assoc, hkeep]
    | true =>
      rw [if_pos rfl]
      have hb : c.outbuf = [] := by simpa using hb
      rw [hb, List.append_nil] at hkeep
      refine ⟨?_, (flush_same _ w2).2.2.2.1.trans (up c rfl)⟩
      rcases uwrite_ok h d w1 with ⟨q1, q2⟩ | ⟨fd, q1, q2, q3, q4⟩ | ⟨q1, q2, q3, q4⟩
      · rw [q1, q2]
        refine flush_ok (put h hk _ ?_) w2
        rw [hb, List.nil_append, List.drop_zero, hkeep]
      · rw [q1]
        refine flush_ok ?_ w2
        have := wrote_ok (acc' := acc ++ d) h hk q4 fd (d.take (uwrite c d w1).2) (d.drop (uwrite c d w1).2) q2 (by rw [hkeep, List.append_assoc, List.take_append_drop])
        simpa [hb] using this
      · rw [q1, q4, List.drop_zero, List.nil_append]
        refine flush_ok ?_ w2
        have n := not_isok q2 q3
        exact ⟨⟨q2.res, fun q => absurd q n, q2.pre.trans (List.prefix_append _ _), q2.err, q2.succ, q2.conv, q2.wr, q2.tgt, q2.fds, q2.used, q2.nofd⟩, q2.live, q2.now⟩

theorem read_ok {acc : List Byte} {c : Conn} (h : Inv P acc c) (r : R) (l : List (W × In)) (hP : c.resolved = false → ∀ x ∈ l, ∀ a r, x.2.dns = some (a :: r) → P a c.port) :
    Inv P acc (Tcp.read c r l) ∧ (Tcp.read c r l).port = c.port := by
  unfold Tcp.read
  split
  · exact ⟨h, rfl⟩
  · rename_i hc
    split
    · exact ⟨h, rfl⟩
    · split
      · exact ⟨h, rfl⟩
      · exact ⟨h, rfl⟩
      · exact close_ok h l hP
      · exact ⟨err_ok h (h.res (by simpa using hc)) _ _ rfl rfl c.connected id, (seterr_same _ _).1⟩

/-- The answers of the resolver that a call is given. -/
def answers : Op → List In
  | .select i => [i]
  | .write _ _ _ => []
  | .read _ l => l.map (·.2)
  | .close l => l.map (·.2)

theorem loop_resolved (l : List (W × In)) : ∀ c : Conn, c.resolved = true → (flushLoop c l).resolved = true := by
  induction l with
  | nil => intro c h; unfold flushLoop; split <;> exact h
  | cons x l ih =>
    intro c h
    unfold flushLoop
    split
    · exact h
    · split
      · exact h
      · exact ih _ ((select_same _ _).2.2.1 (by rw [(flush_same _ _).1]; exact h))

theorem close_resolved (c : Conn) (l : List (W × In)) (h : c.resolved = true) : (close c l).resolved = true := by
  unfold close
  split
  · exact h
  · have : ∀ c : Conn, (shut c).resolved = c.resolved := by
      intro c; unfold shut; split <;> rfl
    rw [this]; exact loop_resolved l _ h

theorem step_resolved (s : Conn × List Byte) (o : Op) (h : s.1.resolved = true) : (step s o).1.resolved = true := by
  cases o with
  | select i => exact (select_same s.1 i).2.2.1 h
  | write d w1 w2 =>
    show (write s.1 d w1 w2).1.resolved = true
    unfold write
    split
    · exact h
    · dsimp only
      rw [(flush_same _ _).1]
      show (if s.1.outbuf.isEmpty = true then uwrite s.1 d w1 else (s.1, 0)).1.resolved = true
      split
      · unfold uwrite
        split
        · exact h
        · split
          · exact h
          · split
            · exact h
            · split
              · exact h
              · exact h
              · rw [(seterr_same _ _).2.2.1]; exact h
      · exact h
  | read r l =>
    show (Tcp.read s.1 r l).resolved = true
    unfold Tcp.read
    split
    · exact h
    · split
      · exact h
      · split
        · exact h
        · exact h
        · exact close_resolved _ l h
        · rw [(seterr_same _ _).2.2.1]; exact h
  | close l => exact close_resolved _ l h

theorem step_ok {s : Conn × List Byte} (h : Inv P s.2 s.1) (o : Op) (hP : s.1.resolved = false → ∀ i ∈ answers o, ∀ a r, i.dns = some (a :: r) → P a s.1.port) :
    Inv P (step s o).2 (step s o).1 ∧ (step s o).1.port = s.1.port := by
  cases o with
  | select i => exact ⟨select_ok h i (fun q => hP q i (by simp [answers])), (select_same s.1 i).1⟩
  | write d w1 w2 => exact write_ok h d w1 w2
  | read r l => exact read_ok h r l (fun q x hx => hP q x.2 (List.mem_map_of_mem hx))
  | close l => exact close_ok h l (fun q x hx => hP q x.2 (List.mem_map_of_mem hx))

theorem run_ok (ops : List Op) : ∀ {s : Conn × List Byte}, Inv P s.2 s.1 → (s.1.resolved = false → ∀ o ∈ ops, ∀ i ∈ answers o, ∀ a r, i.dns = some (a :: r) → P a s.1.port) →
    Inv P (ops.foldl step s).2 (ops.foldl step s).1 ∧ (ops.foldl step s).1.port = s.1.port := by
  induction ops with
  | nil => intro s h _; exact ⟨h, rfl⟩
  | cons o ops ih =>
    intro s h hP
    obtain ⟨q1, q2⟩ := step_ok h o (fun q => hP q o (by simp))
    obtain ⟨q3, q4⟩ := ih q1 (fun q o' ho i hi a r e => by
      rw [q2]
      refine hP ?_ o' (by simp [ho]) i hi a r e
      cases hx : s.1.resolved with
      | false => rfl
      | true => have := step_resolved s o hx; rw [q] at this; simp at this)
    exact ⟨q3, q4.trans q2⟩

theorem fresh_core (hostname : Text) (a : Addr) (p : Nat) (r : Bool) : Core P [] (fresh hostname a p r) :=
  ⟨fun q => by simp [fresh] at q, fun _ => rfl, List.prefix_refl _, rfl, fun q => by simp [fresh] at q, fun _ _ q => by simp [fresh] at q,
   fun l fd d r q => by simp [fresh] at q, fun _ _ _ _ q => by simp [fresh] at q, fun _ => rfl, fun _ q => by simp [fresh, opens] at q, fun _ => rfl⟩

theorem newAddr_ok (a : Addr) (p : Nat) (i : In) (hP : P a p) : Inv P [] (newAddr a p i) :=
  connect_ok (fresh_core [] a p true) i rfl hP (fun _ => rfl)

/-- A new connection from a name. -/
theorem new_ok (serv : Text → Option Nat) (s : Text) (port : Nat) (i : In) (c : Conn) (hc : new serv s port i = some c) :
    ∃ h p, target serv s port = some (h, p) ∧ c.port = p ∧ c.hostname = h ∧
    (Addr.parse h ≠ ⟨0, 0, 0, 0⟩ → c.resolved = true) ∧
    ((Addr.parse h ≠ ⟨0, 0, 0, 0⟩ → P (Addr.parse h) p) → (Addr.parse h = ⟨0, 0, 0, 0⟩ → ∀ a l, i.dns = some (a :: l) → P a p) → Inv P [] c) := by
  unfold new at hc
  cases ht : target serv s port with
  | none => rw [ht] at hc; simp at hc
  | some t =>
    obtain ⟨h, p⟩ := t
    rw [ht] at hc
    simp only [Option.map_some, Option.some.injEq] at hc
    refine ⟨h, p, rfl, ?_⟩
    by_cases hx : Addr.parse h ≠ ⟨0, 0, 0, 0⟩
    · rw [if_pos hx] at hc
      subst hc
      obtain ⟨a1, a2, a3, _⟩ := connect_same (fresh h (Addr.parse h) p true) i
      exact ⟨a1, a2, fun _ => a3, fun q _ => connect_ok (fresh_core h _ p true) i rfl (q hx) (fun _ => rfl)⟩
    · rw [if_neg hx] at hc
      subst hc
      have hx' : Addr.parse h = ⟨0, 0, 0, 0⟩ := Classical.not_not.mp hx
      have e := select_same (fresh h (Addr.parse h) p false) { i with dnsReady := true }
      have e2 : postSelect (fresh h (Addr.parse h) p false) { i with dnsReady := true } = checkResolver (fresh h (Addr.parse h) p false) i := rfl
      rw [e2] at e
      refine ⟨e.1, e.2.1, fun q => absurd q hx, fun _ q => ?_⟩
      refine resolver_ok ⟨fresh_core h _ p false, fun q => by simp [fresh] at q, fun q => by simp [fresh] at q⟩ i rfl (fun a l hd => q hx' a l hd)

/-! ### Closing -/

/-- Closed means that the socket is closed. -/
def Tidy (c : Conn) : Prop := c.closed = true → c.fd = none

theorem flush_tidy (c : Conn) (w : W) (h : Tidy c) : Tidy (flush c w) := by
  obtain ⟨_, _, _, _, _, b6, _, _, b9⟩ := flush_same c w
  intro q
  rcases b9 q with x | x
  · exact b6 (h x)
  · exact x

theorem close_tidy (c : Conn) (l : List (W × In)) (h : Tidy c) : Tidy (close c l) := by
  unfold close
  split
  · exact h
  · intro _
    unfold shut
    cases hf : (flushLoop c l).fd <;> simp [hf]

theorem flush_resolved (c : Conn) (w : W) : (flush c w).resolved = c.resolved := (flush_same c w).1

theorem step_tidy (s : Conn × List Byte) (o : Op) (h : Tidy s.1) (hr : s.1.closed = true → s.1.resolved = true) (hc : s.1.connected = true → s.1.resolved = true)
    (ho : ∀ l, o = .close l → s.1.resolved = true) : Tidy (step s o).1 ∧ ((step s o).1.closed = true → (step s o).1.resolved = true) := by
  have shutres : ∀ c : Conn, (shut c).resolved = c.resolved := by
    intro c; unfold shut; split <;> rfl
  have closeres : ∀ l, s.1.resolved = true → (close s.1 l).resolved = true := by
    intro l q
    unfold close
    split
    · exact q
    · rw [shutres]; exact loop_resolved l _ q
  cases o with
  | select i =>
    obtain ⟨_, _, a3, a4, a5⟩ := select_same s.1 i
    show Tidy (postSelect s.1 i) ∧ _
    refine ⟨fun q => ?_, fun q => ?_⟩
    · cases hx : s.1.closed with
      | false => exact a5 hx q
      | true => exact a4 h (hr hx) q
    · cases hx : s.1.closed with
      | true => exact a3 (hr hx)
      | false =>
        cases hres : s.1.resolved with
        | true => exact a3 hres
        | false =>
          -- it can only be closed by something that resolves it
          show (postSelect s.1 i).resolved = true
          have q : (postSelect s.1 i).closed = true := q
          unfold postSelect at q ⊢
          simp only [hres, Bool.not_false, if_true] at q ⊢
          split at q
          · rename_i hd
            rw [if_pos hd]
            unfold checkResolver at q ⊢
            split at q
            · simp [hx] at q
            · exact (seterr_same _ _).2.2.1
            · exact (connect_same _ _).2.2.1
          · simp [hx] at q
  | write d w1 w2 =>
    show Tidy (write s.1 d w1 w2).1 ∧ ((write s.1 d w1 w2).1.closed = true → (write s.1 d w1 w2).1.resolved = true)
    unfold write
    split
    · exact ⟨h, hr⟩
    · have u : ∀ c : Conn, Tidy c → (c.closed = true → c.resolved = true) → (c.connected = true → c.resolved = true) →
          Tidy (uwrite c d w1).1 ∧ ((uwrite c d w1).1.closed = true → (uwrite c d w1).1.resolved = true) := by
        intro c h hr hc
        unfold uwrite
        split
        · exact ⟨h, hr⟩
        · rename_i hcon
          split
          · exact ⟨h, hr⟩
          · split
            · exact ⟨h, hr⟩
            · split
              · exact ⟨h, hr⟩
              · exact ⟨h, hr⟩
              · rename_i e
                obtain ⟨_, _, a3, _, a5⟩ := seterr_same { c with log := c.log ++ [.wfail e] } (.errno e)
                exact ⟨fun q => a5 q h, fun _ => by rw [a3]; exact hc (by simpa using hcon)⟩
      have g : ∀ c : Conn, Tidy c → (c.closed = true → c.resolved = true) → ((flush c w2).closed = true → (flush c w2).resolved = true) ∨ True := fun _ _ _ => Or.inr trivial
      have fl : ∀ c : Conn, (c.closed = true → c.resolved = true) → (c.connected = true → c.resolved = true) → (flush c w2).closed = true → (flush c w2).resolved = true := by
        intro c h1 h2 q
        rw [flush_resolved]
        cases hx : c.closed with
        | true => exact h1 hx
        | false =>
          cases hcon : c.connected with
          | true => exact h2 hcon
          | false =>
            exfalso
            revert q
            unfold flush uwrite
            simp only [hcon, Bool.not_false, if_true]
            split
            · simp [hx]
            · split
              · simp [hx]
              · split <;> simp [hx]
      have ucon : ∀ c : Conn, (c.connected = true → c.resolved = true) → ((uwrite c d w1).1.connected = true → (uwrite c d w1).1.resolved = true) := by
        intro c hc
        unfold uwrite
        split
        · exact hc
        · rename_i hcon
          split
          · exact hc
          · split
            · exact hc
            · split
              · exact hc
              · exact hc
              · intro _; rw [(seterr_same _ _).2.2.1]; exact hc (by simpa using hcon)
      dsimp only
      cases hb : s.1.outbuf.isEmpty with
      | false =>
        rw [if_neg (by simp)]
        exact ⟨flush_tidy _ _ h, fl _ hr hc⟩
      | true =>
        rw [if_pos rfl]
        obtain ⟨u1, u2⟩ := u s.1 h hr hc
        exact ⟨flush_tidy _ _ u1, fl _ u2 (ucon s.1 hc)⟩
  | read r l =>
    show Tidy (Tcp.read s.1 r l) ∧ ((Tcp.read s.1 r l).closed = true → (Tcp.read s.1 r l).resolved = true)
    unfold Tcp.read
    split
    · exact ⟨h, hr⟩
    · rename_i hcon
      have hres := hc (by simpa using hcon)
      split
      · exact ⟨h, hr⟩
      · split
        · exact ⟨h, hr⟩
        · exact ⟨h, hr⟩
        · exact ⟨close_tidy _ _ h, fun _ => closeres l hres⟩
        · rename_i e
          obtain ⟨_, _, a3, _, a5⟩ := seterr_same { s.1 with log := s.1.log ++ [.rfail e] } (.errno e)
          exact ⟨fun q => a5 q h, fun _ => by rw [a3]; exact hres⟩
  | close l => exact ⟨close_tidy _ _ h, fun _ => closeres l (ho l rfl)⟩

theorem destroy_ok {acc : List Byte} {c : Conn} (h : Inv P acc c) (ht : Tidy c) (n : Nat) : shuts n (destroy c).log = opens n (destroy c).log := by
  unfold destroy
  split
  · rename_i hc
    have := h.fds n
    rw [ht hc] at this
    simpa using this.symm
  · obtain ⟨q, _⟩ := shut_ok h
    have := q.fds n
    have e : (shut { c with closed := true }).fd = none := by
      unfold shut; cases hf : c.fd <;> simp [hf]
    rw [e] at this
    simpa using this.symm

/-- A new connection, made either way. -/
def Made (c : Conn) : Prop := (∃ a p i, c = newAddr a p i) ∨ ∃ serv s p i, new serv s p i = some c

theorem made_ok (c : Conn) (h : Made c) : Inv (fun _ _ => True) [] c := by
  rcases h with ⟨a, p, i, rfl⟩ | ⟨serv, s, p, i, h⟩
  · exact newAddr_ok a p i trivial
  · obtain ⟨_, _, _, _, _, _, q⟩ := new_ok (P := fun _ _ => True) serv s p i c h
    exact q (fun _ => trivial) (fun _ _ _ _ => trivial)

theorem made_tidy (c : Conn) (h : Made c) : Tidy c ∧ (c.closed = true → c.resolved = true) := by
  rcases h with ⟨a, p, i, rfl⟩ | ⟨serv, s, p, i, h⟩
  · obtain ⟨_, _, a3, a4⟩ := connect_same (fresh [] a p true) i
    refine ⟨fun q => ?_, fun _ => a3⟩
    rcases a4 q with x | x
    · simp [fresh] at x
    · exact x
  · obtain ⟨hn, pn, ht, _, _, hr, _⟩ := new_ok (P := fun _ _ => True) serv s p i c h
    unfold new at h
    rw [ht] at h
    simp only [Option.map_some, Option.some.injEq] at h
    by_cases hx : Addr.parse hn ≠ ⟨0, 0, 0, 0⟩
    · rw [if_pos hx] at h
      subst h
      obtain ⟨_, _, a3, a4⟩ := connect_same (fresh hn (Addr.parse hn) pn true) i
      refine ⟨fun q => ?_, fun _ => a3⟩
      rcases a4 q with x | x
      · simp [fresh] at x
      · exact x
    · rw [if_neg hx] at h
      subst h
      have e := step_tidy (fresh hn (Addr.parse hn) pn false, []) (.select { i with dnsReady := true }) (fun q => by simp [fresh] at q) (fun q => by simp [fresh] at q)
        (fun q => by simp [fresh] at q) (fun l q => by simp at q)
      exact e

theorem run_append (c : Conn) (l m : List Op) : run c (l ++ m) = m.foldl step (run c l) := by unfold run; rw [List.foldl_append]

theorem after_spec (c : Byte) (s : Text) : Addr.after c s = if c ∈ s then some (s.dropWhile (· ≠ c)).tail else none := by
  unfold Addr.after
  induction s with
  | nil => rfl
  | cons b s ih =>
    by_cases e : b = c
    · subst e; simp
    · rw [List.dropWhile_cons_of_pos (by simpa using e), ih]
      simp [Ne.symm e]

theorem target_spec (serv : Text → Option Nat) (s : Text) (port : Nat) : target serv s port =
    match service s with
    | none => some (host s, port)
    | some t => if port ≠ 0 then some (host s, port) else match serv t with
      | some n => some (host s, n)
      | none => (Num.num t).map fun n => (host s, (n % 65536).toNat) := by
  unfold target service host separator
  simp only [after_spec, List.find?_cons, List.find?_nil]
  by_cases h1 : ch ':' ∈ s
  · simp [h1]; rfl
  · by_cases h2 : (9 : Byte) ∈ s
    · simp [h1, h2]; rfl
    · by_cases h3 : ch ' ' ∈ s
      · simp [h1, h2, h3]; rfl
      · simp [h1, h2, h3]

end TcpP

open TcpP

/-- C104: whatever the resolver, the system and `select` answer, and whenever: what was written to sockets is what the user wrote, in order, without anything missing or
    twice; as long as the connection is ok the rest is still waiting. And nothing is written to a socket before its connection was made. -/
theorem C104_data (c : Conn) (hc : Made c) (ops : List Op) :
    let r := run c ops
    sent r.1.log <+: r.2 ∧ (isok r.1 = true → sent r.1.log ++ r.1.outbuf = r.2) ∧ Ordered r.1.log := by
  have h := (run_ok (P := fun _ _ => True) ops (s := (c, [])) (made_ok c hc) (fun _ _ _ _ _ _ _ _ => trivial)).1
  exact ⟨h.pre, fun q => h.keep (isok_keep h q), h.wr⟩

/-- C104: the error is the first failure there was. It is connected without an error only if `connect` said so, and always if `connect` said so. If it is
    ok and knows the address, it has an open socket. -/
theorem C104_state (c : Conn) (hc : Made c) (ops : List Op) :
    let r := (run c ops).1
    r.err = r.log.findSome? Ev.failure ∧ (r.connected = true → r.err = none → ∃ n, ∃ e ∈ r.log, e.success n = true) ∧
    (∀ n, ∀ e ∈ r.log, e.success n = true → r.connected = true) ∧ (r.connected = true → r.resolved = true) ∧
    (isok r = true → r.resolved = true → r.err = none ∧ ∃ n, r.fd = some n ∧ opens n r.log = shuts n r.log + 1) := by
  have h := (run_ok (P := fun _ _ => True) ops (s := (c, [])) (made_ok c hc) (fun _ _ _ _ _ _ _ _ => trivial)).1
  refine ⟨h.err, fun a b => ?_, h.conv, h.res, fun a b => ?_⟩
  · obtain ⟨n, e, e1, e2, _⟩ := h.succ a b
    exact ⟨n, e, e1, e2⟩
  · rcases isok_keep h a with q | ⟨q1, q2⟩
    · have b : (run c ops).1.resolved = true := b
      have q : (run c ops).1.resolved = false := q
      rw [b] at q; simp at q
    · obtain ⟨n, hn⟩ := h.live b q1 q2
      have := h.fds n
      rw [hn] at this
      exact ⟨q2, n, hn, this.trans (by rw [if_pos rfl]; rfl)⟩

/-- C104: what becomes of a connection that is being made when `select` finds something. -/
theorem C104_connecting (c : Conn) (hr : c.resolved = true) (hc : c.connected = false) (hk : isok c = true) (i : In) :
    let d := postSelect c i
    (i.sel = false → d.connected = false ∧ isok d = true) ∧
    (i.sel = true →
      (∀ e, i.so = .fails e ∨ (i.so = .value e ∧ e ≠ 0) → d.connected = true ∧ isok d = false ∧ d.err = some (.errno e)) ∧
      (i.so = .value 0 → (i.conn = none ∨ i.conn = some 106) → d.connected = true ∧ isok d = true) ∧
      (i.so = .value 0 → ∀ e, i.conn = some e → pending e = true → d.connected = false ∧ isok d = true) ∧
      (i.so = .value 0 → ∀ e, i.conn = some e → e ≠ 106 → pending e = false → d.connected = true ∧ isok d = false ∧ d.err = some (.errno e))) := by
  have fl : ∀ w, flush c w = c := by
    intro w
    have hu : uwrite c c.outbuf w = (c, 0) := by unfold uwrite; simp [hc]
    unfold flush
    rw [hu]
    split
    · rfl
    · split
      · rename_i q; rw [hk] at q; simp at q
      · dsimp only; rw [if_pos hk, List.drop_zero]
  have fls : ∀ l : List W, l.foldl flush c = c := by
    intro l
    induction l with
    | nil => rfl
    | cons w l ih => rw [List.foldl_cons, fl]; exact ih
  have hk' : (c.closed = false ∧ c.err = none) ∧ c.fd.isSome = true := by
    simpa [isok, fdok, hr] using hk
  obtain ⟨⟨k1, k2⟩, k3⟩ := hk'
  obtain ⟨n, hn⟩ := Option.isSome_iff_exists.mp k3
  dsimp only
  unfold postSelect
  simp only [hr, Bool.not_true, Bool.false_eq_true, if_false, fls, hc, Bool.not_false, Bool.and_true, hn]
  refine ⟨fun q => by simp only [q, Bool.false_eq_true, if_false]; exact ⟨hc, hk⟩, fun q => ?_⟩
  simp only [q, if_true]
  refine ⟨?_, ?_, ?_, ?_⟩
  · rintro e (p | ⟨p, p2⟩)
    · rw [p]; simp [seterr, shut, k1, k2, isok, fdok, hr, hn]
    · rw [p]; simp [seterr, shut, k1, k2, isok, fdok, hr, hn, p2]
  · intro p p2
    rw [p]
    rcases p2 with p2 | p2 <;> simp [doConnect, tryConnect, p2, hn, isok, fdok, hr, k1, k2]
  · intro p e p2 p3
    rw [p]
    have hne : e ≠ 106 := by rintro rfl; simp [pending] at p3
    have hp : ¬ (e ≠ 115 ∧ e ≠ 11 ∧ e ≠ 114 ∧ e ≠ 22) := by
      simp only [pending, Bool.or_eq_true, decide_eq_true_eq] at p3
      omega
    simp only [ne_eq, not_true_eq_false, if_false, doConnect, tryConnect, p2, hn, if_neg hne, if_neg hp]
    simp [isok, fdok, hr, k1, k2, hc]
  · intro p e p2 hne p3
    rw [p]
    have hp : e ≠ 115 ∧ e ≠ 11 ∧ e ≠ 114 ∧ e ≠ 22 := by
      simp only [pending, Bool.or_eq_false_iff, decide_eq_false_iff_not] at p3
      omega
    simp only [ne_eq, not_true_eq_false, if_false, doConnect, tryConnect, p2, hn, if_neg hne]
    rw [if_pos hp]
    simp [seterr, shut, k1, k2, isok, fdok, hr]

/-- C104: where it connects to. The port is the one given, else that of the text, which is a service or a number, else 0. The address is that of the text, if it is one other than
    0.0.0.0; otherwise the first that the resolver found in some answer. -/
theorem C104_target (serv : List Byte → Option Nat) (s : List Byte) (port : Nat) (i : In) (c : Conn) (hc : new serv s port i = some c) (ops : List Op)
    (fd : Nat) (a : Addr) (p : Nat) (r : Option Nat) (he : Ev.connect fd a p r ∈ (run c ops).1.log) :
    (port ≠ 0 → p = port) ∧ (port = 0 → service s = none → p = 0) ∧
    (∀ t, port = 0 → service s = some t → (∀ n, serv t = some n → p = n) ∧ (serv t = none → ∃ n, Num.num t = some n ∧ (p : Int) = n % 65536)) ∧
    (Addr.parse (host s) ≠ ⟨0, 0, 0, 0⟩ → a = Addr.parse (host s)) ∧
    (Addr.parse (host s) = ⟨0, 0, 0, 0⟩ → ∃ x ∈ i :: ops.flatMap answers, ∃ l, x.dns = some (a :: l)) := by
  have ht := target_spec serv s port
  obtain ⟨h, q, h1, h2, h3, h4, h5⟩ := new_ok (P := fun a p => (target serv s port).map (·.2) = some p ∧ (Addr.parse (host s) ≠ ⟨0, 0, 0, 0⟩ → a = Addr.parse (host s)) ∧
    (Addr.parse (host s) = ⟨0, 0, 0, 0⟩ → ∃ x ∈ i :: ops.flatMap answers, ∃ l, x.dns = some (a :: l))) serv s port i c hc
  have hh : h = host s := by
    rw [ht] at h1
    split at h1
    · simp only [Option.some.injEq, Prod.mk.injEq] at h1; exact h1.1.symm
    · split at h1
      · simp only [Option.some.injEq, Prod.mk.injEq] at h1; exact h1.1.symm
      · split at h1
        · simp only [Option.some.injEq, Prod.mk.injEq] at h1; exact h1.1.symm
        · simp only [Option.map_eq_some_iff, Prod.mk.injEq] at h1
          obtain ⟨_, _, e, _⟩ := h1; exact e.symm
  subst hh
  have inv := h5 (fun g => ⟨by rw [h1]; rfl, fun _ => rfl, fun g' => absurd g' g⟩)
    (fun g a l hd => ⟨by rw [h1]; rfl, fun g' => absurd g g', fun _ => ⟨i, by simp, l, hd⟩⟩)
  have fin := (run_ok ops (s := (c, [])) inv (fun hres o ho x hx a l hd => ?_)).1.tgt fd a p r he
  · obtain ⟨f1, f2, f3⟩ := fin
    rw [ht] at f1
    refine ⟨fun g => ?_, fun g g' => ?_, fun t g g' => ?_, f2, f3⟩
    · split at f1
      · simpa using f1.symm
      · rw [if_pos g] at f1; simpa using f1.symm
    · rw [g'] at f1; simp only [Option.map_some, Option.some.injEq] at f1; rw [← f1, g]
    · rw [g'] at f1
      simp only [g, ne_eq, not_true_eq_false, if_false] at f1
      refine ⟨fun n hn => ?_, fun hn => ?_⟩
      · rw [hn] at f1; simpa using f1.symm
      · rw [hn] at f1
        cases hnum : Num.num t with
        | none => rw [hnum] at f1; simp at f1
        | some n =>
          rw [hnum] at f1
          simp only [Option.map_some, Option.some.injEq] at f1
          refine ⟨n, rfl, ?_⟩
          rw [← f1]; omega
  · have e : (c, ([] : List Byte)).1.port = q := h2
    rw [e]
    refine ⟨by rw [h1]; rfl, fun g => ?_, fun _ => ⟨x, ?_, l, hd⟩⟩
    · have := h4 g
      have hres : c.resolved = false := hres
      rw [hres] at this; simp at this
    · exact List.mem_cons_of_mem _ (List.mem_flatMap.mpr ⟨o, ho, hx⟩)

/-- C104: made with an address, it connects to that one and no other. -/
theorem C104_target_address (x : Addr) (q : Nat) (i : In) (ops : List Op) (fd : Nat) (a : Addr) (p : Nat) (r : Option Nat)
    (he : Ev.connect fd a p r ∈ (run (newAddr x q i) ops).1.log) : a = x ∧ p = q := by
  have hr : (newAddr x q i).resolved = true := (connect_same (fresh [] x q true) i).2.2.1
  exact (run_ok (P := fun a p => a = x ∧ p = q) ops (s := (newAddr x q i, [])) (newAddr_ok x q i ⟨rfl, rfl⟩)
    (fun h => by rw [show (newAddr x q i).resolved = false from h] at hr; simp at hr)).1.tgt fd a p r he

/-- C104: a printed address and port, as in "10.0.0.1:80", is where it connects to, whatever the resolver says; unless it is 0.0.0.0. -/
theorem C104_address (serv : List Byte → Option Nat) (x : Addr) (q : Nat) (hx : x ≠ ⟨0, 0, 0, 0⟩) (hq : q < 65536) (hs : serv (Num.ofUnsigned q) = none) (i : In) (c : Conn)
    (hc : new serv (Addr.portPrintable ⟨x, q⟩) 0 i = some c) (ops : List Op) (fd : Nat) (a : Addr) (p : Nat) (r : Option Nat)
    (he : Ev.connect fd a p r ∈ (run c ops).1.log) : a = x ∧ p = q := by
  have hm : ch ':' ∈ Addr.portPrintable ⟨x, q⟩ := by simp [Addr.portPrintable]
  have hsep : separator (Addr.portPrintable ⟨x, q⟩) = some (ch ':') := by
    unfold separator; rw [List.find?_cons, decide_eq_true hm]
  have hno : ch ':' ∉ Addr.printable x := by
    intro h
    rw [C38_print] at h
    have key : ∀ b : Byte, ch ':' ∉ Spec.Addr.text b := by
      apply forall_byte; decide +kernel
    unfold Spec.Addr.dotted at h
    simp only [List.mem_append, List.mem_cons] at h
    have : ch ':' ≠ ch '.' := by decide
    simp [key, this] at h
  have tw : ∀ (l r : List Byte), ch ':' ∉ l → (l ++ ch ':' :: r).takeWhile (· ≠ ch ':') = l ∧ (l ++ ch ':' :: r).dropWhile (· ≠ ch ':') = ch ':' :: r := by
    intro l r h
    induction l with
    | nil => simp
    | cons b l ih =>
      simp only [List.mem_cons, not_or] at h
      obtain ⟨e1, e2⟩ := ih h.2
      constructor
      · rw [List.cons_append, List.takeWhile_cons_of_pos (by simpa using Ne.symm h.1), e1]
      · rw [List.cons_append, List.dropWhile_cons_of_pos (by simpa using Ne.symm h.1), e2]
  obtain ⟨t1, t2⟩ := tw (Addr.printable x) (Num.ofUnsigned q) hno
  have hh : host (Addr.portPrintable ⟨x, q⟩) = Addr.printable x := by unfold host; rw [hsep]; exact t1
  have hv : service (Addr.portPrintable ⟨x, q⟩) = some (Num.ofUnsigned q) := by
    unfold service; rw [hsep]; simp only [Option.map_some, Option.some.injEq]
    show List.tail (List.dropWhile _ (Addr.printable x ++ ch ':' :: Num.ofUnsigned q)) = _
    rw [t2]; rfl
  obtain ⟨_, _, h3, h4, _⟩ := C104_target serv _ 0 i c hc ops fd a p r he
  have hp : Addr.parse (Addr.printable x) = x := (C38_roundtrip x [] (by intro c t e; cases e)).1
  rw [hh, hp] at h4
  refine ⟨h4 hx, ?_⟩
  obtain ⟨n, n1, n2⟩ := (h3 _ rfl hv).2 hs
  have hdec : Num.ofUnsigned q = Num.dec q := by
    rw [C32_print_unsigned, Spec.Num.decimal, if_neg (by omega)]; rfl
  have hnum : Num.num (Num.dec q) = some (q : Int) := by
    have := C32_num q (by simp [Num.inRange]; omega)
    rw [Spec.Num.decimal, if_neg (by omega)] at this
    simpa [Num.dec] using this
  rw [hdec, hnum] at n1
  simp only [Option.some.injEq] at n1
  omega

/-- C104: after the destructor, every socket that was opened has been closed as often as it was opened, if `close` was not called before the address was known. -/
theorem C104_close_partial (c : Conn) (hc : Made c) (ops : List Op) (ho : ∀ l t m, ops = l ++ .close t :: m → (run c l).1.resolved = true) (n : Nat) :
    shuts n (destroy (run c ops).1).log = opens n (destroy (run c ops).1).log ∧
    ((run c ops).1.closed = true → isok (run c ops).1 = false ∧ (run c ops).1.fd = none) := by
  have h := (run_ok (P := fun _ _ => True) ops (s := (c, [])) (made_ok c hc) (fun _ _ _ _ _ _ _ _ => trivial)).1
  have key : ∀ l m, ops = l ++ m → Tidy (run c l).1 ∧ ((run c l).1.closed = true → (run c l).1.resolved = true) := by
    intro l
    induction hl : l.length generalizing l with
    | zero =>
      intro m _
      have : l = [] := List.length_eq_zero_iff.mp hl
      subst this
      exact made_tidy c hc
    | succ k ih =>
      intro m hm
      rcases List.eq_nil_or_concat l with rfl | ⟨l', o, rfl⟩
      · simp at hl
      · simp only [List.concat_eq_append] at hm hl ⊢
        have hm' : ops = l' ++ o :: m := by rw [hm]; simp
        obtain ⟨q1, q2⟩ := ih l' (by simpa using hl) (o :: m) hm'
        have inv := (run_ok (P := fun _ _ => True) l' (s := (c, [])) (made_ok c hc) (fun _ _ _ _ _ _ _ _ => trivial)).1
        rw [run_append]
        exact step_tidy (run c l') o q1 q2 inv.res (fun t e => ho l' t m (by rw [hm', e]))
  obtain ⟨k1, k2⟩ := key ops [] (by simp)
  refine ⟨destroy_ok h k1 n, fun q => ⟨?_, k1 q⟩⟩
  simp [isok, fdok, q, k2 q]

namespace TcpP
def quietIn : In := ⟨false, none, none, some 115, false, .value 0, []⟩
def ab : Text := str ['a', 'b', ':', '8', '0']
def noServ : Text → Option Nat := fun _ => none
/-- The name is found, the connection takes two turns. -/
def found : In := ⟨true, some [⟨10, 0, 0, 1⟩, ⟨10, 0, 0, 2⟩], none, some 115, false, .value 0, []⟩
def done : In := ⟨false, none, none, some 106, true, .value 0, []⟩
def conn0 : Conn := checkResolver (fresh (str ['a', 'b']) ⟨0, 0, 0, 0⟩ 80 false) quietIn
end TcpP

theorem TcpP.conn0_new : new noServ ab 0 quietIn = some conn0 := by
  have ht : target noServ ab 0 = some (str ['a', 'b'], 80) := by decide +kernel
  have hp : Addr.parse (str ['a', 'b']) = ⟨0, 0, 0, 0⟩ := by decide +kernel
  unfold new
  rw [ht]
  simp only [Option.map_some, hp]
  rfl

/-- What is written while the name is looked up is sent once it is connected; this meets the hypotheses of the theorems above. -/
example : Made conn0 ∧ (run conn0 [.write [1, 2] .again .again, .select found, .write [3] .again .again, .select done, .select { quietIn with writes := [.took 1, .took 7] }]).1.log =
    [.opened 0, .connect 0 ⟨10, 0, 0, 1⟩ 80 (some 115), .connect 0 ⟨10, 0, 0, 1⟩ 80 (some 106), .wrote 0 [1, 2], .wrote 0 [3]] :=
  ⟨Or.inr ⟨_, _, _, _, conn0_new⟩, by decide +kernel⟩

/-- C104: `write` takes everything as long as the connection is ok, also before it is made, and nothing afterwards. -/
theorem C104_taken (c : Conn) (d : List Byte) (w1 w2 : W) :
    (isok c = true → (write c d w1 w2).2 = d.length) ∧ (isok c = false → write c d w1 w2 = (c, 0)) := by
  unfold write
  refine ⟨fun h => ?_, fun h => by simp [h]⟩
  cases d with
  | nil => simp
  | cons b d => simp [h]

/-- C104: once it is connected, what waits is offered to the system at every turn, and goes as far as the system takes it: a prefix, at least a byte. -/
theorem C104_flush (c : Conn) (hr : c.resolved = true) (hc : c.connected = true) (hk : isok c = true) (i : In) (n : Nat) (hi : i.writes = [.took n]) :
    (postSelect c i).outbuf = c.outbuf.drop (n + 1) ∧ sent (postSelect c i).log = sent c.log ++ c.outbuf.take (n + 1) := by
  obtain ⟨hn, res, con, ad, po, fd, er, cl, ob, ne, lg⟩ := c
  dsimp only at hr hc
  subst hr hc
  have hk' : (cl = false ∧ er = none) ∧ fd.isSome = true := by simpa [isok, fdok] using hk
  obtain ⟨⟨rfl, rfl⟩, k3⟩ := hk'
  obtain ⟨m, rfl⟩ := Option.isSome_iff_exists.mp k3
  have hu : ∀ b l, flush ⟨hn, true, true, ad, po, some m, none, false, b :: l, ne, lg⟩ (.took n) =
      ⟨hn, true, true, ad, po, some m, none, false, (b :: l).drop (n + 1), ne, lg ++ [.wrote m ((b :: l).take (n + 1))]⟩ := by
    intro b l
    have hd : (b :: l).drop ((b :: l).take (n + 1)).length = (b :: l).drop (n + 1) := by
      rw [List.length_take]
      rcases Nat.le_total (n + 1) (b :: l).length with q | q
      · rw [Nat.min_eq_left q]
      · rw [Nat.min_eq_right q, List.drop_length, List.drop_eq_nil_of_le q]
    unfold flush uwrite
    simp only [isok, fdok, List.isEmpty_cons, Bool.not_true, Bool.not_false, Bool.and_self, Option.isNone_none, Option.isSome_some, Bool.or_true, Bool.or_false, Bool.false_eq_true,
      if_false, if_true, hd]
  unfold postSelect
  simp only [Bool.not_true, Bool.false_eq_true, if_false, hi, List.foldl_cons, List.foldl_nil]
  cases ob with
  | nil => simp [flush]
  | cons b l =>
    rw [hu]
    simp only [Bool.not_true, Bool.and_false, Bool.false_eq_true, if_false]
    exact ⟨trivial, by rw [sent_append]; simp [sent]⟩

example : let c := (run TcpP.conn0 [.write [1, 2, 3] .again .again, .select TcpP.found, .select TcpP.done]).1
    c.resolved = true ∧ c.connected = true ∧ isok c = true ∧ c.outbuf = [1, 2, 3] ∧ (postSelect c { TcpP.quietIn with writes := [.took 1] }).outbuf = [3] := by decide +kernel

/-- The hypotheses of `C104_connecting`, and those of `C104_address` and `C104_close_partial`. -/
example : let c := (run TcpP.conn0 [.select TcpP.found]).1
    c.resolved = true ∧ c.connected = false ∧ isok c = true ∧ isok (postSelect c { TcpP.done with so := .value 111 }) = false := by decide +kernel
example : (new TcpP.noServ (Addr.portPrintable ⟨⟨10, 0, 0, 7⟩, 80⟩) 0 TcpP.found).map (·.log) = some [.opened 0, .connect 0 ⟨10, 0, 0, 7⟩ 80 (some 115)] := by decide +kernel
example : let r := run TcpP.conn0 [.select TcpP.found, .select TcpP.done, .close []]
    (run TcpP.conn0 [.select TcpP.found, .select TcpP.done]).1.resolved = true ∧ opens 0 r.1.log = 1 ∧ shuts 0 (destroy r.1).log = 1 := by decide +kernel

/-- C104: closing it before the name is known has no effect: it is still ok; it is connected later, and that socket is never closed. -/
theorem C104_close_fails : let r := run conn0 [.close []]
    let s := run conn0 [.close [], .select found, .select done]
    isok r.1 = true ∧ r.1.closed = true ∧ s.1.connected = true ∧ opens 0 (destroy s.1).log = 1 ∧ shuts 0 (destroy s.1).log = 0 := by
  decide +kernel

/-- C104: names that begin with a digit are taken for addresses: "3com.com" is 3.0.0.0. -/
theorem C104_name_fails : ∃ c, new noServ (str ['3', 'c', 'o', 'm', '.', 'c', 'o', 'm', ':', '8', '0']) 0 found = some c ∧
    c.log = [.opened 0, .connect 0 ⟨3, 0, 0, 0⟩ 80 (some 115)] := by
  have ht : target noServ (str ['3', 'c', 'o', 'm', '.', 'c', 'o', 'm', ':', '8', '0']) 0 = some (str ['3', 'c', 'o', 'm', '.', 'c', 'o', 'm'], 80) := by decide +kernel
  have hp : Addr.parse (str ['3', 'c', 'o', 'm', '.', 'c', 'o', 'm']) = ⟨3, 0, 0, 0⟩ := by decide +kernel
  refine ⟨doConnect (fresh (str ['3', 'c', 'o', 'm', '.', 'c', 'o', 'm']) ⟨3, 0, 0, 0⟩ 80 true) found, ?_, by decide +kernel⟩
  unfold new
  rw [ht]
  simp only [Option.map_some, hp]
  rfl

/-- C104: if the name is cleared while it is looked up, the resolver is never ready again, and the connection waits for ever. -/
theorem C104_clear_fails (st : Resolver.St) (name : List Byte) (t : Resolver.Turn) (c : Conn) (hc : c.resolved = false) (i : In)
    (hi : i.dnsReady = Resolver.postSelect t name (Resolver.clear name st)) : postSelect c i = c ∧ isok c = true := by
  have e : Resolver.lookup (Resolver.clear name st) name = none := by
    unfold Resolver.clear
    cases hl : Resolver.lookup st name with
    | none => exact hl
    | some h =>
      have hn : h.name = name := by
        unfold Resolver.lookup at hl
        simpa using List.find?_some hl
      have hh : (Resolver.remove st h).hosts = st.hosts.filter fun g => g.name ≠ h.name := by
        unfold Resolver.remove
        dsimp only
        split
        · split <;> rfl
        · rfl
      show Resolver.lookup (Resolver.remove st h) name = none
      unfold Resolver.lookup
      rw [hh, List.find?_eq_none]
      intro g hg
      simp only [List.mem_filter, decide_eq_true_eq] at hg
      rw [hn] at hg
      simpa using hg.2
  have : i.dnsReady = false := by rw [hi]; unfold Resolver.postSelect; rw [e]
  exact ⟨by unfold postSelect; simp [hc, this], by simp [isok, hc]⟩

end Props
