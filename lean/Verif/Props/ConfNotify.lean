import Verif.Lemmas.ConfEmu
import Verif.Spec.ConfNotify
import Verif.Props.ConfEmu
import Verif.Props.IntText
/- C82: who is told of changes through the interface of sections and entries. -/
namespace Props
open Wv Wv.Key Spec.ConfNotify Gens
open Spec.Conf (place Text Place)
open Wv.ConfEmu (Cb Call)

namespace Told

/-- A change of the tree below, and the calls of callbacks: one round of them for each notification (Model/Watch has how they
    come). -/
def change (c : ConfEmu.Emu TempGen.Gen) (k : Temp.SetCall) : ConfEmu.Emu TempGen.Gen × List Call :=
  let r := Temp.call c.gen k
  let c' := { c with gen := r.1 }
  (c', r.2.flatMap fun d => ConfEmu.notify (IGen.temp k.order) c' d.1)

/-- The place a call is about. -/
def at_ (x : Call) : Place := place (x.sect ++ Spec.Path.slash :: x.key)

/-- The calls of one callback. -/
def callsOf (b : Cb) (l : List Call) : List Call := l.filter fun x => x.cb == b.cb

/-- Places that can be. -/
def Named (m : Spec.Conf.State) : Prop := ∀ q, m q ≠ none → ∀ n ∈ q, n ≠ [] ∧ Spec.Path.slash ∉ n

theorem place_names (k : Text) : ∀ n ∈ place k, n ≠ [] ∧ Spec.Path.slash ∉ n := by
  intro n hn
  unfold place at hn
  obtain ⟨x, hx, rfl⟩ := List.mem_map.1 hn
  obtain ⟨h1, h2⟩ := Key.names_ok k x hx
  refine ⟨by simpa using h1, fun hm => ?_⟩
  obtain ⟨c, hc, he⟩ := List.mem_map.1 hm
  have : ∀ c : Byte, Spec.Path.lower c = Spec.Path.slash → c = Spec.Path.slash := by
    apply forall_byte; decide +kernel
  exact h2 (this c he ▸ hc)

theorem named_set {m : Spec.Conf.State} (h : Named m) (k : Text) (v : Option Text) : Named (Spec.Conf.set m k v) := by
  intro q hq
  cases v with
  | none =>
    simp only [Spec.Conf.set] at hq
    split at hq
    · exact absurd rfl hq
    · exact h q hq
  | some v =>
    simp only [Spec.Conf.set] at hq
    split at hq
    · exact h q hq
    · simp only at hq
      split at hq
      · next he => rw [he]; exact place_names k
      · split at hq
        · next he =>
          intro n hn
          exact place_names k n (he.subset hn)
        · exact h q hq

theorem named_run (l : List (Text × Option Text)) : ∀ m, Named m → Named (Spec.Conf.run m l) := by
  induction l with
  | nil => intro m h; exact h
  | cons x l ih => intro m h; exact ih _ (named_set h x.1 x.2)

theorem named_conf (l : List Temp.SetCall) : Named (Temp.conf l) := named_run _ _ fun q h => absurd rfl h

theorem names_of_fold {k : Key} (h : ∀ n ∈ fold k, n ≠ [] ∧ Spec.Path.slash ∉ n) : Key.Names k := by
  intro n hn
  obtain ⟨h1, h2⟩ := h (n.map tolower) (List.mem_map_of_mem hn)
  refine ⟨by simpa using h1, fun hm => h2 ?_⟩
  exact List.mem_map.2 ⟨Spec.Path.slash, hm, by decide +kernel⟩

/-- What a callback is told of a key. -/
theorem first_eq (k : Key) (h : Key.Names k) : Key.printable (Key.first k 1) = k.head?.getD [] := by
  cases k with
  | nil => rfl
  | cons n k =>
    have hn := (h n (by simp)).1
    unfold Key.first Key.range
    have h1 : ¬ (1 : Int) > (n :: k).length := by rw [List.length_cons]; omega
    simp only [if_neg h1, show ¬ (0 : Int) < 0 by omega, show ¬ (1 : Int) < 0 by omega, if_false]
    show Key.printable (Key.collapse [n]) = n
    simp [Key.collapse, hn, Key.printable]

theorem rest_eq (k : Key) (h : Key.Names k) : Key.printable (Key.removefirst k 1) = Spec.Path.write k.tail false := by
  cases k with
  | nil => rfl
  | cons n k =>
    have hk : Key.Names k := fun x hx => h x (by simp [hx])
    unfold Key.removefirst Key.range Key.numsegments
    have e : ((List.take (((n :: k).length : Int)).toNat (n :: k)).drop (1 : Int).toNat) = k := by simp
    have h1 : ¬ ((n :: k).length : Int) > (n :: k).length := by omega
    have h2 : ¬ ((n :: k).length : Int) < 1 := by rw [List.length_cons]; omega
    simp only [if_neg h1, if_neg h2, show ¬ (1 : Int) < 0 by omega, if_false]
    rw [e]
    have := Key.collapse_mk k false hk
    rw [Bool.false_and] at this
    have hmk : Key.mk k false = k := by unfold Key.mk; simp
    rw [hmk] at this
    have hp := Key.printable_mk k false (by simp)
    rw [hmk] at hp
    rw [this, hp]; rfl

theorem write_lower (k : List Seg) : (Spec.Path.write k false).map tolower = Spec.Path.write (fold k) false := by
  unfold Spec.Path.write fold
  simp only [Bool.false_eq_true, if_false, List.append_nil]
  induction k with
  | nil => rfl
  | cons n k ih =>
    cases k with
    | nil => rfl
    | cons m k =>
      have e : ∀ (x y : List Byte) (l : List (List Byte)), Spec.Split.join [Spec.Path.slash] (x :: y :: l) = x ++ Spec.Path.slash :: Spec.Split.join [Spec.Path.slash] (y :: l) := by
        intro x y l; rfl
      rw [List.map_cons, List.map_cons, e, e, List.map_append, List.map_cons, ih, List.map_cons]
      congr 1

theorem text_eq (k : Key) (h : Key.Names k) : place (k.head?.getD [] ++ Spec.Path.slash :: Spec.Path.write k.tail false) = fold k := by
  have hl : ∀ ns : List Seg, ns.map (List.map Spec.Path.lower) = fold ns := by intro ns; rw [Key.lower_eq]; rfl
  rw [Emu.place_append]
  cases k with
  | nil => rfl
  | cons n k =>
    have hk : Key.Names k := fun x hx => h x (by simp [hx])
    have h1 : place n = [n.map Spec.Path.lower] := Emu.place_plain (h n (by simp))
    have h2 : place (Spec.Path.write k false) = fold k := by
      unfold place
      rw [Key.names_write k false hk, hl]
    show place n ++ place (Spec.Path.write k false) = _
    rw [h1, h2, Key.lower_eq]; rfl

theorem dir_eq (k : Key) (h : Key.Names k) :
    Spec.Path.dir (k.head?.getD [] ++ Spec.Path.slash :: Spec.Path.write k.tail false) = decide (k.length = 1) := by
  match k with
  | [] => rfl
  | [n] =>
    have : Spec.Path.names (n ++ [Spec.Path.slash]) = [n] := by
      rw [Key.names_append, Key.names_one n (h n (by simp))]; rfl
    show Spec.Path.dir (n ++ [Spec.Path.slash]) = true
    unfold Spec.Path.dir
    rw [this]
    simp
  | n :: m :: k =>
    have hk : Key.Names (m :: k) := fun x hx => h x (by simp [hx])
    have hw := Key.dir_write (m :: k) false hk (by simp)
    have hn := Key.names_write (m :: k) false hk
    show Spec.Path.dir (n ++ Spec.Path.slash :: Spec.Path.write (m :: k) false) = _
    generalize Spec.Path.write (m :: k) false = w at hw hn
    have hw0 : w ≠ [] := by rintro rfl; cases hn
    unfold Spec.Path.dir at hw ⊢
    rw [hn] at hw
    have hl : (n ++ Spec.Path.slash :: w).getLast? = w.getLast? := by
      obtain ⟨c, r, rfl⟩ := List.exists_cons_of_ne_nil hw0
      simp only [List.getLast?_append, List.getLast?_cons_cons]
      rw [List.getLast?_eq_some_getLast (List.cons_ne_nil c r)]; rfl
    rw [hl]
    simp at hw
    simp [hw]

/-- Whether a callback is told. -/
theorem covers_iff (b : Cb) (k : Key) (h : Key.Names k) :
    ((b.sect.getD [] = [] ∨ Key.strcasecmp (b.sect.getD []) (Key.printable (Key.first k 1)) = 0) ∧
     (b.key.getD [] = [] ∨ Key.strcasecmp (b.key.getD []) (Key.printable (Key.removefirst k 1)) = 0)) ↔ Covers b.sect b.key (fold k) := by
  rw [first_eq k h, rest_eq k h, IntT.cmp_zero, IntT.cmp_zero]
  unfold Covers
  have h1 : (k.head?.getD []).map Spec.Path.lower = (fold k).head?.getD [] := by
    rw [Key.lower_eq]
    cases k <;> rfl
  have h2 : (Spec.Path.write k.tail false).map Spec.Path.lower = Spec.Path.write (fold k).tail false := by
    rw [Key.lower_eq, write_lower]
    cases k <;> rfl
  rw [h1, h2, @eq_comm _ ((b.sect.getD []).map Spec.Path.lower), @eq_comm _ ((b.key.getD []).map Spec.Path.lower)]

theorem filter_one {α β : Type} [DecidableEq β] (f : α → β) (l : List α) (hn : (l.map f).Nodup) (b : α) (hb : b ∈ l) :
    l.filter (fun x => f x == f b) = [b] := by
  induction l with
  | nil => cases hb
  | cons a l ih =>
    rw [List.map_cons, List.nodup_cons] at hn
    rcases List.mem_cons.1 hb with rfl | hb
    · rw [List.filter_cons, if_pos (by simp)]
      congr 1
      rw [List.filter_eq_nil_iff]
      intro x hx
      simp only [beq_iff_eq]
      intro e
      exact hn.1 (e ▸ List.mem_map_of_mem hx)
    · rw [List.filter_cons, if_neg, ih hn.2 hb]
      simp only [beq_iff_eq]
      intro e
      exact hn.1 (e ▸ List.mem_map_of_mem hb)

/-- What a callback is told. -/
def says {σ : Type} (I : IGen σ) (c : ConfEmu.Emu σ) (b : Cb) (k : Key) : Call :=
  ⟨b.cb, Key.printable (Key.first k 1), Key.printable (Key.removefirst k 1),
    (I.get c.gen (ConfEmu.key2 (Key.printable (Key.first k 1)) (Key.printable (Key.removefirst k 1)))).getD []⟩

instance (s e : Option Text) (q : Place) : Decidable (Covers s e q) := by unfold Covers; infer_instance

theorem notify_one {σ : Type} (I : IGen σ) (c : ConfEmu.Emu σ) (hh : c.hold = false) (hn : (c.callbacks.map (·.cb)).Nodup) (b : Cb)
    (hb : b ∈ c.callbacks) (k : Key) (hk : Key.Names k) :
    callsOf b (ConfEmu.notify I c k) = if Covers b.sect b.key (fold k) then [says I c b k] else [] := by
  unfold callsOf ConfEmu.notify
  simp only [hh, Bool.false_eq_true, if_false]
  rw [List.filter_map, List.filter_filter]
  have e : (c.callbacks.filter fun x => ((fun x : Call => x.cb == b.cb) ∘ fun b : Cb => (⟨b.cb, Key.printable (Key.first k 1), Key.printable (Key.removefirst k 1),
      (I.get c.gen (ConfEmu.key2 (Key.printable (Key.first k 1)) (Key.printable (Key.removefirst k 1)))).getD []⟩ : Call)) x &&
      decide ((x.sect.getD [] = [] ∨ Key.strcasecmp (x.sect.getD []) (Key.printable (Key.first k 1)) = 0) ∧
     (x.key.getD [] = [] ∨ Key.strcasecmp (x.key.getD []) (Key.printable (Key.removefirst k 1)) = 0))) =
      if Covers b.sect b.key (fold k) then [b] else [] := by
    have := filter_one (fun x : Cb => x.cb) c.callbacks hn b hb
    have e1 : ∀ x : Cb, (((fun x : Call => x.cb == b.cb) ∘ fun b : Cb => (⟨b.cb, Key.printable (Key.first k 1), Key.printable (Key.removefirst k 1),
      (I.get c.gen (ConfEmu.key2 (Key.printable (Key.first k 1)) (Key.printable (Key.removefirst k 1)))).getD []⟩ : Call)) x &&
      decide ((x.sect.getD [] = [] ∨ Key.strcasecmp (x.sect.getD []) (Key.printable (Key.first k 1)) = 0) ∧
     (x.key.getD [] = [] ∨ Key.strcasecmp (x.key.getD []) (Key.printable (Key.removefirst k 1)) = 0))) =
      (decide (Covers x.sect x.key (fold k)) && (x.cb == b.cb)) := by
      intro x
      rw [Bool.and_comm]
      simp only [Function.comp]
      congr 1
      rw [decide_eq_decide]
      exact covers_iff x k hk
    rw [List.filter_congr (fun x _ => e1 x), ← List.filter_filter, this]
    by_cases hc : Covers b.sect b.key (fold k)
    · rw [if_pos hc]; simp [hc]
    · rw [if_neg hc]; simp [hc]
  rw [e]
  split <;> rfl

theorem callsOf_flatMap {α : Type} (b : Cb) (l : List α) (f : α → List Call) :
    callsOf b (l.flatMap f) = l.flatMap fun x => callsOf b (f x) := by
  unfold callsOf
  induction l with
  | nil => rfl
  | cons a l ih => rw [List.flatMap_cons, List.filter_append, ih, List.flatMap_cons]

theorem flatMap_if {α β : Type} (l : List α) (p : α → Prop) [DecidablePred p] (f : α → β) :
    (l.flatMap fun x => if p x then [f x] else []) = (l.filter fun x => decide (p x)).map f := by
  induction l with
  | nil => rfl
  | cons a l ih =>
    rw [List.flatMap_cons, ih, List.filter_cons]
    by_cases h : p a
    · simp [h]
    · simp [h]

end Told

/-- C82: when the configuration changes, a callback is called exactly once for each place that it covers and whose value differs
    before and after, with the section and the entry of the place and the value after the change. The value is "" if there is none,
    and for a section itself always, see C82_value_fails. -/
theorem C82_calls_partial (l : List Temp.SetCall) (k : Temp.SetCall) (c : ConfEmu.Emu TempGen.Gen) (hg : c.gen = Temp.after TempGen.new l)
    (hh : c.hold = false) (hn : (c.callbacks.map (·.cb)).Nodup) (b : Cb) (hb : b ∈ c.callbacks) :
    ((Told.callsOf b (Told.change c k).2).map Told.at_).Nodup ∧
    (∀ q, q ∈ (Told.callsOf b (Told.change c k).2).map Told.at_ ↔ Covers b.sect b.key q ∧ Temp.conf (l ++ [k]) q ≠ Temp.conf l q) ∧
    ∀ x ∈ Told.callsOf b (Told.change c k).2,
      x.value = if (Told.at_ x).length = 1 then [] else (Temp.conf (l ++ [k]) (Told.at_ x)).getD [] := by
  obtain ⟨d1, d2⟩ := C23_exact l k
  have hgen : (Temp.call c.gen k).1 = Temp.after TempGen.new (l ++ [k]) := by
    rw [hg]
    generalize TempGen.new = g
    clear d1 d2 hg hn hb hh
    induction l generalizing g with
    | nil => rfl
    | cons x l ih => exact ih _
  rw [← hg] at d1 d2
  have hnames : ∀ d ∈ (Temp.call c.gen k).2, Key.Names d.1 := by
    intro d hd
    obtain ⟨q1, q2⟩ := (d2 (fold d.1) d.2).1 ⟨d.1, hd, rfl⟩
    apply Told.names_of_fold
    cases hv : d.2 with
    | none => rw [hv] at q2; exact Told.named_conf l _ q2
    | some v => exact Told.named_conf (l ++ [k]) _ (by rw [q1, hv]; simp)
  have hcalls : Told.callsOf b (Told.change c k).2 =
      ((Temp.call c.gen k).2.filter fun d => decide (Covers b.sect b.key (fold d.1))).map
        fun d => Told.says (IGen.temp k.order) (Told.change c k).1 b d.1 := by
    unfold Told.change
    simp only
    rw [Told.callsOf_flatMap, ← Told.flatMap_if]
    have : ∀ (ds : List TempGen.Delta), (∀ d ∈ ds, Key.Names d.1) →
        (ds.flatMap fun x => Told.callsOf b (ConfEmu.notify (IGen.temp k.order) { c with gen := (Temp.call c.gen k).1 } x.1)) =
        ds.flatMap fun x => if Covers b.sect b.key (fold x.1) then [Told.says (IGen.temp k.order) { c with gen := (Temp.call c.gen k).1 } b x.1] else [] := by
      intro ds
      induction ds with
      | nil => intro _; rfl
      | cons d ds ih =>
        intro h
        rw [List.flatMap_cons, List.flatMap_cons, ih (fun x hx => h x (by simp [hx])), Told.notify_one _ { c with gen := (Temp.call c.gen k).1 } hh hn b hb d.1 (h d (by simp))]
    exact this _ hnames
  have hat : ∀ d ∈ (Temp.call c.gen k).2, Told.at_ (Told.says (IGen.temp k.order) (Told.change c k).1 b d.1) = fold d.1 := by
    intro d hd
    unfold Told.at_ Told.says
    rw [Told.first_eq _ (hnames d hd), Told.rest_eq _ (hnames d hd), Told.text_eq _ (hnames d hd)]
  have hmap : (Told.callsOf b (Told.change c k).2).map Told.at_ =
      ((Temp.call c.gen k).2.filter fun d => decide (Covers b.sect b.key (fold d.1))).map fun d => fold d.1 := by
    rw [hcalls, List.map_map]
    apply List.map_congr_left
    intro d hd
    exact hat d (List.mem_filter.1 hd).1
  refine ⟨?_, ?_, ?_⟩
  · rw [hmap]
    exact d1.sublist (List.filter_sublist.map _)
  · intro q
    rw [hmap]
    constructor
    · intro hq
      obtain ⟨d, hd, rfl⟩ := List.mem_map.1 hq
      obtain ⟨e1, e2⟩ := List.mem_filter.1 hd
      obtain ⟨q1, q2⟩ := (d2 (fold d.1) d.2).1 ⟨d.1, e1, rfl⟩
      exact ⟨by simpa using e2, by rw [q1]; exact fun h => q2 h.symm⟩
    · rintro ⟨h1, h2⟩
      obtain ⟨x, hx, hf⟩ := (d2 q (Temp.conf (l ++ [k]) q)).2 ⟨rfl, fun h => h2 h.symm⟩
      exact List.mem_map.2 ⟨(x, _), List.mem_filter.2 ⟨hx, by rw [hf]; simpa using h1⟩, hf⟩
  · intro x hx
    rw [hcalls] at hx
    obtain ⟨d, hd, rfl⟩ := List.mem_map.1 hx
    have hd := (List.mem_filter.1 hd).1
    rw [hat d hd]
    have hr := temp_reads k.order (Told.change c k).1.gen (Temp.conf (l ++ [k])) (by
      show Temp.Holds (Temp.call c.gen k).1 _
      rw [hgen]; exact Temp.conf_holds (l ++ [k]))
    show ((IGen.temp k.order).get (Told.change c k).1.gen (ConfEmu.key2 _ _)).getD [] = _
    rw [Emu.key2_eq, hr.get, Told.first_eq _ (hnames d hd), Told.rest_eq _ (hnames d hd), Spec.Conf.get, Told.text_eq _ (hnames d hd),
      Told.dir_eq _ (hnames d hd)]
    have : (fold d.1).length = d.1.length := by unfold fold; simp
    rw [this]
    by_cases h1 : d.1.length = 1
    · simp [h1]
    · simp [h1]

namespace Told

/-- Many changes. -/
def changes (c : ConfEmu.Emu TempGen.Gen) : List Temp.SetCall → List Call
  | [] => []
  | k :: ks => (change c k).2 ++ changes (change c k).1 ks

/-- Asking to be told, and not to be told any more; each with a callback. -/
def ask {σ : Type} (c : ConfEmu.Emu σ) : Op × Nat → ConfEmu.Emu σ
  | (.add w, n) => ConfEmu.addCallback c ⟨n, w.sect, w.entry, w.cookie⟩
  | (.del w, _) => ConfEmu.delCallback c w.sect w.entry w.cookie

def who (b : Cb) : Who := ⟨b.cookie, b.sect, b.key⟩

theorem who_iff (x : Cb) (w : Who) : (x.cookie == w.cookie && x.sect == w.sect && x.key == w.entry) = true ↔ who x = w := by
  unfold who
  cases w
  simp [and_assoc]

end Told

/-- C82: a flag that is set by a callback (`add_setbool`) tells at any time whether something that it covers has changed since. -/
theorem C82_flag (ks : List Temp.SetCall) : ∀ (l : List Temp.SetCall) (c : ConfEmu.Emu TempGen.Gen), c.gen = Temp.after TempGen.new l →
    c.hold = false → (c.callbacks.map (·.cb)).Nodup → ∀ b ∈ c.callbacks,
    ((∃ x ∈ Told.changes c ks, x.cb = b.cb) ↔
      ∃ a k r q, ks = a ++ k :: r ∧ Covers b.sect b.key q ∧ Temp.conf (l ++ a ++ [k]) q ≠ Temp.conf (l ++ a) q) := by
  induction ks with
  | nil =>
    intro l c _ _ _ b _
    constructor
    · rintro ⟨x, hx, _⟩; cases hx
    · rintro ⟨a, k, r, q, h, _⟩; cases a <;> cases h
  | cons k ks ih =>
    intro l c hg hh hn b hb
    have h1 := (C82_calls_partial l k c hg hh hn b hb).2.1
    have hgen : (Told.change c k).1.gen = Temp.after TempGen.new (l ++ [k]) := by
      show (Temp.call c.gen k).1 = _
      rw [hg]
      generalize TempGen.new = g
      clear h1 hg hn hb hh ih
      induction l generalizing g with
      | nil => rfl
      | cons x l ih => exact ih _
    have h2 := ih (l ++ [k]) (Told.change c k).1 hgen hh hn b hb
    constructor
    · rintro ⟨x, hx, he⟩
      rcases List.mem_append.1 hx with hx | hx
      · obtain ⟨c1, c2⟩ := (h1 (Told.at_ x)).1 (List.mem_map_of_mem (List.mem_filter.2 ⟨hx, by simpa using he⟩))
        exact ⟨[], k, ks, _, rfl, c1, by simpa using c2⟩
      · obtain ⟨a, k', r, q, e, c1, c2⟩ := h2.1 ⟨x, hx, he⟩
        exact ⟨k :: a, k', r, q, by rw [e]; rfl, c1, by simpa using c2⟩
    · rintro ⟨a, k', r, q, e, c1, c2⟩
      cases a with
      | nil =>
        obtain ⟨rfl, rfl⟩ := List.cons.inj e
        obtain ⟨x, hx, hq⟩ := List.mem_map.1 ((h1 q).2 ⟨c1, by simpa using c2⟩)
        obtain ⟨x1, x2⟩ := List.mem_filter.1 hx
        exact ⟨x, List.mem_append.2 (Or.inl x1), by simpa using x2⟩
      | cons y a =>
        obtain ⟨rfl, rfl⟩ := List.cons.inj e
        obtain ⟨x, hx, he⟩ := h2.2 ⟨a, k', r, q, rfl, c1, by simpa using c2⟩
        exact ⟨x, List.mem_append.2 (Or.inr hx), he⟩

/-- C82: after any history of asking, who is told are those who asked and did not call it off since, each once. -/
theorem C82_asked {σ : Type} (c : ConfEmu.Emu σ) (h0 : c.callbacks = []) (l : List (Op × Nat)) :
    ((l.foldl Told.ask c).callbacks.map Told.who).Nodup ∧
    ∀ w, w ∈ (l.foldl Told.ask c).callbacks.map Told.who ↔ Live (l.map Prod.fst) w := by
  have gen : ∀ (l done : List (Op × Nat)) (c : ConfEmu.Emu σ), (c.callbacks.map Told.who).Nodup →
      (∀ w, w ∈ c.callbacks.map Told.who ↔ Live (done.map Prod.fst) w) →
      ((l.foldl Told.ask c).callbacks.map Told.who).Nodup ∧
      ∀ w, w ∈ (l.foldl Told.ask c).callbacks.map Told.who ↔ Live ((done ++ l).map Prod.fst) w := by
    intro l
    induction l with
    | nil => intro done c h1 h2; rw [List.append_nil]; exact ⟨h1, h2⟩
    | cons o l ih =>
      intro done c h1 h2
      have step : ((Told.ask c o).callbacks.map Told.who).Nodup ∧
          ∀ w, w ∈ (Told.ask c o).callbacks.map Told.who ↔ Live ((done ++ [o]).map Prod.fst) w := by
        obtain ⟨o, n⟩ := o
        have hmap : (done ++ [(o, n)]).map Prod.fst = done.map Prod.fst ++ [o] := by simp
        rw [hmap]
        generalize done.map Prod.fst = D at h2
        have live_snoc : ∀ w, Live (D ++ [o]) w ↔ o = .add w ∨ (Live D w ∧ o ≠ .del w) := by
          intro w
          constructor
          · rintro ⟨a, b, e, hb⟩
            rcases List.eq_nil_or_concat b with rfl | ⟨b', y, rfl⟩
            · have := List.append_inj_right' e rfl
              exact Or.inl (List.cons.inj this).1
            · rw [show a ++ Op.add w :: (b'.concat y) = (a ++ Op.add w :: b') ++ [y] by simp] at e
              have e1 := List.append_inj_left' e rfl
              have e2 := (List.cons.inj (List.append_inj_right' e rfl)).1
              refine Or.inr ⟨⟨a, b', e1, fun h => hb (by simp [h])⟩, ?_⟩
              rw [e2]
              rintro rfl
              exact hb (by simp)
          · rintro (rfl | ⟨⟨a, b, e, hb⟩, ho⟩)
            · exact ⟨D, [], rfl, by simp⟩
            · refine ⟨a, b ++ [o], by rw [e]; simp, ?_⟩
              simp only [List.mem_append, List.mem_singleton, not_or]
              exact ⟨hb, fun h => ho h.symm⟩
        cases o with
        | add w0 =>
          unfold Told.ask ConfEmu.addCallback
          simp only
          have hany : (c.callbacks.any fun x => x.cookie == w0.cookie && x.sect == w0.sect && x.key == w0.entry) = true ↔
              w0 ∈ c.callbacks.map Told.who := by
            rw [List.any_eq_true]
            constructor
            · rintro ⟨x, hx, h⟩
              exact List.mem_map.2 ⟨x, hx, (Told.who_iff x w0).1 h⟩
            · intro h
              obtain ⟨x, hx, h⟩ := List.mem_map.1 h
              exact ⟨x, hx, (Told.who_iff x w0).2 h⟩
          by_cases hm : w0 ∈ c.callbacks.map Told.who
          · rw [if_pos (hany.2 hm)]
            refine ⟨h1, fun w => ?_⟩
            rw [live_snoc, h2 w]
            constructor
            · intro h; exact Or.inr ⟨h, by simp⟩
            · rintro (h | h)
              · cases h; exact (h2 w0).1 hm
              · exact h.1
          · rw [if_neg (fun h => hm (hany.1 h))]
            have hw : Told.who ⟨n, w0.sect, w0.entry, w0.cookie⟩ = w0 := rfl
            simp only [List.map_append, List.map_cons, List.map_nil, hw]
            refine ⟨?_, fun w => ?_⟩
            · rw [List.nodup_append]
              exact ⟨h1, by simp, by rintro a ha b hb rfl; rw [List.mem_singleton] at hb; exact hm (hb ▸ ha)⟩
            · rw [live_snoc, List.mem_append, h2 w, List.mem_singleton]
              constructor
              · rintro (h | rfl)
                · exact Or.inr ⟨h, by simp⟩
                · exact Or.inl rfl
              · rintro (h | h)
                · cases h; exact Or.inr rfl
                · exact Or.inl h.1
        | del w0 =>
          unfold Told.ask ConfEmu.delCallback
          simp only
          refine ⟨h1.sublist (List.filter_sublist.map _), fun w => ?_⟩
          rw [live_snoc, ← h2 w]
          constructor
          · intro h
            obtain ⟨x, hx, rfl⟩ := List.mem_map.1 h
            obtain ⟨x1, x2⟩ := List.mem_filter.1 hx
            refine Or.inr ⟨List.mem_map_of_mem x1, ?_⟩
            intro e
            have e : w0 = Told.who x := by cases e; rfl
            rw [Bool.not_eq_true', ← Bool.not_eq_true, Told.who_iff] at x2
            exact x2 e.symm
          · rintro (h | ⟨h, hne⟩)
            · cases h
            · obtain ⟨x, hx, rfl⟩ := List.mem_map.1 h
              refine List.mem_map_of_mem (List.mem_filter.2 ⟨hx, ?_⟩)
              rw [Bool.not_eq_true', ← Bool.not_eq_true, Told.who_iff]
              intro e
              exact hne (by rw [e])
      have := ih (done ++ [o]) (Told.ask c o) step.1 step.2
      rw [List.append_assoc] at this
      exact this
  have := gen l [] c (by rw [h0]; exact List.nodup_nil) (by
    intro w
    rw [h0]
    constructor
    · intro h; cases h
    · rintro ⟨a, b, e, _⟩; cases a <;> cases e)
  exact this

/-- C82: while `load_file` reads a file in, nobody is called, whatever changes; the change itself is made. -/
theorem C82_hold (c : ConfEmu.Emu TempGen.Gen) (k : Temp.SetCall) (h : c.hold = true) : (Told.change c k).2 = [] ∧ (Told.change c k).1.gen = (Temp.call c.gen k).1 := by
  refine ⟨?_, rfl⟩
  unfold Told.change
  simp only [List.flatMap_eq_nil_iff]
  intro d _
  unfold ConfEmu.notify
  simp only [h, if_true]

/-- C82: a callback that is added when nobody asked for the same is called; and last. -/
theorem C82_added {σ : Type} (c : ConfEmu.Emu σ) (b : Cb) (h : Told.who b ∉ c.callbacks.map Told.who) :
    (ConfEmu.addCallback c b).callbacks = c.callbacks ++ [b] := by
  unfold ConfEmu.addCallback
  rw [if_neg]
  rw [List.any_eq_true]
  rintro ⟨x, hx, hw⟩
  exact h (List.mem_map.2 ⟨x, hx, (Told.who_iff x (Told.who b)).1 hw⟩)

namespace Told

/-- One that wants to know of the section t, one of the entry a in any section, one of everything. -/
def watched : ConfEmu.Emu TempGen.Gen :=
  ConfEmu.addCallback (ConfEmu.addCallback (ConfEmu.addCallback Emu.start ⟨0, some (str ['T']), none, 1⟩) ⟨1, some [], some (str ['A']), 1⟩) ⟨2, none, none, 1⟩

def sets (k v : Text) : Temp.SetCall := ⟨k, some v, id, fun _ => List.Perm.refl _⟩

end Told

/-- The hypotheses of C82_calls_partial are met. -/
example := C82_calls_partial Emu.sample (Told.sets (str ['u', '/', 'a']) (str ['9'])) Told.watched rfl rfl (by decide +kernel)
  ⟨1, some [], some (str ['A']), 1⟩ (by decide +kernel)

/-- And what is called. -/
example : (Told.change Told.watched (Told.sets (str ['u', '/', 'a']) (str ['9']))).2 =
    [⟨1, str ['u'], str ['a'], str ['9']⟩, ⟨2, str ['u'], str ['a'], str ['9']⟩] := by decide +kernel

example := C82_hold { Told.watched with hold := true } (Told.sets (str ['u', '/', 'a']) (str ['9'])) rfl

example := C82_flag [Told.sets (str ['u', '/', 'a']) (str ['9']), Told.sets (str ['t', '/', 'z']) (str ['9'])] Emu.sample Told.watched rfl rfl
  (by decide +kernel) ⟨0, some (str ['T']), none, 1⟩ (by decide +kernel)

example := C82_asked Emu.fresh rfl [(.add ⟨1, none, none⟩, 0), (.add ⟨2, some (str ['s']), none⟩, 1), (.del ⟨1, none, none⟩, 0)]

/-- C82: the value of a section itself is not told: its change is, with an empty value. -/
theorem C82_value_fails : ∃ s v, v ≠ [] ∧ Temp.conf (Emu.sample ++ [Told.sets s v]) (place s) = some v ∧
    (Told.change Told.watched (Told.sets s v)).2 = [⟨2, s, [], []⟩] :=
  ⟨str ['u'], str ['5'], by decide +kernel, by decide +kernel, by decide +kernel⟩

/-- C82: another callback with the same cookie, section and entry is not called. -/
theorem C82_added_fails : ∃ (b b' : Cb), b.cb ≠ b'.cb ∧
    (ConfEmu.addCallback (ConfEmu.addCallback Emu.fresh b) b').callbacks = [b] :=
  ⟨⟨0, none, none, 1⟩, ⟨1, none, none, 1⟩, by decide, by decide +kernel⟩

/-- C82: sections are told apart without regard to case when something changes, but not when it is called off. -/
theorem C82_del_fails : ∃ (s s' : Text), s.map Spec.Path.lower = s'.map Spec.Path.lower ∧
    (ConfEmu.delCallback (ConfEmu.addCallback Emu.fresh ⟨0, some s, none, 1⟩) (some s') none 1).callbacks = [⟨0, some s, none, 1⟩] :=
  ⟨str ['s'], str ['S'], by decide +kernel, by decide +kernel⟩

/-- C82: an entry that is written as another text for the same path is never told of. -/
theorem C82_entry_fails : ∃ (e e' : Text), Key.parse e = Key.parse e' ∧
    (Told.change (ConfEmu.addCallback Emu.fresh ⟨0, none, some e, 1⟩) (Told.sets (ch 's' :: Spec.Path.slash :: e) (str ['1']))).2 ≠ [] ∧
    (Told.change (ConfEmu.addCallback Emu.fresh ⟨0, none, some e', 1⟩) (Told.sets (ch 's' :: Spec.Path.slash :: e) (str ['1']))).2 = [] :=
  ⟨str ['a'], str ['/', 'a'], by decide +kernel, by decide +kernel, by decide +kernel⟩

end Props
