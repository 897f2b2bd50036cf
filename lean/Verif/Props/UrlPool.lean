import Verif.Model.UrlPool
/-!
C109: the pool of connections for URLs (Model/UrlPool).
-/
namespace Props
open Wv Wv.UrlPool Spec.UrlPool

namespace UpP

/-- What holds at all times; requests in `D` may have been ended by the stream that still has them. -/
structure Inv (D : List Nat) (w : Pool) : Prop where
  ids : (w.reqs.map (·.id)).Nodup
  lt : ∀ r ∈ w.reqs, r.id < w.count
  sids : (w.conns.map (·.sid)).Nodup
  slt : ∀ c ∈ w.conns, c.sid < w.next
  tg : (w.conns.map (·.target)).Nodup
  hd : ∀ c ∈ w.conns, c.held.Nodup
  own : ∀ c ∈ w.conns, ∀ i ∈ c.held, ∃ r ∈ w.reqs, r.id = i ∧ r.stream = some c.sid ∧ (c.open_ = true → i ∉ D → r.ended = false)
  str : ∀ r ∈ w.reqs, ∀ s, r.stream = some s → r.addr.isSome = true ∧ r.url.port ≠ 0 ∧
    ∃ c ∈ w.conns, c.sid = s ∧ (r.ended = false → r.id ∈ c.held)
  eof : ∀ r ∈ w.reqs, r.ended = true ↔ r.id ∈ w.eofs
  eofn : w.eofs.Nodup
  eoflt : ∀ i ∈ w.eofs, i < w.count
  all : ∀ i < w.count, i ∈ w.eofs ∨ ∃ r ∈ w.reqs, r.id = i

theorem nodup_inj {α β : Type} {f : α → β} {l : List α} (h : (l.map f).Nodup) {a b : α} (ha : a ∈ l) (hb : b ∈ l) (e : f a = f b) : a = b := by
  induction l with
  | nil => cases ha
  | cons x l ih =>
    simp only [List.map_cons, List.nodup_cons, List.mem_map] at h
    rcases List.mem_cons.1 ha with rfl | ha'
    · rcases List.mem_cons.1 hb with rfl | hb'
      · rfl
      · exact absurd ⟨b, hb', e.symm⟩ h.1
    · rcases List.mem_cons.1 hb with rfl | hb'
      · exact absurd ⟨a, ha', e⟩ h.1
      · exact ih h.2 ha' hb'

theorem map_id {l : List Req} {f : Req → Req} (h : ∀ r, (f r).id = r.id) : (l.map f).map (·.id) = l.map (·.id) := by
  rw [List.map_map]; exact List.map_congr_left fun r _ => h r

theorem Inv.weak {D E : List Nat} {w : Pool} (h : Inv D w) (hs : ∀ i ∈ D, i ∈ E) : Inv E w := by
  refine { ids := h.ids, lt := h.lt, sids := h.sids, slt := h.slt, tg := h.tg, hd := h.hd, own := ?_, str := h.str, eof := h.eof, eofn := h.eofn, eoflt := h.eoflt, all := h.all }
  intro c hc i hi
  obtain ⟨r, h1, h2, h3, h4⟩ := h.own c hc i hi
  exact ⟨r, h1, h2, h3, fun a b => h4 a fun q => b (hs _ q)⟩

/-- A change of the requests that keeps what matters. -/
theorem Inv.mapReq {D : List Nat} {w : Pool} (h : Inv D w) (f : Req → Req) (hf : ∀ r ∈ w.reqs, (f r).id = r.id ∧ (f r).url = r.url ∧ (f r).stream = r.stream ∧
    (f r).ended = r.ended ∧ (r.addr.isSome = true → (f r).addr.isSome = true)) : Inv D { w with reqs := w.reqs.map f } := by
  have hm : (w.reqs.map f).map (·.id) = w.reqs.map (·.id) := by
    rw [List.map_map]; exact List.map_congr_left fun r hr => (hf r hr).1
  refine { ids := by dsimp only; rw [hm]; exact h.ids, sids := h.sids, slt := h.slt, tg := h.tg, hd := h.hd, eofn := h.eofn, eoflt := h.eoflt, lt := ?_, own := ?_, str := ?_,
           eof := ?_, all := ?_ }
  · intro r hr
    obtain ⟨q, hq, rfl⟩ := List.mem_map.1 hr
    rw [(hf q hq).1]; exact h.lt q hq
  · intro c hc i hi
    obtain ⟨r, h1, h2, h3, h4⟩ := h.own c hc i hi
    obtain ⟨e1, _, e3, e4, _⟩ := hf r h1
    exact ⟨f r, List.mem_map_of_mem h1, by rw [e1, h2], by rw [e3, h3], by rw [e4]; exact h4⟩
  · intro r hr s hs
    obtain ⟨q, hq, rfl⟩ := List.mem_map.1 hr
    obtain ⟨e1, e2, e3, e4, e5⟩ := hf q hq
    rw [e3] at hs
    obtain ⟨k1, k2, c, k3, k4, k5⟩ := h.str q hq s hs
    exact ⟨e5 k1, by rw [e2]; exact k2, c, k3, k4, by rw [e4, e1]; exact k5⟩
  · intro r hr
    obtain ⟨q, hq, rfl⟩ := List.mem_map.1 hr
    obtain ⟨e1, _, _, e4, _⟩ := hf q hq
    rw [e4, e1]; exact h.eof q hq
  · intro i hi
    rcases h.all i hi with q | ⟨r, hr, rfl⟩
    · exact Or.inl q
    · exact Or.inr ⟨f r, List.mem_map_of_mem hr, (hf r hr).1⟩

theorem done_reqs (w : Pool) (l : List Nat) (r : Req) : r ∈ (w.done l).reqs ↔
    ∃ q ∈ w.reqs, r = if q.id ∈ l then { q with ended := true } else q := by
  simp only [Pool.done, List.mem_map]
  constructor
  · rintro ⟨q, h1, h2⟩; exact ⟨q, h1, h2.symm⟩
  · rintro ⟨q, h1, h2⟩; exact ⟨q, h1, h2.symm⟩

theorem fin_id (l : List Nat) (q : Req) : (if q.id ∈ l then { q with ended := true } else q).id = q.id ∧
    (if q.id ∈ l then { q with ended := true } else q).url = q.url ∧ (if q.id ∈ l then { q with ended := true } else q).stream = q.stream ∧
    (if q.id ∈ l then { q with ended := true } else q).addr = q.addr ∧
    (if q.id ∈ l then { q with ended := true } else q).resolving = q.resolving ∧
    ((if q.id ∈ l then { q with ended := true } else q).ended = (q.ended || decide (q.id ∈ l))) := by
  by_cases h : q.id ∈ l <;> simp [h]

theorem done_inv {D : List Nat} {w : Pool} (h : Inv D w) (l : List Nat) (hl : ∀ i ∈ l, i ∈ D) : Inv D (w.done l) := by
  have hm : (w.done l).reqs.map (·.id) = w.reqs.map (·.id) := by
    unfold Pool.done
    exact map_id fun r => (fin_id l r).1
  have he : ∀ i, i ∈ (w.done l).eofs ↔ i ∈ w.eofs ∨ (i ∈ l ∧ ∃ r ∈ w.reqs, r.id = i ∧ r.ended = false) := by
    intro i
    simp only [Pool.done, List.mem_append, List.mem_map, List.mem_filter, Bool.and_eq_true, decide_eq_true_eq, Bool.not_eq_true']
    constructor
    · rintro (q | ⟨r, ⟨h1, h2, h3⟩, rfl⟩)
      · exact Or.inl q
      · exact Or.inr ⟨h2, r, h1, rfl, h3⟩
    · rintro (q | ⟨h2, r, h1, rfl, h3⟩)
      · exact Or.inl q
      · exact Or.inr ⟨r, ⟨h1, h2, h3⟩, rfl⟩
  refine { ids := by rw [hm]; exact h.ids, sids := h.sids, slt := h.slt, tg := h.tg, hd := h.hd, lt := ?_, own := ?_, str := ?_, eof := ?_, eofn := ?_, eoflt := ?_, all := ?_ }
  · intro r hr
    obtain ⟨q, hq, rfl⟩ := (done_reqs w l r).1 hr
    rw [(fin_id l q).1]; exact h.lt q hq
  · intro c hc i hi
    obtain ⟨r, h1, h2, h3, h4⟩ := h.own c hc i hi
    obtain ⟨e1, e2, e3, e4, e5, e6⟩ := fin_id l r
    refine ⟨_, (done_reqs w l _).2 ⟨r, h1, rfl⟩, by rw [e1, h2], by rw [e3, h3], fun a b => ?_⟩
    rw [e6, h4 a b]
    have : r.id ∉ l := fun q => b (by rw [← h2]; exact hl _ q)
    simp [this]
  · intro r hr s hs
    obtain ⟨q, hq, rfl⟩ := (done_reqs w l r).1 hr
    obtain ⟨e1, e2, e3, e4, e5, e6⟩ := fin_id l q
    rw [e3] at hs
    obtain ⟨k1, k2, c, k3, k4, k5⟩ := h.str q hq s hs
    refine ⟨by rw [e4]; exact k1, by rw [e2]; exact k2, c, k3, k4, fun a => ?_⟩
    rw [e6] at a
    rw [e1]
    exact k5 (by simp at a; exact a.1)
  · intro r hr
    obtain ⟨q, hq, rfl⟩ := (done_reqs w l r).1 hr
    obtain ⟨e1, e2, e3, e4, e5, e6⟩ := fin_id l q
    rw [e1, e6, he, ← h.eof q hq]
    constructor
    · intro a
      cases hx : q.ended with
      | true => exact Or.inl rfl
      | false => rw [hx] at a; simp at a; exact Or.inr ⟨a, q, hq, rfl, hx⟩
    · rintro (a | ⟨a, _⟩)
      · simp [a]
      · simp [a]
  · unfold Pool.done
    dsimp only
    rw [List.nodup_append]
    refine ⟨h.eofn, ?_, ?_⟩
    · exact List.Nodup.sublist ((List.filter_sublist).map _) h.ids
    · intro a ha b hb e
      subst e
      obtain ⟨r, hr, rfl⟩ := List.mem_map.1 hb
      simp only [List.mem_filter, Bool.and_eq_true, Bool.not_eq_true'] at hr
      have := (h.eof r hr.1).2 ha
      rw [hr.2.2] at this
      cases this
  · intro i hi
    rcases (he i).1 hi with q | ⟨_, r, hr, rfl, _⟩
    · exact h.eoflt i q
    · exact h.lt r hr
  · intro i hi
    rcases h.all i hi with q | ⟨r, hr, rfl⟩
    · exact Or.inl ((he i).2 (Or.inl q))
    · exact Or.inr ⟨_, (done_reqs w l _).2 ⟨r, hr, rfl⟩, (fin_id l r).1⟩

theorem held_of {w : Pool} {s i : Nat} : i ∈ w.held s ↔ ∃ c ∈ w.conns, c.sid = s ∧ i ∈ c.held := by
  simp only [Pool.held, List.mem_flatMap, List.mem_filter, beq_iff_eq]
  constructor
  · rintro ⟨c, ⟨h1, h2⟩, h3⟩; exact ⟨c, h1, h2, h3⟩
  · rintro ⟨c, h1, h2, h3⟩; exact ⟨c, ⟨h1, h2⟩, h3⟩

/-- The stream that has a request. -/
theorem holder {D : List Nat} {w : Pool} (h : Inv D w) {c d : Conn} (hc : c ∈ w.conns) (hd : d ∈ w.conns) {i : Nat} (h1 : i ∈ c.held) (h2 : i ∈ d.held) :
    c.sid = d.sid := by
  obtain ⟨r, a1, a2, a3, _⟩ := h.own c hc i h1
  obtain ⟨q, b1, b2, b3, _⟩ := h.own d hd i h2
  have := nodup_inj h.ids a1 b1 (by rw [a2, b2])
  subst this
  rw [a3] at b3
  exact Option.some.inj b3

theorem die_inv {w : Pool} (h : Inv [] w) (s : Nat) (l : List Nat) : Inv [] (w.die s l) := by
  have h0 := done_inv (h.weak (E := w.held s) (by simp)) (l.filter (· ∈ w.held s)) (by intro i hi; simpa using (List.mem_filter.1 hi).2)
  unfold Pool.die
  dsimp only
  obtain ⟨v, hv⟩ : ∃ v, v = w.done (l.filter (· ∈ w.held s)) := ⟨_, rfl⟩
  rw [← hv] at h0 ⊢
  have hc0 : v.conns = w.conns := by rw [hv]; rfl
  obtain ⟨g, hg⟩ : ∃ g : Conn → Conn, g = fun c => if c.sid = s then { c with open_ := false } else c := ⟨_, rfl⟩
  rw [← hg]
  have e : ∀ c, (g c).sid = c.sid ∧ (g c).target = c.target ∧ (g c).held = c.held ∧ ((g c).open_ = true → c.open_ = true ∧ c.sid ≠ s) := by
    intro c
    rw [hg]
    dsimp only
    split
    · simp
    · rename_i hx; exact ⟨rfl, rfl, rfl, fun a => ⟨a, hx⟩⟩
  have m1 : (v.conns.map g).map (·.sid) = v.conns.map (·.sid) := by rw [List.map_map]; exact List.map_congr_left fun c _ => (e c).1
  have m2 : (v.conns.map g).map (·.target) = v.conns.map (·.target) := by rw [List.map_map]; exact List.map_congr_left fun c _ => (e c).2.1
  refine { ids := h0.ids, lt := h0.lt, sids := by dsimp only; rw [m1]; exact h0.sids, tg := by dsimp only; rw [m2]; exact h0.tg, eof := h0.eof, eofn := h0.eofn, eoflt := h0.eoflt,
           all := h0.all, slt := ?_, hd := ?_, own := ?_, str := ?_ }
  · intro c hc
    obtain ⟨d, hd, rfl⟩ := List.mem_map.1 hc
    rw [(e d).1]; exact h0.slt d hd
  · intro c hc
    obtain ⟨d, hd, rfl⟩ := List.mem_map.1 hc
    rw [(e d).2.2.1]; exact h0.hd d hd
  · intro c hc i hi
    obtain ⟨d, hd, rfl⟩ := List.mem_map.1 hc
    rw [(e d).2.2.1] at hi
    obtain ⟨r, h1, h2, h3, h4⟩ := h0.own d hd i hi
    refine ⟨r, h1, h2, by rw [(e d).1]; exact h3, fun a _ => ?_⟩
    obtain ⟨a1, a2⟩ := (e d).2.2.2 a
    refine h4 a1 fun q => ?_
    obtain ⟨d', k1, k2, k3⟩ := held_of.1 q
    exact a2 (by rw [← k2]; exact holder h0 hd (by rw [hc0]; exact k1) hi k3)
  · intro r hr t ht
    obtain ⟨k1, k2, c, k3, k4, k5⟩ := h0.str r hr t ht
    exact ⟨k1, k2, g c, List.mem_map_of_mem k3, by rw [(e c).1]; exact k4, by rw [(e c).2.2.1]; exact k5⟩

theorem unconnect_eq (w : Pool) (s : Nat) (l : List Nat) : w.unconnect s l =
    { w.done (l.filter (· ∈ w.held s)) with
      reqs := (w.done (l.filter (· ∈ w.held s))).reqs.map fun r => if r.stream = some s then { r with stream := none } else r
      conns := (w.done (l.filter (· ∈ w.held s))).conns.filter (·.sid != s) } := by
  unfold Pool.unconnect Pool.done
  dsimp only
  congr 1
  · rw [List.map_map, List.map_map]
    refine List.map_congr_left fun r _ => ?_
    dsimp only [Function.comp]
    by_cases h1 : r.stream = some s <;> by_cases h2 : r.id ∈ l.filter (· ∈ w.held s) <;> simp [h1, h2]
  · congr 1
    rw [List.filter_map, List.map_map]
    have : ((fun r : Req => decide (r.id ∈ l.filter (· ∈ w.held s)) && !r.ended) ∘ fun r : Req => if r.stream = some s then { r with stream := none } else r) =
        fun r : Req => decide (r.id ∈ l.filter (· ∈ w.held s)) && !r.ended := by
      funext r
      dsimp only [Function.comp]
      by_cases h1 : r.stream = some s <;> simp [h1]
    rw [this]
    refine List.map_congr_left fun r _ => ?_
    dsimp only [Function.comp]
    by_cases h1 : r.stream = some s <;> simp [h1]

theorem unconnect_inv {w : Pool} (h : Inv [] w) (s : Nat) (l : List Nat) : Inv [] (w.unconnect s l) := by
  have h0 := done_inv (h.weak (E := w.held s) (by simp)) (l.filter (· ∈ w.held s)) (by intro i hi; simpa using (List.mem_filter.1 hi).2)
  rw [unconnect_eq]
  obtain ⟨v, hv⟩ : ∃ v, v = w.done (l.filter (· ∈ w.held s)) := ⟨_, rfl⟩
  rw [← hv] at h0 ⊢
  have hc0 : v.conns = w.conns := by rw [hv]; rfl
  obtain ⟨g, hg⟩ : ∃ g : Req → Req, g = fun r => if r.stream = some s then { r with stream := none } else r := ⟨_, rfl⟩
  rw [← hg]
  have e : ∀ r, (g r).id = r.id ∧ (g r).url = r.url ∧ (g r).addr = r.addr ∧ (g r).ended = r.ended ∧ (r.stream ≠ some s → (g r).stream = r.stream) ∧
      (∀ t, (g r).stream = some t → r.stream = some t ∧ t ≠ s) := by
    intro r
    rw [hg]
    dsimp only
    split
    · rename_i hx; simp [hx]
    · rename_i hx
      refine ⟨rfl, rfl, rfl, rfl, fun _ => rfl, fun t ht => ⟨ht, ?_⟩⟩
      rintro rfl
      exact hx ht
  refine { ids := by dsimp only; rw [map_id fun r => (e r).1]; exact h0.ids, lt := ?_, sids := List.Nodup.sublist ((List.filter_sublist).map _) h0.sids,
           tg := List.Nodup.sublist ((List.filter_sublist).map _) h0.tg, eof := ?_, eofn := h0.eofn, eoflt := h0.eoflt, all := ?_, slt := ?_, hd := ?_, own := ?_, str := ?_ }
  · intro r hr
    obtain ⟨q, hq, rfl⟩ := List.mem_map.1 hr
    rw [(e q).1]; exact h0.lt q hq
  · intro c hc; exact h0.slt c (List.mem_filter.1 hc).1
  · intro c hc; exact h0.hd c (List.mem_filter.1 hc).1
  · intro c hc i hi
    obtain ⟨hc1, hc2⟩ := List.mem_filter.1 hc
    have hc2 : c.sid ≠ s := by simpa using hc2
    obtain ⟨r, h1, h2, h3, h4⟩ := h0.own c hc1 i hi
    have hne : r.stream ≠ some s := by rw [h3]; simpa using hc2
    refine ⟨g r, List.mem_map_of_mem h1, by rw [(e r).1]; exact h2, by rw [(e r).2.2.2.2.1 hne]; exact h3, fun a _ => ?_⟩
    rw [(e r).2.2.2.1]
    refine h4 a fun q => ?_
    obtain ⟨d', k1, k2, k3⟩ := held_of.1 q
    exact hc2 (by rw [← k2]; exact holder h0 hc1 (by rw [hc0]; exact k1) hi k3)
  · intro r hr t ht
    obtain ⟨q, hq, rfl⟩ := List.mem_map.1 hr
    obtain ⟨a1, a2⟩ := (e q).2.2.2.2.2 t ht
    obtain ⟨k1, k2, c, k3, k4, k5⟩ := h0.str q hq t a1
    refine ⟨by rw [(e q).2.2.1]; exact k1, by rw [(e q).2.1]; exact k2, c, List.mem_filter.2 ⟨k3, by simp [k4, a2]⟩, k4, by rw [(e q).2.2.2.1, (e q).1]; exact k5⟩
  · intro r hr
    obtain ⟨q, hq, rfl⟩ := List.mem_map.1 hr
    rw [(e q).1, (e q).2.2.2.1]; exact h0.eof q hq
  · intro i hi
    rcases h0.all i hi with q | ⟨r, hr, rfl⟩
    · exact Or.inl q
    · exact Or.inr ⟨g r, List.mem_map_of_mem hr, (e r).1⟩

theorem finish_inv {w : Pool} (h : Inv [] w) (s i : Nat) : Inv [] (w.finish s i) := by
  unfold Pool.finish
  split
  · rename_i hx
    simp only [List.any_eq_true, Bool.and_eq_true, beq_iff_eq, decide_eq_true_eq] at hx
    obtain ⟨c0, hc0, ⟨hs0, ho0⟩, hi0⟩ := hx
    have h0 := done_inv (h.weak (E := [i]) (by simp)) [i] (by simp)
    dsimp only
    obtain ⟨v, hv⟩ : ∃ v, v = w.done [i] := ⟨_, rfl⟩
    rw [← hv] at h0 ⊢
    have hcv : v.conns = w.conns := by rw [hv]; rfl
    have hiv : ∀ r ∈ v.reqs, r.id = i → r.ended = true := by
      intro r hr hri
      rw [hv] at hr
      obtain ⟨q, hq, rfl⟩ := (done_reqs w [i] r).1 hr
      obtain ⟨e1, _, _, _, _, e6⟩ := fin_id [i] q
      rw [e1] at hri
      rw [e6, hri]
      simp
    obtain ⟨g, hg⟩ : ∃ g : Conn → Conn, g = fun c => if c.sid = s then { c with held := c.held.filter (· != i) } else c := ⟨_, rfl⟩
    rw [← hg]
    have e : ∀ c, (g c).sid = c.sid ∧ (g c).target = c.target ∧ (g c).open_ = c.open_ ∧ (∀ j, j ∈ (g c).held → j ∈ c.held ∧ (c.sid = s → j ≠ i)) ∧
        (∀ j, j ∈ c.held → j ≠ i → j ∈ (g c).held) ∧ (c.held.Nodup → (g c).held.Nodup) := by
      intro c
      rw [hg]
      dsimp only
      split
      · rename_i hx
        refine ⟨rfl, rfl, rfl, fun j hj => ?_, fun j h1 h2 => ?_, fun hn => ?_⟩
        · obtain ⟨a, b⟩ := List.mem_filter.1 hj
          exact ⟨a, fun _ => by simpa using b⟩
        · exact List.mem_filter.2 ⟨h1, by simpa using h2⟩
        · exact hn.filter _
      · rename_i hx
        exact ⟨rfl, rfl, rfl, fun j hj => ⟨hj, fun q => absurd q hx⟩, fun j h1 _ => h1, fun hn => hn⟩
    have m1 : (v.conns.map g).map (·.sid) = v.conns.map (·.sid) := by rw [List.map_map]; exact List.map_congr_left fun c _ => (e c).1
    have m2 : (v.conns.map g).map (·.target) = v.conns.map (·.target) := by rw [List.map_map]; exact List.map_congr_left fun c _ => (e c).2.1
    refine { ids := h0.ids, lt := h0.lt, sids := by dsimp only; rw [m1]; exact h0.sids, tg := by dsimp only; rw [m2]; exact h0.tg, eof := h0.eof, eofn := h0.eofn, eoflt := h0.eoflt,
             all := h0.all, slt := ?_, hd := ?_, own := ?_, str := ?_ }
    · intro c hc
      obtain ⟨d, hd, rfl⟩ := List.mem_map.1 hc
      rw [(e d).1]; exact h0.slt d hd
    · intro c hc
      obtain ⟨d, hd, rfl⟩ := List.mem_map.1 hc
      exact (e d).2.2.2.2.2 (h0.hd d hd)
    · intro c hc j hj
      obtain ⟨d, hd, rfl⟩ := List.mem_map.1 hc
      obtain ⟨j1, j2⟩ := (e d).2.2.2.1 j hj
      obtain ⟨r, h1, h2, h3, h4⟩ := h0.own d hd j j1
      refine ⟨r, h1, h2, by rw [(e d).1]; exact h3, fun a _ => ?_⟩
      rw [(e d).2.2.1] at a
      refine h4 a fun q => ?_
      have hji : j = i := by simpa using q
      refine j2 ?_ hji
      rw [← hs0]
      subst hji
      exact holder h0 hd (by rw [hcv]; exact hc0) j1 hi0
    · intro r hr t ht
      obtain ⟨k1, k2, c, k3, k4, k5⟩ := h0.str r hr t ht
      refine ⟨k1, k2, g c, List.mem_map_of_mem k3, by rw [(e c).1]; exact k4, fun a => ?_⟩
      refine (e c).2.2.2.2.1 _ (k5 a) fun q => ?_
      rw [hiv r hr q] at a
      cases a
  · exact h

theorem resolve_same (r : Req) (a : Ans) : (r.resolve a).1.id = r.id ∧ (r.resolve a).1.url = r.url ∧ (r.resolve a).1.stream = r.stream ∧
    (r.resolve a).1.ended = r.ended ∧ (r.addr.isSome = true → (r.resolve a).1.addr.isSome = true) := by
  cases a <;> simp [Req.resolve]

theorem add_inv {w : Pool} (h : Inv [] w) (u : Url) (a : Ans) : Inv [] (w.addurl u a) := by
  obtain ⟨q, hq⟩ : ∃ q, q = (({ id := w.count, url := u } : Req).resolve a).1 := ⟨_, rfl⟩
  obtain ⟨e1, e2, e3, e4, _⟩ := resolve_same { id := w.count, url := u } a
  rw [← hq] at e1 e2 e3 e4
  unfold Pool.addurl
  rw [← hq]
  have hne : w.count ∉ w.eofs := fun x => Nat.lt_irrefl _ (h.eoflt _ x)
  refine { ids := ?_, lt := ?_, sids := h.sids, slt := h.slt, tg := h.tg, hd := h.hd, own := ?_, str := ?_, eof := ?_, eofn := h.eofn, eoflt := ?_, all := ?_ }
  · dsimp only
    rw [List.map_append, List.map_cons, List.map_nil, e1, List.nodup_append]
    refine ⟨h.ids, by simp, ?_⟩
    intro x hx y hy e
    obtain ⟨r, hr, rfl⟩ := List.mem_map.1 hx
    have := h.lt r hr
    simp at hy
    omega
  · intro r hr
    rcases List.mem_append.1 hr with x | x
    · exact Nat.lt_succ_of_lt (h.lt r x)
    · have : r = q := by simpa using x
      rw [this, e1]; exact Nat.lt_succ_self _
  · intro c hc i hi
    obtain ⟨r, h1, h2⟩ := h.own c hc i hi
    exact ⟨r, List.mem_append.2 (Or.inl h1), h2⟩
  · intro r hr s hs
    rcases List.mem_append.1 hr with x | x
    · exact h.str r x s hs
    · have : r = q := by simpa using x
      rw [this, e3] at hs
      cases hs
  · intro r hr
    rcases List.mem_append.1 hr with x | x
    · exact h.eof r x
    · have : r = q := by simpa using x
      rw [this, e4, e1]
      simpa using hne
  · intro i hi; exact Nat.lt_succ_of_lt (h.eoflt i hi)
  · intro i hi
    rcases Nat.lt_succ_iff_lt_or_eq.1 hi with x | x
    · rcases h.all i x with y | ⟨r, hr, y⟩
      · exact Or.inl y
      · exact Or.inr ⟨r, List.mem_append.2 (Or.inl hr), y⟩
    · exact Or.inr ⟨q, by simp, by rw [e1, x]⟩

theorem mid {a b : List Req} {x : Req} (h : ((a ++ x :: b).map (·.id)).Nodup) : ∀ q ∈ a ++ b, q.id ≠ x.id := by
  rw [List.map_append, List.map_cons, List.nodup_append] at h
  obtain ⟨_, h2, h3⟩ := h
  intro q hq e
  rcases List.mem_append.1 hq with y | y
  · exact h3 _ (List.mem_map_of_mem y) _ (List.mem_cons_self) e
  · exact (List.nodup_cons.1 h2).1 (e ▸ List.mem_map_of_mem (f := fun r : Req => r.id) y)

/-- Nobody has a request that the pool drops. -/
theorem free {w : Pool} (h : Inv [] w) (ho : ∀ c ∈ w.conns, c.open_ = true) {r : Req} (hr : r ∈ w.reqs) (hx : (r.ended || !r.isok) = true) :
    ∀ c ∈ w.conns, r.id ∉ c.held := by
  intro c hc hi
  obtain ⟨q, h1, h2, h3, h4⟩ := h.own c hc _ hi
  have := nodup_inj h.ids h1 hr h2
  subst this
  have h5 := h4 (ho c hc) (by simp)
  obtain ⟨k1, k2, _⟩ := h.str q hr _ h3
  rw [h5] at hx
  simp [Req.isok, k1, k2] at hx

theorem sweep_inv (dns : Nat → Ans) : ∀ (rs kept : List Req) (w : Pool), Inv [] w → (∀ c ∈ w.conns, c.open_ = true) → w.reqs = kept ++ rs →
    let x := sweep dns rs w.conns w.eofs
    Inv [] { w with reqs := kept ++ x.1, conns := x.2.1, eofs := x.2.2 } ∧ x.2.1 = w.conns ∧ (∀ r ∈ x.1, r.ended = false) ∧
      (∀ i ∈ w.eofs, i ∈ x.2.2)
  | [], kept, w, h, ho, hw => by
    refine ⟨?_, rfl, by simp [sweep], fun i hi => hi⟩
    have : { w with reqs := kept ++ (sweep dns [] w.conns w.eofs).1, conns := (sweep dns [] w.conns w.eofs).2.1, eofs := (sweep dns [] w.conns w.eofs).2.2 } = w := by
      simp only [sweep]
      rw [← hw]
    rw [this]
    exact h
  | r :: rs, kept, w, h, ho, hw => by
    have hr : r ∈ w.reqs := by rw [hw]; simp
    by_cases hx : (r.ended || !r.isok) = true
    · have hf := free h ho hr hx
      have hsame : (w.conns.map fun c => if c.target = r.target then { c with held := c.held.filter (· != r.id) } else c) = w.conns := by
        conv => rhs; rw [← List.map_id w.conns]
        refine List.map_congr_left fun c hc => ?_
        split
        · have : c.held.filter (· != r.id) = c.held := by
            rw [List.filter_eq_self]
            intro i hi
            have := hf c hc
            simp only [bne_iff_ne, ne_eq]
            rintro rfl
            exact this hi
          rw [this]; rfl
        · rfl
      have hss : sweep dns (r :: rs) w.conns w.eofs = sweep dns rs w.conns (if r.ended then w.eofs else w.eofs ++ [r.id]) := by
        rw [sweep, if_pos hx, hsame]
      rw [hss]
      have hid : ∀ q ∈ kept ++ rs, q.id ≠ r.id := by
        have := h.ids
        rw [hw] at this
        exact mid this
      have hsub : ∀ q ∈ kept ++ rs, q ∈ w.reqs := by
        intro q hq
        rw [hw]
        rcases List.mem_append.1 hq with y | y
        · exact List.mem_append.2 (Or.inl y)
        · exact List.mem_append.2 (Or.inr (List.mem_cons_of_mem _ y))
      have hback : ∀ q ∈ w.reqs, q.id ≠ r.id → q ∈ kept ++ rs := by
        intro q hq hne
        rw [hw] at hq
        rcases List.mem_append.1 hq with y | y
        · exact List.mem_append.2 (Or.inl y)
        · rcases List.mem_cons.1 y with rfl | y
          · exact absurd rfl hne
          · exact List.mem_append.2 (Or.inr y)
      obtain ⟨es, hes⟩ : ∃ es, es = if r.ended then w.eofs else w.eofs ++ [r.id] := ⟨_, rfl⟩
      rw [← hes]
      have hem : ∀ i, i ∈ es ↔ i ∈ w.eofs ∨ i = r.id := by
        intro i
        rw [hes]
        split
        · rename_i he
          constructor
          · exact Or.inl
          · rintro (y | rfl)
            · exact y
            · exact (h.eof r hr).1 he
        · simp
      have hv : Inv [] { w with reqs := kept ++ rs, eofs := es } := by
        refine { ids := ?_, lt := fun q hq => h.lt q (hsub q hq), sids := h.sids, slt := h.slt, tg := h.tg, hd := h.hd, own := ?_, str := fun q hq => h.str q (hsub q hq), eof := ?_,
                 eofn := ?_, eoflt := ?_, all := ?_ }
        · have := h.ids
          rw [hw] at this
          refine List.Nodup.sublist (List.Sublist.map _ ?_) this
          exact List.Sublist.append (List.Sublist.refl _) (List.sublist_cons_self _ _)
        · intro c hc i hi
          obtain ⟨q, h1, h2, h3⟩ := h.own c hc i hi
          refine ⟨q, hback q h1 ?_, h2, h3⟩
          rw [h2]
          rintro rfl
          exact hf c hc hi
        · intro q hq
          dsimp only
          rw [hem, h.eof q (hsub q hq)]
          constructor
          · exact Or.inl
          · rintro (y | y)
            · exact y
            · exact absurd y (hid q hq)
        · dsimp only
          rw [hes]
          split
          · exact h.eofn
          · rename_i he
            rw [List.nodup_append]
            refine ⟨h.eofn, by simp, ?_⟩
            intro a ha b hb e
            have : b = r.id := by simpa using hb
            subst e
            subst this
            exact he ((h.eof r hr).2 ha)
        · intro i hi
          rcases (hem i).1 hi with y | rfl
          · exact h.eoflt i y
          · exact h.lt r hr
        · intro i hi
          dsimp only
          by_cases e : i = r.id
          · exact Or.inl ((hem i).2 (Or.inr e))
          · rcases h.all i hi with y | ⟨q, y, z⟩
            · exact Or.inl ((hem i).2 (Or.inl y))
            · exact Or.inr ⟨q, hback q y (by rw [z]; exact e), z⟩
      obtain ⟨k1, k2, k3, k4⟩ := sweep_inv dns rs kept { w with reqs := kept ++ rs, eofs := es } hv ho rfl
      exact ⟨k1, k2, k3, fun i hi => k4 i ((hem i).2 (Or.inl hi))⟩
    · obtain ⟨r', hr'⟩ : ∃ r', r' = if r.stream.isNone then (r.resolve (dns r.id)).1 else r := ⟨_, rfl⟩
      have hss : sweep dns (r :: rs) w.conns w.eofs = (r' :: (sweep dns rs w.conns w.eofs).1, (sweep dns rs w.conns w.eofs).2) := by
        rw [sweep, if_neg hx, ← hr']
      have hr2 : r'.id = r.id ∧ r'.url = r.url ∧ r'.stream = r.stream ∧ r'.ended = r.ended ∧ (r.addr.isSome = true → r'.addr.isSome = true) := by
        rw [hr']
        split
        · exact resolve_same r _
        · exact ⟨rfl, rfl, rfl, rfl, id⟩
      have hv := h.mapReq (fun q => if q.id = r.id then r' else q) (by
        intro q hq
        split
        · rename_i e
          have := nodup_inj h.ids hq hr e
          subst this
          exact hr2
        · exact ⟨rfl, rfl, rfl, rfl, id⟩)
      have hm : (w.reqs.map fun q => if q.id = r.id then r' else q) = (kept ++ [r']) ++ rs := by
        have hid : ∀ q ∈ kept ++ rs, q.id ≠ r.id := by
          have := h.ids
          rw [hw] at this
          exact mid this
        rw [hw, List.map_append, List.map_cons, if_pos rfl]
        have e1 : (kept.map fun q => if q.id = r.id then r' else q) = kept := by
          conv => rhs; rw [← List.map_id kept]
          exact List.map_congr_left fun q hq => if_neg (hid q (List.mem_append.2 (Or.inl hq)))
        have e2 : (rs.map fun q => if q.id = r.id then r' else q) = rs := by
          conv => rhs; rw [← List.map_id rs]
          exact List.map_congr_left fun q hq => if_neg (hid q (List.mem_append.2 (Or.inr hq)))
        rw [e1, e2]
        simp
      rw [hm] at hv
      obtain ⟨k1, k2, k3, k4⟩ := sweep_inv dns rs (kept ++ [r']) { w with reqs := (kept ++ [r']) ++ rs } hv ho rfl
      rw [hss]
      refine ⟨?_, k2, ?_, k4⟩
      · simpa using k1
      · intro q hq
        rcases List.mem_cons.1 hq with rfl | y
        · rw [hr2.2.2.2.1]
          simp at hx
          exact hx.1
        · exact k3 q y

theorem unconnect_conns (w : Pool) (s : Nat) (l : List Nat) : (w.unconnect s l).conns = w.conns.filter (·.sid != s) := rfl

theorem reap_inv {w : Pool} (h : Inv [] w) (last : Nat → List Nat) : Inv [] (w.reap last) ∧ ∀ c ∈ (w.reap last).conns, c.open_ = true := by
  have key : ∀ (l : List Nat) (v : Pool), Inv [] v → Inv [] (l.foldl (fun w s => w.unconnect s (last s)) v) ∧
      (l.foldl (fun w s => w.unconnect s (last s)) v).conns = v.conns.filter (fun c => decide (c.sid ∉ l)) := by
    intro l
    induction l with
    | nil => intro v hv; exact ⟨hv, (List.filter_eq_self.2 (by simp)).symm⟩
    | cons s l ih =>
      intro v hv
      obtain ⟨h1, h2⟩ := ih _ (unconnect_inv hv s (last s))
      refine ⟨h1, ?_⟩
      show (l.foldl (fun w s => w.unconnect s (last s)) (v.unconnect s (last s))).conns = _
      rw [h2, unconnect_conns, List.filter_filter]
      refine List.filter_congr fun c _ => ?_
      by_cases h1 : c.sid = s <;> by_cases h2 : c.sid ∈ l <;> simp [h1, h2, bne]
  obtain ⟨h1, h2⟩ := key ((w.conns.filter (!·.open_)).map (·.sid)) w h
  refine ⟨h1, fun c hc => ?_⟩
  have hc' : c ∈ w.conns.filter (fun c => decide (c.sid ∉ (w.conns.filter (!·.open_)).map (·.sid))) := by rw [← h2]; exact hc
  obtain ⟨a, b⟩ := List.mem_filter.1 hc'
  simp only [decide_eq_true_eq] at b
  cases ho : c.open_ with
  | true => rfl
  | false => exact absurd (List.mem_map.2 ⟨c, List.mem_filter.2 ⟨a, by simp [ho]⟩, rfl⟩) b

theorem select_inv {w : Pool} (h : Inv [] w) (dns : Nat → Ans) (last : Nat → List Nat) : Inv [] (w.postSelect dns last) ∧
    (∀ c ∈ (w.postSelect dns last).conns, c.open_ = true) ∧ (∀ r ∈ (w.postSelect dns last).reqs, r.ended = false) := by
  obtain ⟨h1, h2⟩ := reap_inv h last
  obtain ⟨k1, k2, k3, _⟩ := sweep_inv dns (w.reap last).reqs [] (w.reap last) h1 h2 rfl
  unfold Pool.postSelect
  dsimp only
  refine ⟨k1, ?_, k3⟩
  rw [k2]
  exact h2

theorem connect_inv {w : Pool} (h : Inv [] w) (t : Target) (ht : w.conn t = none) (k : Kind) (pw : Text) : Inv [] (w.connect t k pw) := by
  have hn : ∀ c ∈ w.conns, c.target ≠ t := by
    intro c hc e
    have := List.find?_eq_none.1 ht c hc
    simp [e] at this
  unfold Pool.connect
  refine { ids := h.ids, lt := h.lt, sids := ?_, slt := ?_, tg := ?_, hd := ?_, own := ?_, str := ?_, eof := h.eof, eofn := h.eofn, eoflt := h.eoflt, all := h.all }
  · dsimp only
    rw [List.map_append, List.nodup_append]
    refine ⟨h.sids, by simp, ?_⟩
    intro a ha b hb e
    obtain ⟨c, hc, rfl⟩ := List.mem_map.1 ha
    have := h.slt c hc
    simp at hb
    omega
  · intro c hc
    rcases List.mem_append.1 hc with x | x
    · exact Nat.lt_succ_of_lt (h.slt c x)
    · have : c = { sid := w.next, target := t, kind := k, password := pw } := by simpa using x
      subst this
      exact Nat.lt_succ_self _
  · dsimp only
    rw [List.map_append, List.nodup_append]
    refine ⟨h.tg, by simp, ?_⟩
    intro a ha b hb e
    obtain ⟨c, hc, rfl⟩ := List.mem_map.1 ha
    have hb : b = t := by simpa using hb
    exact hn c hc (by rw [e, hb])
  · intro c hc
    rcases List.mem_append.1 hc with x | x
    · exact h.hd c x
    · have : c = { sid := w.next, target := t, kind := k, password := pw } := by simpa using x
      subst this
      exact List.nodup_nil
  · intro c hc i hi
    rcases List.mem_append.1 hc with x | x
    · exact h.own c x i hi
    · have : c = { sid := w.next, target := t, kind := k, password := pw } := by simpa using x
      subst this
      cases hi
  · intro r hr s hs
    obtain ⟨k1, k2, c, k3, k4⟩ := h.str r hr s hs
    exact ⟨k1, k2, c, List.mem_append.2 (Or.inl k3), k4⟩

/-- A request is given to a stream. -/
theorem give_inv {w : Pool} (h : Inv [] w) {r : Req} (hr : r ∈ w.reqs) (hs : r.stream = none) (ha : r.addr.isSome = true) (hp : r.url.port ≠ 0)
    (he : r.ended = false) {c0 : Conn} (hc0 : c0 ∈ w.conns) (fail : Option (List Nat)) : Inv [] (w.give r.id c0.sid fail) := by
  have hfree : ∀ c ∈ w.conns, r.id ∉ c.held := by
    intro c hc hi
    obtain ⟨q, h1, h2, h3, _⟩ := h.own c hc _ hi
    have := nodup_inj h.ids h1 hr h2
    subst this
    rw [hs] at h3
    cases h3
  have hv : Inv [] { w with
      reqs := w.reqs.map fun q => if q.id = r.id then { q with stream := some c0.sid } else q
      conns := w.conns.map fun c => if c.sid = c0.sid then { c with held := c.held ++ [r.id] } else c } := by
    obtain ⟨g, hg⟩ : ∃ g : Req → Req, g = fun q => if q.id = r.id then { q with stream := some c0.sid } else q := ⟨_, rfl⟩
    obtain ⟨f, hf⟩ : ∃ f : Conn → Conn, f = fun c => if c.sid = c0.sid then { c with held := c.held ++ [r.id] } else c := ⟨_, rfl⟩
    rw [← hg, ← hf]
    have e : ∀ q, (g q).id = q.id ∧ (g q).url = q.url ∧ (g q).addr = q.addr ∧ (g q).ended = q.ended ∧ (q.id ≠ r.id → g q = q) ∧
        (q.id = r.id → (g q).stream = some c0.sid) := by
      intro q
      rw [hg]
      dsimp only
      split
      · rename_i hx; exact ⟨rfl, rfl, rfl, rfl, fun a => absurd hx a, fun _ => rfl⟩
      · rename_i hx; exact ⟨rfl, rfl, rfl, rfl, fun _ => rfl, fun a => absurd a hx⟩
    have e' : ∀ c, (f c).sid = c.sid ∧ (f c).target = c.target ∧ (f c).open_ = c.open_ ∧ (∀ i, i ∈ (f c).held ↔ i ∈ c.held ∨ (c.sid = c0.sid ∧ i = r.id)) ∧
        (r.id ∉ c.held → c.held.Nodup → (f c).held.Nodup) := by
      intro c
      rw [hf]
      dsimp only
      split
      · rename_i hx
        refine ⟨rfl, rfl, rfl, fun i => by simp [hx], fun a b => ?_⟩
        dsimp only
        rw [List.nodup_append]
        refine ⟨b, by simp, ?_⟩
        intro x hx y hy e
        have : y = r.id := by simpa using hy
        subst this
        subst e
        exact a hx
      · rename_i hx; exact ⟨rfl, rfl, rfl, fun i => by simp [hx], fun _ b => b⟩
    have m1 : (w.conns.map f).map (·.sid) = w.conns.map (·.sid) := by rw [List.map_map]; exact List.map_congr_left fun c _ => (e' c).1
    have m2 : (w.conns.map f).map (·.target) = w.conns.map (·.target) := by rw [List.map_map]; exact List.map_congr_left fun c _ => (e' c).2.1
    refine { ids := by dsimp only; rw [map_id fun q => (e q).1]; exact h.ids, lt := ?_, sids := by dsimp only; rw [m1]; exact h.sids, slt := ?_, tg := by dsimp only; rw [m2]; exact h.tg,
             hd := ?_, own := ?_, str := ?_, eof := ?_, eofn := h.eofn, eoflt := h.eoflt, all := ?_ }
    · intro q0 hq0
      obtain ⟨q, hq, rfl⟩ := List.mem_map.1 hq0
      rw [(e q).1]; exact h.lt q hq
    · intro c hc
      obtain ⟨d, hd, rfl⟩ := List.mem_map.1 hc
      rw [(e' d).1]; exact h.slt d hd
    · intro c hc
      obtain ⟨d, hd, rfl⟩ := List.mem_map.1 hc
      exact (e' d).2.2.2.2 (hfree d hd) (h.hd d hd)
    · intro c hc i hi
      obtain ⟨d, hd, rfl⟩ := List.mem_map.1 hc
      rcases ((e' d).2.2.2.1 i).1 hi with y | ⟨y, rfl⟩
      · obtain ⟨q, h1, h2, h3, h4⟩ := h.own d hd i y
        have hne : q.id ≠ r.id := by
          rw [h2]
          rintro rfl
          exact hfree d hd y
        refine ⟨g q, List.mem_map_of_mem h1, by rw [(e q).1]; exact h2, ?_, ?_⟩
        · rw [(e q).2.2.2.2.1 hne, (e' d).1]; exact h3
        · rw [(e q).2.2.2.2.1 hne, (e' d).2.2.1]; exact h4
      · exact ⟨g r, List.mem_map_of_mem hr, (e r).1, by rw [(e r).2.2.2.2.2 rfl, (e' d).1, y], fun _ _ => by rw [(e r).2.2.2.1]; exact he⟩
    · intro q0 hq0 s hs'
      obtain ⟨q, hq, rfl⟩ := List.mem_map.1 hq0
      by_cases hx : q.id = r.id
      · have := nodup_inj h.ids hq hr hx
        subst this
        rw [(e q).2.2.2.2.2 rfl] at hs'
        refine ⟨by rw [(e q).2.2.1]; exact ha, by rw [(e q).2.1]; exact hp, f c0, List.mem_map_of_mem hc0, by rw [(e' c0).1]; exact Option.some.inj hs', fun _ => ?_⟩
        rw [(e q).1]
        exact ((e' c0).2.2.2.1 _).2 (Or.inr ⟨rfl, rfl⟩)
      · rw [(e q).2.2.2.2.1 hx] at hs' ⊢
        obtain ⟨k1, k2, c, k3, k4, k5⟩ := h.str q hq s hs'
        exact ⟨k1, k2, f c, List.mem_map_of_mem k3, by rw [(e' c).1]; exact k4, fun a => ((e' c).2.2.2.1 _).2 (Or.inl (k5 a))⟩
    · intro q0 hq0
      obtain ⟨q, hq, rfl⟩ := List.mem_map.1 hq0
      rw [(e q).1, (e q).2.2.2.1]; exact h.eof q hq
    · intro i hi
      rcases h.all i hi with y | ⟨q, y, rfl⟩
      · exact Or.inl y
      · exact Or.inr ⟨g q, List.mem_map_of_mem y, (e q).1⟩
  unfold Pool.give
  cases fail with
  | none => exact hv
  | some l => exact die_inv hv _ l

theorem find_some {w : Pool} {i : Nat} {r : Req} (h : w.find i = some r) : r ∈ w.reqs ∧ r.id = i := by
  refine ⟨List.mem_of_find?_eq_some h, ?_⟩
  have := List.find?_some h
  simpa using this

theorem conn_some {w : Pool} {t : Target} {c : Conn} (h : w.conn t = some c) : c ∈ w.conns ∧ c.target = t := by
  refine ⟨List.mem_of_find?_eq_some h, ?_⟩
  have := List.find?_some h
  simpa using this

/-- How requests change when a stream is taken away: they may end, and lose the stream. -/
theorem unconnect_req {w : Pool} {s : Nat} {l : List Nat} {r : Req} (h : r ∈ (w.unconnect s l).reqs) :
    ∃ q ∈ w.reqs, r.id = q.id ∧ r.url = q.url ∧ r.addr = q.addr ∧ r.resolving = q.resolving ∧ (r.stream = q.stream ∨ r.stream = none) ∧
      (q.ended = true → r.ended = true) ∧ (q.id ∉ w.held s → r.ended = q.ended) ∧ (q.stream ≠ some s → r.stream = q.stream) := by
  rw [unconnect_eq] at h
  obtain ⟨q, hq, rfl⟩ := List.mem_map.1 h
  obtain ⟨p, hp, rfl⟩ := (done_reqs w _ q).1 hq
  obtain ⟨e1, e2, e3, e4, e5, e6⟩ := fin_id (l.filter (· ∈ w.held s)) p
  obtain ⟨z, hz⟩ : ∃ z, z = if p.id ∈ l.filter (· ∈ w.held s) then { p with ended := true } else p := ⟨_, rfl⟩
  rw [← hz] at e1 e2 e3 e4 e5 e6 ⊢
  refine ⟨p, hp, ?_⟩
  have h7 : p.id ∉ w.held s → z.ended = p.ended := by
    intro hn
    rw [e6]
    have : p.id ∉ l.filter (· ∈ w.held s) := fun q => hn (by simpa using (List.mem_filter.1 q).2)
    simp [this]
  split
  · rename_i hx
    refine ⟨e1, e2, e4, e5, Or.inr rfl, fun a => by dsimp only; rw [e6, a]; rfl, h7, fun a => ?_⟩
    exact absurd (e3 ▸ hx) a
  · exact ⟨e1, e2, e4, e5, Or.inl e3, fun a => by rw [e6, a]; rfl, h7, fun _ => e3⟩

/-- The part of a turn that finds out where a request is to go. -/
def aim (dns : Nat → Ans) (last : Nat → List Nat) (w : Pool) (i : Nat) (r : Req) : Pool :=
  let x := r.resolve (dns i)
  let w : Pool := { w with reqs := w.reqs.map fun q => if q.id = i then x.1 else q }
  match w.conn x.1.target with
  | some c => if c.open_ then w else w.unconnect c.sid (last c.sid)
  | none => w

theorem aim_inv {w : Pool} (h : Inv [] w) (dns : Nat → Ans) (last : Nat → List Nat) (i : Nat) (r : Req) (hr : r ∈ w.reqs) (hi : r.id = i) :
    Inv [] { w with reqs := w.reqs.map fun q => if q.id = i then (r.resolve (dns i)).1 else q } ∧ Inv [] (aim dns last w i r) := by
  have hv := h.mapReq (fun q => if q.id = i then (r.resolve (dns i)).1 else q) (by
    intro q hq
    split
    · rename_i e
      have := nodup_inj h.ids hq hr (by rw [e, hi])
      subst this
      exact resolve_same q _
    · exact ⟨rfl, rfl, rfl, rfl, id⟩)
  refine ⟨hv, ?_⟩
  unfold aim
  dsimp only
  split
  · split
    · exact hv
    · exact unconnect_inv hv _ _
  · exact hv

/-- The rest of the turn. -/
def serve (fail : Nat → Option (List Nat)) (t : Target) (w : Pool) (i : Nat) : Option Pool :=
  match w.find i with
  | none => some w
  | some r =>
    if r.ended then some w
    else
      match w.conn t with
      | some c => some (if r.stream.isNone then w.give i c.sid (fail i) else w)
      | none =>
        (kindOf r.url.proto).map fun k =>
          if r.stream.isNone then (w.connect t k r.url.password).give i w.next (fail i) else w.connect t k r.url.password

theorem turn_eq (dns : Nat → Ans) (last : Nat → List Nat) (fail : Nat → Option (List Nat)) (w : Pool) (i : Nat) :
    w.turn dns last fail i = match w.find i with
      | none => some w
      | some r =>
        if r.ended || !r.isok then some w
        else if !(r.resolve (dns i)).2 then some { w with reqs := w.reqs.map fun q => if q.id = i then (r.resolve (dns i)).1 else q }
        else serve fail (r.resolve (dns i)).1.target (aim dns last w i r) i := by
  unfold Pool.turn
  cases w.find i with
  | none => rfl
  | some r => rfl

/-- The request of the turn, after the first part of it. -/
theorem aim_req {w : Pool} (h : Inv [] w) (dns : Nat → Ans) (last : Nat → List Nat) (i : Nat) (r : Req) (hr : r ∈ w.reqs) (hi : r.id = i)
    (ha : (r.resolve (dns i)).2 = true) {q : Req} (hq : q ∈ (aim dns last w i r).reqs) (hqi : q.id = i) :
    q.url = r.url ∧ q.addr = (r.resolve (dns i)).1.addr ∧ q.addr.isSome = true := by
  have hsome : (r.resolve (dns i)).1.addr.isSome = true := by
    cases hd : dns i <;> rw [hd] at ha <;> simp [Req.resolve] at ha ⊢
  have base : ∀ q ∈ (w.reqs.map fun q => if q.id = i then (r.resolve (dns i)).1 else q), q.id = i → q.url = r.url ∧ q.addr = (r.resolve (dns i)).1.addr := by
    intro q hq hqi
    obtain ⟨p, hp, rfl⟩ := List.mem_map.1 hq
    by_cases e : p.id = i
    · rw [if_pos e]; exact ⟨(resolve_same r _).2.1, rfl⟩
    · rw [if_neg e] at hqi; exact absurd hqi e
  have fin : q.url = r.url ∧ q.addr = (r.resolve (dns i)).1.addr := by
    unfold aim at hq
    dsimp only at hq
    split at hq
    · split at hq
      · exact base q hq hqi
      · obtain ⟨p, h1, h2, h3, h4, _⟩ := unconnect_req hq
        obtain ⟨k1, k2⟩ := base p h1 (by rw [← h2]; exact hqi)
        exact ⟨by rw [h3, k1], by rw [h4, k2]⟩
    · exact base q hq hqi
  exact ⟨fin.1, fin.2, by rw [fin.2]; exact hsome⟩

theorem turn_inv {w w' : Pool} (h : Inv [] w) (dns : Nat → Ans) (last : Nat → List Nat) (fail : Nat → Option (List Nat)) (i : Nat)
    (ht : w.turn dns last fail i = some w') : Inv [] w' := by
  rw [turn_eq] at ht
  cases hf : w.find i with
  | none => rw [hf] at ht; cases ht; exact h
  | some r =>
    rw [hf] at ht
    dsimp only at ht
    obtain ⟨hr, hi⟩ := find_some hf
    obtain ⟨v1, v2⟩ := aim_inv h dns last i r hr hi
    by_cases hx : (r.ended || !r.isok) = true
    · rw [if_pos hx] at ht; cases ht; exact h
    rw [if_neg hx] at ht
    by_cases ha : (r.resolve (dns i)).2 = true
    · rw [ha] at ht
      simp only [Bool.not_true, Bool.false_eq_true, if_false] at ht
      have hp : r.url.port ≠ 0 := by
        intro e
        simp [Req.isok, e] at hx
      obtain ⟨v, hv⟩ : ∃ v, v = aim dns last w i r := ⟨_, rfl⟩
      have hreq := fun q => aim_req h dns last i r hr hi ha (q := q)
      rw [← hv] at ht v2 hreq
      unfold serve at ht
      cases hf2 : v.find i with
      | none => rw [hf2] at ht; cases ht; exact v2
      | some q =>
        rw [hf2] at ht
        dsimp only at ht
        obtain ⟨hq, hqi⟩ := find_some hf2
        obtain ⟨k1, k2, k3⟩ := hreq q hq hqi
        by_cases he : q.ended = true
        · rw [if_pos he] at ht; cases ht; exact v2
        rw [if_neg he] at ht
        have he : q.ended = false := by simpa using he
        cases hc : v.conn (r.resolve (dns i)).1.target with
        | some c =>
          rw [hc] at ht
          dsimp only at ht
          obtain ⟨c1, c2⟩ := conn_some hc
          cases ht
          split
          · rename_i hs
            rw [← hqi]
            exact give_inv v2 hq (by simpa using hs) k3 (by rw [k1]; exact hp) he c1 _
          · exact v2
        | none =>
          rw [hc] at ht
          dsimp only at ht
          obtain ⟨k, _, rfl⟩ := Option.map_eq_some_iff.1 ht
          have v3 := connect_inv v2 _ hc k q.url.password
          split
          · rename_i hs
            have := give_inv v3 (r := q) hq (by simpa using hs) k3 (by rw [k1]; exact hp) he
              (c0 := { sid := v.next, target := (r.resolve (dns i)).1.target, kind := k, password := q.url.password }) (by simp [Pool.connect]) (fail i)
            rw [← hqi] at this ⊢
            exact this
          · exact v3
    · have ha : (r.resolve (dns i)).2 = false := by simpa using ha
      rw [ha] at ht
      simp only [Bool.not_false, if_true] at ht
      cases ht
      exact v1

theorem turns_inv (dns : Nat → Ans) (last : Nat → List Nat) (fail : Nat → Option (List Nat)) : ∀ (is : List Nat) (w w' : Pool), Inv [] w →
    Pool.turns dns last fail is w = some w' → Inv [] w'
  | [], w, w', h, ht => by cases ht; exact h
  | i :: is, w, w', h, ht => by
    unfold Pool.turns at ht
    obtain ⟨v, h1, h2⟩ := Option.bind_eq_some_iff.1 ht
    exact turns_inv dns last fail is v w' (turn_inv h dns last fail i h1) h2

theorem step_inv {w w' : Pool} (h : Inv [] w) (o : Op) (ht : w.step o = some w') : Inv [] w' := by
  cases o with
  | add u a => cases ht; exact add_inv h u a
  | select d l => cases ht; exact (select_inv h d l).1
  | exec d l f => exact turns_inv d l f _ w w' h ht
  | finish s i => cases ht; exact finish_inv h s i
  | die s l => cases ht; exact die_inv h s l

theorem new_inv : Inv [] {} where
  ids := by simp
  lt := by intro r hr; cases hr
  sids := by simp
  slt := by intro r hr; cases hr
  tg := by simp
  hd := by intro r hr; cases hr
  own := by intro r hr; cases hr
  str := by intro r hr; cases hr
  eof := by intro r hr; cases hr
  eofn := by simp
  eoflt := by intro r hr; cases hr
  all := by intro i hi; exact absurd hi (Nat.not_lt_zero _)

theorem run_inv : ∀ (ops : List Op) (w w' : Pool), Inv [] w → w.run ops = some w' → Inv [] w'
  | [], w, w', h, ht => by cases ht; exact h
  | o :: os, w, w', h, ht => by
    unfold Pool.run at ht
    obtain ⟨v, h1, h2⟩ := Option.bind_eq_some_iff.1 ht
    exact run_inv os v w' (step_inv h o h1) h2

/-- A request that waits for a stream. -/
def Waits (w : Pool) (i : Nat) (u : Url) : Prop := ∃ r ∈ w.reqs, r.id = i ∧ r.url = u ∧ r.stream = none ∧ r.ended = false ∧ r.isok = true

/-- A request that an open stream to this target has. -/
def Served (w : Pool) (i : Nat) (t : Target) : Prop := ∃ c ∈ w.conns, c.open_ = true ∧ c.target = t ∧ i ∈ c.held

theorem waits_free {w : Pool} (h : Inv [] w) {r : Req} (hr : r ∈ w.reqs) (hs : r.stream = none) (s : Nat) : r.id ∉ w.held s := by
  intro hi
  obtain ⟨c, hc, _, hi⟩ := held_of.1 hi
  obtain ⟨q, h1, h2, h3, _⟩ := h.own c hc _ hi
  have := nodup_inj h.ids h1 hr h2
  subst this
  rw [hs] at h3
  cases h3

/-- Taking a stream away leaves those alone that it does not have. -/
theorem unconnect_waits {w : Pool} (h : Inv [] w) {i : Nat} {u : Url} (hw : Waits w i u) (s : Nat) (l : List Nat) : Waits (w.unconnect s l) i u := by
  obtain ⟨r, hr, h1, h2, h3, h4, h5⟩ := hw
  have hf := waits_free h hr h3 s
  refine ⟨r, ?_, h1, h2, h3, h4, h5⟩
  rw [unconnect_eq]
  refine List.mem_map.2 ⟨r, (done_reqs w _ r).2 ⟨r, hr, ?_⟩, ?_⟩
  · rw [if_neg]
    intro q
    exact hf (by simpa using (List.mem_filter.1 q).2)
  · rw [if_neg (by rw [h3]; simp)]

theorem give_none_conns (w : Pool) (i s : Nat) : (w.give i s none).conns = w.conns.map fun c => if c.sid = s then { c with held := c.held ++ [i] } else c := rfl

theorem aim_waits {w : Pool} (h : Inv [] w) (dns : Nat → Ans) (last : Nat → List Nat) (j : Nat) (r : Req) (hr : r ∈ w.reqs) (hj : r.id = j) {i : Nat} {u : Url}
    (hw : Waits w i u) (hne : i ≠ j) : Waits { w with reqs := w.reqs.map fun q => if q.id = j then (r.resolve (dns j)).1 else q } i u ∧ Waits (aim dns last w j r) i u := by
  have b : Waits { w with reqs := w.reqs.map fun q => if q.id = j then (r.resolve (dns j)).1 else q } i u := by
    obtain ⟨q, hq, h1, h2⟩ := hw
    refine ⟨q, List.mem_map.2 ⟨q, hq, ?_⟩, h1, h2⟩
    rw [if_neg (by rw [h1]; exact hne)]
  refine ⟨b, ?_⟩
  unfold aim
  dsimp only
  split
  · split
    · exact b
    · exact unconnect_waits (aim_inv h dns last j r hr hj).1 b _ _
  · exact b

theorem turn_waits {w w' : Pool} (h : Inv [] w) (dns : Nat → Ans) (last : Nat → List Nat) (j : Nat) {i : Nat} {u : Url} (hw : Waits w i u) (hne : i ≠ j)
    (ht : w.turn dns last (fun _ => none) j = some w') : Waits w' i u := by
  rw [turn_eq] at ht
  cases hf : w.find j with
  | none => rw [hf] at ht; cases ht; exact hw
  | some r =>
    rw [hf] at ht
    dsimp only at ht
    obtain ⟨hr, hi⟩ := find_some hf
    obtain ⟨b1, b2⟩ := aim_waits h dns last j r hr hi hw hne
    split at ht
    · cases ht; exact hw
    split at ht
    · cases ht; exact b1
    obtain ⟨v, hv⟩ : ∃ v, v = aim dns last w j r := ⟨_, rfl⟩
    rw [← hv] at ht b2
    have give : ∀ (x : Pool) (s : Nat), Waits x i u → Waits (x.give j s none) i u := by
      rintro x s ⟨q, hq, h1, h2⟩
      refine ⟨q, List.mem_map.2 ⟨q, hq, ?_⟩, h1, h2⟩
      rw [if_neg (by rw [h1]; exact hne)]
    unfold serve at ht
    split at ht
    · cases ht; exact b2
    split at ht
    · cases ht; exact b2
    split at ht
    · cases ht
      split
      · exact give _ _ b2
      · exact b2
    · obtain ⟨k, _, rfl⟩ := Option.map_eq_some_iff.1 ht
      split
      · exact give _ _ b2
      · exact b2

theorem unconnect_served {w : Pool} (h : Inv [] w) {i : Nat} {t : Target} (hs : Served w i t) {c : Conn} (hc : c ∈ w.conns) (ho : c.open_ = false) (l : List Nat) :
    Served (w.unconnect c.sid l) i t := by
  obtain ⟨d, h1, h2, h3⟩ := hs
  refine ⟨d, ?_, h2, h3⟩
  rw [unconnect_conns]
  refine List.mem_filter.2 ⟨h1, ?_⟩
  have : d.sid ≠ c.sid := by
    intro e
    have := nodup_inj h.sids h1 hc e
    subst this
    rw [h2] at ho
    cases ho
  simpa using this

theorem turn_served {w w' : Pool} (h : Inv [] w) (dns : Nat → Ans) (last : Nat → List Nat) (j : Nat) {i : Nat} {t : Target} (hs : Served w i t)
    (ht : w.turn dns last (fun _ => none) j = some w') : Served w' i t := by
  rw [turn_eq] at ht
  cases hf : w.find j with
  | none => rw [hf] at ht; cases ht; exact hs
  | some r =>
    rw [hf] at ht
    dsimp only at ht
    obtain ⟨hr, hi⟩ := find_some hf
    have b1 : Served { w with reqs := w.reqs.map fun q => if q.id = j then (r.resolve (dns j)).1 else q } i t := hs
    have b2 : Served (aim dns last w j r) i t := by
      unfold aim
      dsimp only
      split
      · rename_i c hc
        split
        · exact b1
        · rename_i ho
          exact unconnect_served (aim_inv h dns last j r hr hi).1 b1 (conn_some hc).1 (by simpa using ho) _
      · exact b1
    split at ht
    · cases ht; exact hs
    split at ht
    · cases ht; exact b1
    obtain ⟨v, hv⟩ : ∃ v, v = aim dns last w j r := ⟨_, rfl⟩
    rw [← hv] at ht b2
    have give : ∀ (x : Pool) (s : Nat), Served x i t → Served (x.give j s none) i t := by
      rintro x s ⟨c, hc, h1, h2, h3⟩
      rw [Served, give_none_conns]
      refine ⟨_, List.mem_map_of_mem hc, ?_⟩
      split
      · exact ⟨h1, h2, List.mem_append.2 (Or.inl h3)⟩
      · exact ⟨h1, h2, h3⟩
    have con : ∀ (x : Pool) (k : Kind) (t' : Target) (p : Text), Served x i t → Served (x.connect t' k p) i t := by
      rintro x k t' p ⟨c, hc, h1⟩
      exact ⟨c, List.mem_append.2 (Or.inl hc), h1⟩
    unfold serve at ht
    split at ht
    · cases ht; exact b2
    split at ht
    · cases ht; exact b2
    split at ht
    · cases ht
      split
      · exact give _ _ b2
      · exact b2
    · obtain ⟨k, _, rfl⟩ := Option.map_eq_some_iff.1 ht
      split
      · exact give _ _ (con _ _ _ _ b2)
      · exact con _ _ _ _ b2

/-- The turn of a request that waits, when its address is known. -/
theorem turn_own {w w' : Pool} (h : Inv [] w) (dns : Nat → Ans) (last : Nat → List Nat) {i : Nat} {u : Url} (hw : Waits w i u) {a : Spec.Addr.Addr} (hd : dns i = .found a)
    (ht : w.turn dns last (fun _ => none) i = some w') : Served w' i ⟨a, u.port % 65536, u.user⟩ := by
  rw [turn_eq] at ht
  obtain ⟨r, hr, h1, h2, h3, h4, h5⟩ := hw
  have hf : w.find i = some r := by
    cases hx : w.find i with
    | none =>
      have := List.find?_eq_none.1 hx r hr
      simp [h1] at this
    | some q =>
      obtain ⟨a1, a2⟩ := find_some hx
      rw [nodup_inj h.ids a1 hr (by rw [a2, h1])]
  rw [hf] at ht
  simp only [h4, h5, hd, Bool.not_true, Bool.or_false, Bool.false_eq_true, if_false] at ht
  simp only [Req.resolve, Bool.not_true, Bool.false_eq_true, if_false] at ht
  have htg : Req.target { r with resolving := false, addr := some a } = ⟨a, u.port % 65536, u.user⟩ := by
    simp [Req.target, h2]
  rw [htg] at ht
  obtain ⟨t, hteq⟩ : ∃ t : Target, t = ⟨a, u.port % 65536, u.user⟩ := ⟨_, rfl⟩
  rw [← hteq] at ht ⊢
  obtain ⟨v1, v2⟩ := aim_inv h dns last i r hr h1
  have hres : (r.resolve (dns i)).1 = { r with resolving := false, addr := some a } := by rw [hd]; rfl
  have hmem : ({ r with resolving := false, addr := some a } : Req) ∈ (w.reqs.map fun q => if q.id = i then (r.resolve (dns i)).1 else q) := by
    refine List.mem_map.2 ⟨r, hr, ?_⟩
    rw [if_pos h1, hres]
  obtain ⟨v, hv⟩ : ∃ v, v = aim dns last w i r := ⟨_, rfl⟩
  have hvr : Waits v i u ∧ ∀ c, v.conn t = some c → c.open_ = true := by
    have b : Waits { w with reqs := w.reqs.map fun q => if q.id = i then (r.resolve (dns i)).1 else q } i u :=
      ⟨_, hmem, h1, h2, h3, h4, by simp only [Req.isok] at h5 ⊢; simp at h5 ⊢; exact h5.1⟩
    rw [hv]
    unfold aim
    dsimp only
    rw [hres, htg, ← hteq]
    split
    · rename_i c hc
      rw [hres] at b v1
      by_cases ho : c.open_ = true
      · rw [if_pos ho]
        refine ⟨b, fun d hd' => ?_⟩
        rw [hc] at hd'
        cases hd'
        exact ho
      · rw [if_neg ho]
        refine ⟨unconnect_waits v1 b _ _, fun d hd' => ?_⟩
        obtain ⟨d1, d2⟩ := conn_some hd'
        rw [unconnect_conns] at d1
        obtain ⟨d3, d4⟩ := List.mem_filter.1 d1
        obtain ⟨c1, c2⟩ := conn_some hc
        have := nodup_inj v1.tg d3 c1 (by rw [d2, c2])
        subst this
        simp at d4
    · rename_i hc
      rw [hres] at b
      refine ⟨b, fun d hd' => ?_⟩
      rw [hc] at hd'
      cases hd'
  rw [← hv] at ht v2
  obtain ⟨⟨q, hq, q1, q2, q3, q4, q5⟩, hop⟩ := hvr
  have hfv : v.find i = some q := by
    cases hx : v.find i with
    | none =>
      have := List.find?_eq_none.1 hx q hq
      simp [q1] at this
    | some p =>
      obtain ⟨a1, a2⟩ := find_some hx
      rw [nodup_inj v2.ids a1 hq (by rw [a2, q1])]
  unfold serve at ht
  rw [hfv] at ht
  simp only [q4, q3, Bool.false_eq_true, if_false, Option.isNone_none, if_true] at ht
  have give : ∀ (x : Pool) (c : Conn), c ∈ x.conns → c.open_ = true → c.target = t → Served (x.give i c.sid none) i t := by
    intro x c hc ho htc
    rw [Served, give_none_conns]
    refine ⟨_, List.mem_map_of_mem hc, ?_⟩
    rw [if_pos rfl]
    exact ⟨ho, htc, by simp⟩
  cases hc : v.conn t with
  | some c =>
    rw [hc] at ht
    cases ht
    obtain ⟨c1, c2⟩ := conn_some hc
    exact give v c c1 (hop c hc) c2
  | none =>
    rw [hc] at ht
    obtain ⟨k, _, rfl⟩ := Option.map_eq_some_iff.1 ht
    exact give (v.connect t k q.url.password) { sid := v.next, target := t, kind := k, password := q.url.password } (by simp [Pool.connect]) rfl rfl

theorem turns_served (dns : Nat → Ans) (last : Nat → List Nat) : ∀ (is : List Nat) (w w' : Pool) (i : Nat) (t : Target), Inv [] w → Served w i t →
    Pool.turns dns last (fun _ => none) is w = some w' → Served w' i t
  | [], w, w', i, t, _, h, ht => by cases ht; exact h
  | j :: is, w, w', i, t, hi, h, ht => by
    unfold Pool.turns at ht
    obtain ⟨v, h1, h2⟩ := Option.bind_eq_some_iff.1 ht
    exact turns_served dns last is v w' i t (turn_inv hi dns last _ j h1) (turn_served hi dns last j h h1) h2

theorem turns_own (dns : Nat → Ans) (last : Nat → List Nat) {i : Nat} {u : Url} {a : Spec.Addr.Addr} (hd : dns i = .found a) :
    ∀ (is : List Nat) (w w' : Pool), Inv [] w → i ∈ is → Waits w i u →
    Pool.turns dns last (fun _ => none) is w = some w' → Served w' i ⟨a, u.port % 65536, u.user⟩
  | [], _, _, _, hx, _, _ => by cases hx
  | j :: is, w, w', hi, hx, h, ht => by
    unfold Pool.turns at ht
    obtain ⟨v, h1, h2⟩ := Option.bind_eq_some_iff.1 ht
    have hv := turn_inv hi dns last _ j h1
    by_cases e : i = j
    · subst e
      exact turns_served dns last is v w' i _ hv (turn_own hi dns last h hd h1) h2
    · rcases List.mem_cons.1 hx with y | y
      · exact absurd y e
      · exact turns_own dns last hd is v w' hv y (turn_waits hi dns last j h e h1) h2

end UpP

/-- C109: whatever the streams, the servers and the name service do: a stream only has requests that the pool still has, that were given
    to it and to no other, each once; while it is open none of them has ended. So no stream ever looks at a request that is gone. -/
theorem C109_safe (ops : List Op) (w : Pool) (h : Pool.run {} ops = some w) :
    (∀ c ∈ w.conns, c.held.Nodup ∧ ∀ i ∈ c.held, ∃ r ∈ w.reqs, r.id = i ∧ r.stream = some c.sid ∧ (c.open_ = true → r.ended = false)) ∧
    (∀ c ∈ w.conns, ∀ d ∈ w.conns, ∀ i, i ∈ c.held → i ∈ d.held → c = d) ∧
    (∀ r ∈ w.reqs, ∀ s, r.stream = some s → ∃ c ∈ w.conns, c.sid = s ∧ (r.ended = false → r.id ∈ c.held)) := by
  have hi := UpP.run_inv ops {} w UpP.new_inv h
  refine ⟨fun c hc => ⟨hi.hd c hc, fun i hx => ?_⟩, fun c hc d hd i h1 h2 => ?_, fun r hr s hs => (hi.str r hr s hs).2.2⟩
  · obtain ⟨r, h1, h2, h3, h4⟩ := hi.own c hc i hx
    exact ⟨r, h1, h2, h3, fun a => h4 a (by simp)⟩
  · exact UpP.nodup_inj hi.sids hc hd (UpP.holder hi hc hd h1 h2)

/-- C109: there is never more than one connection to an address and port for a user. -/
theorem C109_one_connection (ops : List Op) (w : Pool) (h : Pool.run {} ops = some w) : (w.conns.map (·.target)).Nodup :=
  (UpP.run_inv ops {} w UpP.new_inv h).tg

/-- C109: the end of each request is told at most once; a request is only dropped when its end was told, so when the pool is idle all have ended. -/
theorem C109_ends (ops : List Op) (w : Pool) (h : Pool.run {} ops = some w) :
    w.eofs.Nodup ∧ (∀ i ∈ w.eofs, i < w.count) ∧ (∀ i < w.count, i ∈ w.eofs ∨ ∃ r ∈ w.reqs, r.id = i ∧ r.ended = false) ∧
    (w.idle = true → ∀ i < w.count, i ∈ w.eofs) := by
  have hi := UpP.run_inv ops {} w UpP.new_inv h
  have h3 : ∀ i < w.count, i ∈ w.eofs ∨ ∃ r ∈ w.reqs, r.id = i ∧ r.ended = false := by
    intro i hx
    rcases hi.all i hx with y | ⟨r, hr, rfl⟩
    · exact Or.inl y
    · cases he : r.ended with
      | true => exact Or.inl ((hi.eof r hr).1 he)
      | false => exact Or.inr ⟨r, hr, rfl, he⟩
  refine ⟨hi.eofn, hi.eoflt, h3, fun hd i hx => ?_⟩
  rcases h3 i hx with y | ⟨r, hr, _⟩
  · exact y
  · have : w.reqs = [] := by simpa [Pool.idle] using hd
    rw [this] at hr
    cases hr

/-- C109: what speaks with the server: HTTP for each protocol whose name begins with "http", over SSL just for "https", FTP for "ftp", nothing else. -/
theorem C109_protocols (p : Text) :
    (∀ rest, p.map tolower = str ['h', 't', 't', 'p'] ++ rest → kindOf p = some (.http (p == str ['h', 't', 't', 'p', 's']))) ∧
    (p.map tolower = str ['f', 't', 'p'] → kindOf p = some .ftp) ∧
    ((∀ rest, p.map tolower ≠ str ['h', 't', 't', 'p'] ++ rest) → p.map tolower ≠ str ['f', 't', 'p'] → kindOf p = none) := by
  have e4 : ((str ['h', 't', 't', 'p']).take 4).map tolower = str ['h', 't', 't', 'p'] := by decide +kernel
  refine ⟨?_, ?_, ?_⟩
  · intro rest h
    have : sameStart 4 p (str ['h', 't', 't', 'p']) = true := by
      unfold sameStart
      rw [e4, List.map_take, h, beq_iff_eq]
      exact List.take_left' (by decide +kernel)
    unfold kindOf
    rw [if_pos this]
  · intro h
    have : ¬ sameStart 4 p (str ['h', 't', 't', 'p']) = true := by
      unfold sameStart
      rw [e4, List.map_take, h]
      decide +kernel
    unfold kindOf
    rw [if_neg this, if_pos (by rw [h]; decide +kernel)]
  · intro h1 h2
    have : ¬ sameStart 4 p (str ['h', 't', 't', 'p']) = true := by
      unfold sameStart
      rw [e4, List.map_take, beq_iff_eq]
      intro h
      exact h1 ((p.map tolower).drop 4) (by rw [← h, List.take_append_drop])
    unfold kindOf
    rw [if_neg this, if_neg (by rw [beq_iff_eq]; exact h2)]

namespace UpP

/-- The same request, perhaps ended or without its stream. -/
def Same (r q : Req) : Prop := q.id = r.id ∧ q.addr = r.addr ∧ q.resolving = r.resolving ∧ q.url = r.url ∧ (r.stream = none → q.stream = none)

theorem unconnect_same (w : Pool) (sid : Nat) (l : List Nat) (q : Req) (h : q ∈ (w.unconnect sid l).reqs) : ∃ r ∈ w.reqs, Same r q := by
  unfold Pool.unconnect at h
  dsimp only at h
  obtain ⟨q', h1, h2⟩ := (done_reqs _ _ _).1 h
  obtain ⟨r, h3, h4⟩ := List.mem_map.1 h1
  refine ⟨r, h3, ?_⟩
  have a : Same r q' := by
    rw [← h4]
    split
    · exact ⟨rfl, rfl, rfl, rfl, fun _ => rfl⟩
    · exact ⟨rfl, rfl, rfl, rfl, fun x => x⟩
  rw [h2]
  split
  · exact a
  · exact a

theorem reap_same (w : Pool) (last : Nat → List Nat) (q : Req) (h : q ∈ (w.reap last).reqs) : ∃ r ∈ w.reqs, Same r q := by
  unfold Pool.reap at h
  generalize (w.conns.filter (!·.open_)).map (·.sid) = l at h
  induction l generalizing w with
  | nil => exact ⟨q, h, rfl, rfl, rfl, rfl, fun x => x⟩
  | cons s l ih =>
    obtain ⟨r, h1, h2⟩ := ih (w.unconnect s (last s)) h
    obtain ⟨r', h3, h4⟩ := unconnect_same w s (last s) r h1
    exact ⟨r', h3, h2.1.trans h4.1, h2.2.1.trans h4.2.1, h2.2.2.1.trans h4.2.2.1, h2.2.2.2.1.trans h4.2.2.2.1, fun x => h2.2.2.2.2 (h4.2.2.2.2 x)⟩

theorem sweep_kept (dns : Nat → Ans) : ∀ (rs : List Req) (cs : List Conn) (e : List Nat) (q : Req), q ∈ (sweep dns rs cs e).1 →
    ∃ r ∈ rs, r.isok = true ∧ q = if r.stream.isNone then (r.resolve (dns r.id)).1 else r
  | [], _, _, q, h => by cases h
  | r :: rs, cs, e, q, h => by
    rw [sweep] at h
    split at h
    · obtain ⟨r', h1, h2⟩ := sweep_kept dns rs _ _ q h
      exact ⟨r', List.mem_cons_of_mem _ h1, h2⟩
    · rename_i hc
      rcases List.mem_cons.1 h with e' | e'
      · exact ⟨r, by simp, by cases hk : r.isok <;> simp [hk] at hc ⊢, e'⟩
      · obtain ⟨r', h1, h2⟩ := sweep_kept dns rs _ _ q e'
        exact ⟨r', List.mem_cons_of_mem _ h1, h2⟩

theorem resolve_id (r : Req) (a : Ans) : (r.resolve a).1.id = r.id := by cases a <;> rfl

end UpP

/-- C109: a request whose host is unknown ends: the name service is asked in one `post_select`, and the end is told in the next. -/
theorem C109_unknown (ops : List Op) (w : Pool) (h : Pool.run {} ops = some w) (dns dns' : Nat → Ans) (last last' : Nat → List Nat)
    (r : Req) (hr : r ∈ w.reqs) (hs : r.stream = none) (ha : r.addr = none) (hd : dns r.id = .unknown) :
    r.id ∈ ((w.postSelect dns last).postSelect dns' last').eofs := by
  have hi := UpP.run_inv ops {} w UpP.new_inv h
  have h1 := (UpP.select_inv hi dns last).1
  have h2 := (UpP.select_inv h1 dns' last').1
  have hc : ∀ (w : Pool) d l, (w.postSelect d l).count = w.count := by
    intro w d l
    unfold Pool.postSelect Pool.reap
    dsimp only
    generalize (w.conns.filter (!·.open_)).map (·.sid) = x
    induction x generalizing w with
    | nil => rfl
    | cons s x ih => exact ih (w.unconnect s (l s))
  rcases h2.all r.id (by rw [hc, hc]; exact hi.lt r hr) with y | ⟨q, hq, hqi⟩
  · exact y
  · exfalso
    obtain ⟨a, a1, a2, a3⟩ := UpP.sweep_kept dns' _ _ _ q hq
    obtain ⟨b, b1, b2⟩ := UpP.reap_same _ last' a a1
    obtain ⟨c, c1, c2, c3⟩ := UpP.sweep_kept dns _ _ _ b b1
    obtain ⟨d, d1, d2⟩ := UpP.reap_same _ last c c1
    have ia : a.id = r.id := by
      rw [← hqi, a3]; split
      · exact (UpP.resolve_id _ _).symm
      · rfl
    have ib : b.id = c.id := by
      rw [c3]; split
      · exact UpP.resolve_id _ _
      · rfl
    have hdr : d = r := UpP.nodup_inj hi.ids d1 hr (by rw [← d2.1, ← ib, ← b2.1, ia])
    subst hdr
    have cs : c.stream = none := d2.2.2.2.2 hs
    rw [cs, d2.1, hd] at c3
    have hb : b.isok = false := by
      rw [c3]
      simp [Req.resolve, Req.isok, d2.2.1, ha]
    have hba : a.isok = b.isok := by
      unfold Req.isok
      rw [b2.2.1, b2.2.2.1, b2.2.2.2.1]
    rw [hba, hb] at a2
    cases a2

/-- C109: after `post_select` all connections are open, requests that have ended are gone, and each that is left waits for a connection
    or is with an open one: one whose connection was lost is tried again. -/
theorem C109_retried (ops : List Op) (w : Pool) (h : Pool.run {} ops = some w) (dns : Nat → Ans) (last : Nat → List Nat) :
    let v := w.postSelect dns last
    (∀ c ∈ v.conns, c.open_ = true) ∧ (∀ r ∈ v.reqs, r.ended = false ∧ (r.stream = none ∨ ∃ c ∈ v.conns, r.stream = some c.sid ∧ r.id ∈ c.held)) := by
  have hi := UpP.run_inv ops {} w UpP.new_inv h
  obtain ⟨h1, h2, h3⟩ := UpP.select_inv hi dns last
  refine ⟨h2, fun r hr => ⟨h3 r hr, ?_⟩⟩
  cases hs : r.stream with
  | none => exact Or.inl rfl
  | some s =>
    obtain ⟨_, _, c, k1, k2, k3⟩ := h1.str r hr s hs
    exact Or.inr ⟨c, k1, by rw [k2], k3 (h3 r hr)⟩

/-- C109: a request that waits is, as soon as its address is known, given to an open connection to that address and port, as its user;
    if no connection fails meanwhile. -/
theorem C109_served (ops : List Op) (w w' : Pool) (h : Pool.run {} ops = some w) (dns : Nat → Ans) (last : Nat → List Nat)
    (r : Req) (hr : r ∈ w.reqs) (hs : r.stream = none) (he : r.ended = false) (hok : r.isok = true) (a : Spec.Addr.Addr) (hd : dns r.id = .found a)
    (hx : w.execute dns last (fun _ => none) = some w') :
    ∃ c ∈ w'.conns, c.open_ = true ∧ c.target = ⟨a, r.url.port % 65536, r.url.user⟩ ∧ r.id ∈ c.held :=
  UpP.turns_own dns last hd _ w w' (UpP.run_inv ops {} w UpP.new_inv h) (List.mem_map_of_mem hr) ⟨r, hr, rfl, rfl, hs, he, hok⟩ hx

namespace UpP
theorem turn_some (w : Pool) (dns : Nat → Ans) (last : Nat → List Nat) (fail : Nat → Option (List Nat)) (i : Nat) (P : Url → Prop) (hP : ∀ u, P u → kindOf u.proto ≠ none)
    (h : ∀ r ∈ w.reqs, P r.url) : ∃ w', w.turn dns last fail i = some w' ∧ ∀ r ∈ w'.reqs, P r.url := by
  rw [turn_eq]
  cases hf : w.find i with
  | none => exact ⟨w, rfl, h⟩
  | some r =>
    obtain ⟨hr, hi⟩ := find_some hf
    dsimp only
    have b1 : ∀ q ∈ (w.reqs.map fun q => if q.id = i then (r.resolve (dns i)).1 else q), P q.url := by
      intro q hq
      obtain ⟨p, hp, rfl⟩ := List.mem_map.1 hq
      split
      · rw [(resolve_same r _).2.1]; exact h r hr
      · exact h p hp
    have b2 : ∀ q ∈ (aim dns last w i r).reqs, P q.url := by
      unfold aim
      dsimp only
      split
      · split
        · exact b1
        · intro q hq
          obtain ⟨p, h1, _, h3, _⟩ := unconnect_req hq
          rw [h3]; exact b1 p h1
      · exact b1
    have die : ∀ (x : Pool) (s : Nat) (l : List Nat), (∀ q ∈ x.reqs, P q.url) → ∀ q ∈ (x.die s l).reqs, P q.url := by
      intro x s l hx q hq
      obtain ⟨p, hp, rfl⟩ := (done_reqs x _ q).1 hq
      rw [(fin_id _ p).2.1]; exact hx p hp
    have give : ∀ (x : Pool) (s : Nat) (l : Option (List Nat)), (∀ q ∈ x.reqs, P q.url) → ∀ q ∈ (x.give i s l).reqs, P q.url := by
      intro x s l hx
      have hb : ∀ q ∈ (x.reqs.map fun r => if r.id = i then { r with stream := some s } else r), P q.url := by
        intro q hq
        obtain ⟨p, hp, rfl⟩ := List.mem_map.1 hq
        split <;> exact hx p hp
      unfold Pool.give
      cases l with
      | none => exact hb
      | some l => exact die _ _ _ hb
    split
    · exact ⟨w, rfl, h⟩
    split
    · exact ⟨_, rfl, b1⟩
    obtain ⟨v, hv⟩ : ∃ v, v = aim dns last w i r := ⟨_, rfl⟩
    rw [← hv] at b2 ⊢
    unfold serve
    cases hf2 : v.find i with
    | none => exact ⟨v, rfl, b2⟩
    | some q =>
      dsimp only
      split
      · exact ⟨v, rfl, b2⟩
      split
      · refine ⟨_, rfl, ?_⟩
        split
        · exact give _ _ _ b2
        · exact b2
      · have hk := hP _ (b2 q (find_some hf2).1)
        cases hkk : kindOf q.url.proto with
        | none => exact absurd hkk hk
        | some k =>
          refine ⟨_, rfl, ?_⟩
          split
          · exact give _ _ _ b2
          · exact b2

theorem turns_some (dns : Nat → Ans) (last : Nat → List Nat) (fail : Nat → Option (List Nat)) (P : Url → Prop) (hP : ∀ u, P u → kindOf u.proto ≠ none) : ∀ (is : List Nat) (w : Pool),
    (∀ r ∈ w.reqs, P r.url) → ∃ w', Pool.turns dns last fail is w = some w' ∧ ∀ r ∈ w'.reqs, P r.url
  | [], w, h => ⟨w, rfl, h⟩
  | i :: is, w, h => by
    obtain ⟨v, h1, h2⟩ := turn_some w dns last fail i P hP h
    obtain ⟨x, h3, h4⟩ := turns_some dns last fail P hP is v h2
    exact ⟨x, by unfold Pool.turns; rw [h1]; exact h3, h4⟩

theorem sweep_urls (dns : Nat → Ans) (P : Url → Prop) : ∀ (rs : List Req) (cs : List Conn) (e : List Nat), (∀ r ∈ rs, P r.url) → ∀ r ∈ (sweep dns rs cs e).1, P r.url
  | [], _, _, _ => by intro r hr; cases hr
  | q :: rs, cs, e, h => by
    rw [sweep]
    split
    · exact sweep_urls dns P rs _ _ fun r hr => h r (List.mem_cons_of_mem _ hr)
    · intro r hr
      rcases List.mem_cons.1 hr with rfl | y
      · split
        · rw [(resolve_same q _).2.1]; exact h q (List.mem_cons_self)
        · exact h q (List.mem_cons_self)
      · exact sweep_urls dns P rs _ _ (fun r hr => h r (List.mem_cons_of_mem _ hr)) r y
end UpP

/-- C109 (partial, see C109_protocol_fails): if all URLs are for HTTP or FTP, nothing undefined is done. -/
theorem C109_defined_partial (ops : List Op) (hp : ∀ u a, .add u a ∈ ops → kindOf u.proto ≠ none) : (Pool.run {} ops).isSome = true := by
  have key : ∀ (ops : List Op) (w : Pool), (∀ u a, .add u a ∈ ops → kindOf u.proto ≠ none) → (∀ r ∈ w.reqs, kindOf r.url.proto ≠ none) → (w.run ops).isSome = true := by
    intro ops
    induction ops with
    | nil => intro w _ _; rfl
    | cons o os ih =>
      intro w ho hw
      have ho' : ∀ u a, .add u a ∈ os → kindOf u.proto ≠ none := fun u a q => ho u a (List.mem_cons_of_mem _ q)
      unfold Pool.run
      have done : ∀ (x : Pool) (l : List Nat), (∀ q ∈ x.reqs, kindOf q.url.proto ≠ none) → ∀ q ∈ (x.done l).reqs, kindOf q.url.proto ≠ none := by
        intro x l hx q hq
        obtain ⟨p, hp, rfl⟩ := (UpP.done_reqs x _ q).1 hq
        rw [(UpP.fin_id _ p).2.1]; exact hx p hp
      cases o with
      | add u a =>
        refine ih _ ho' ?_
        intro r hr
        rcases List.mem_append.1 hr with y | y
        · exact hw r y
        · rw [List.mem_singleton.1 y, (UpP.resolve_same _ a).2.1]
          exact ho u a (List.mem_cons_self)
      | select d l =>
        refine ih _ ho' ?_
        refine UpP.sweep_urls d (fun u => kindOf u.proto ≠ none) _ _ _ ?_
        have fold : ∀ (ss : List Nat) (x : Pool), (∀ q ∈ x.reqs, kindOf q.url.proto ≠ none) →
            ∀ q ∈ (ss.foldl (fun w s => w.unconnect s (l s)) x).reqs, kindOf q.url.proto ≠ none := by
          intro ss
          induction ss with
          | nil => intro x hx; exact hx
          | cons s ss ih2 =>
            intro x hx
            refine ih2 _ ?_
            intro q hq
            obtain ⟨p, h1, _, h3, _⟩ := UpP.unconnect_req hq
            rw [h3]; exact hx p h1
        exact fold _ w hw
      | exec d l f =>
        obtain ⟨v, h1, h2⟩ := UpP.turns_some d l f (fun u => kindOf u.proto ≠ none) (fun _ h => h) (w.reqs.map (·.id)) w hw
        show ((Pool.turns d l f (w.reqs.map (·.id)) w).bind _).isSome = true
        rw [h1]
        exact ih v ho' h2
      | finish s i =>
        refine ih _ ho' ?_
        unfold Pool.finish
        split
        · exact done _ _ hw
        · exact hw
      | die s l => exact ih _ ho' (done _ _ hw)
  exact key ops {} hp (by intro r hr; cases hr)

namespace UpP
def tx (s : String) : Text := str s.toList
def site : Spec.Addr.Addr := ⟨10, 0, 0, 1⟩
def dns : Nat → Ans := fun _ => .found site
def no : Nat → List Nat := fun _ => []
def fine : Nat → Option (List Nat) := fun _ => none
def ftp (password : String) : Url := ⟨tx "ftp", tx "joe", tx password, 21⟩
end UpP
open UpP (tx site dns no fine ftp)

/-- Two requests to one server and one to another; the first is ended, then the connection is lost, and the second is given to a new one. -/
example : (Pool.run {} [.add (ftp "x") .waiting, .add (ftp "x") .waiting, .add ⟨tx "http", [], [], 80⟩ .waiting, .exec dns no fine, .finish 0 0, .die 0 [],
      .select dns no, .exec dns no fine]).map (fun w => (w.eofs, w.conns.map fun c => (c.sid, c.open_, c.held))) =
    some ([0], [(1, true, [2]), (2, true, [1])]) := by decide +kernel

/-- An unknown host. -/
example : (Pool.run {} [.add (ftp "x") .waiting, .select (fun _ => .unknown) no, .select dns no]).map (fun w => (w.eofs, w.reqs.length)) = some ([0], 0) := by decide +kernel

/-- C109: the password is not part of the target: a request with a wrong password is served on a connection that has the right one. -/
theorem C109_password_fails : (Pool.run {} [.add (ftp "right") .waiting, .add (ftp "wrong") .waiting, .exec dns no fine]).map
    (fun w => w.conns.map fun c => (c.password, c.held)) = some [(tx "right", [0, 1])] := by decide +kernel

/-- C109: neither is the protocol: after an http request to the same port, an https request goes out in the clear. -/
theorem C109_https_fails : (Pool.run {} [.add ⟨tx "http", [], [], 8080⟩ .waiting, .add ⟨tx "https", [], [], 8080⟩ .waiting, .exec dns no fine]).map
    (fun w => w.conns.map fun c => (c.kind, c.held)) = some [(.http false, [0, 1])] := by decide +kernel

/-- C109: a URL of a protocol that WvUrl knows but the pool does not makes it use a NULL pointer. -/
theorem C109_protocol_fails : Pool.run {} [.add ⟨tx "sip", [], [], 5060⟩ .waiting, .exec dns no fine] = none := by decide +kernel

/-- C109: when the name service gives another address for a request that is being served, a connection is made that nobody needs. -/
theorem C109_address_fails : (Pool.run {} [.add (ftp "x") .waiting, .exec dns no fine, .exec (fun _ => .found ⟨10, 0, 0, 2⟩) no fine]).map
    (fun w => w.conns.map fun c => c.held) = some [[0], []] := by decide +kernel

end Props
