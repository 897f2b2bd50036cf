import Verif.Model.BusServer
import Verif.Lemmas.Num
/- Facts about the message bus (Model/BusServer). -/
namespace Wv.Bus
open Spec.Bus (Bytes Kind Val Msg Event Env unique owner here connects answers own)

theorem num_eq (n : Nat) : Num.ofUnsigned n = Spec.Bus.dec n := by
  rw [Num.ofUnsigned, Num.strrev_eq, Num.uitoar_eq]; rfl

theorem uniquename_eq (c : Nat) : uniquename c = unique c := by rw [uniquename, unique, num_eq]

theorem dec_inj {a b : Nat} (h : Spec.Bus.dec a = Spec.Bus.dec b) : a = b := by
  have ha := Num.digits_dec a []
  have hb := Num.digits_dec b []
  have e : ∀ n, Num.dec n = Spec.Bus.dec n := fun _ => rfl
  rw [e] at ha hb
  rw [h, hb] at ha
  simpa [Num.digits] using ha.symm

theorem unique_inj {a b : Nat} (h : unique a = unique b) : a = b := by
  unfold unique at h
  have h := List.cons.inj h
  exact dec_inj (List.append_cancel_right h.2)

theorem arg_eq (m : Msg) : arg m = m.name := by
  unfold arg Msg.name
  cases m.args with
  | nil => rfl
  | cons a l => cases a <;> simp [num_eq]

/-! ### The table of names -/

theorem lookup_ne {n k : Bytes} (h : n ≠ k) (v : Option Nat) (l : List (Bytes × Option Nat)) :
    ((k, v) :: l).lookup n = l.lookup n := by
  rw [List.lookup_cons, show (n == k) = false by simpa using h]

theorem lookup_eq (k : Bytes) (v : Option Nat) (l : List (Bytes × Option Nat)) : ((k, v) :: l).lookup k = some v := by
  rw [List.lookup_cons, show (k == k) = true by simp]

theorem lookup_filter (l : List (Bytes × Option Nat)) (a n : Bytes) :
    (l.filter (·.1 != a)).lookup n = if n = a then none else l.lookup n := by
  induction l with
  | nil => simp
  | cons x l ih =>
    obtain ⟨k, v⟩ := x
    by_cases hk : k = a
    · subst hk
      rw [List.filter_cons_of_neg (by simp), ih]
      by_cases hn : n = k
      · simp [hn]
      · simp only [hn, if_false]; rw [lookup_ne hn]
    · rw [List.filter_cons_of_pos (by simp [hk])]
      by_cases hn : n = k
      · subst hn; rw [lookup_eq, lookup_eq]; simp [hk]
      · rw [lookup_ne hn, lookup_ne hn, ih]

theorem lookup_mem (l : List (Bytes × Option Nat)) (k : Bytes) (v : Option Nat) (hn : (l.map (·.1)).Nodup) (h : (k, v) ∈ l) :
    l.lookup k = some v := by
  induction l with
  | nil => simp at h
  | cons x l ih =>
    obtain ⟨k', v'⟩ := x
    rw [List.map_cons, List.nodup_cons] at hn
    rcases List.mem_cons.mp h with h | h
    · cases h; exact lookup_eq _ _ _
    · have : k ≠ k' := fun e => hn.1 (by rw [← e]; exact List.mem_map.mpr ⟨_, h, rfl⟩)
      rw [lookup_ne this]
      exact ih hn.2 h

theorem mem_lookup (l : List (Bytes × Option Nat)) (k : Bytes) (v : Option Nat) (h : l.lookup k = some v) : (k, v) ∈ l := by
  induction l with
  | nil => simp at h
  | cons x l ih =>
    obtain ⟨k', v'⟩ := x
    by_cases e : k = k'
    · subst e; rw [lookup_eq] at h; cases h; exact List.mem_cons_self
    · rw [lookup_ne e] at h; exact List.mem_cons_of_mem _ (ih h)

def Keys (s : Server) : Prop := (s.names.map (·.1)).Nodup

theorem nodup_filter (l : List (Bytes × Option Nat)) (a : Bytes) (h : (l.map (·.1)).Nodup) :
    ((l.filter (·.1 != a)).map (·.1)).Nodup :=
  h.sublist (List.Sublist.map _ List.filter_sublist)

theorem erase_find (s : Server) (a n : Bytes) : (s.erase a).find n = if n = a then none else s.find n := by
  unfold Server.find Server.erase
  rw [lookup_filter]; split <;> rfl

theorem erase_keys (s : Server) (a : Bytes) (h : Keys s) : Keys (s.erase a) := nodup_filter _ _ h

theorem register_find (s : Server) (a n : Bytes) (c : Nat) :
    (s.registerName a c).find n = if n = a then some c else s.find n := by
  unfold Server.find Server.registerName
  dsimp only
  rw [List.lookup_cons]
  by_cases e : n = a
  · simp [e]
  · simp only [e, if_false, beq_iff_eq, Bool.false_eq_true]
    rw [show (n == a) = false by simp [e]]
    simp [lookup_filter, e]

theorem register_keys (s : Server) (a : Bytes) (c : Nat) (h : Keys s) : Keys (s.registerName a c) := by
  unfold Keys Server.registerName
  dsimp only
  rw [List.map_cons, List.nodup_cons]
  refine ⟨?_, nodup_filter _ _ h⟩
  intro hm
  obtain ⟨x, hx, he⟩ := List.mem_map.mp hm
  simp [he] at hx

/-- Looking a name up changes nothing that matters. -/
structure Same (s t : Server) : Prop where
  conns : t.conns = s.conns
  count : t.count = s.count
  serial : t.serial = s.serial
  closed : t.closed = s.closed
  find : ∀ n, t.find n = s.find n
  keys : Keys s → Keys t

theorem Same.refl (s : Server) : Same s s := ⟨rfl, rfl, rfl, rfl, fun _ => rfl, id⟩

theorem at_eq (s : Server) (a : Bytes) : (s.at a).1 = s.find a ∧ Same s (s.at a).2 := by
  unfold Server.at Server.find
  cases h : s.names.lookup a with
  | some c => exact ⟨rfl, Same.refl s⟩
  | none =>
    refine ⟨rfl, rfl, rfl, rfl, rfl, fun n => ?_, fun hk => ?_⟩
    · unfold Server.find
      dsimp only
      by_cases e : n = a
      · subst e; rw [lookup_eq, h]; rfl
      · rw [lookup_ne e]
    · unfold Keys
      dsimp only
      rw [List.map_cons, List.nodup_cons]
      refine ⟨fun hm => ?_, hk⟩
      obtain ⟨x, hx, he⟩ := List.mem_map.mp hm
      obtain ⟨k, v⟩ := x
      simp only at he
      rw [he] at hx
      rw [lookup_mem _ _ _ hk hx] at h
      cases h

theorem eraseConn_spec (c : Nat) : ∀ (k : Nat) (s : Server), s.names.length ≤ k → Keys s →
    (∀ n, (s.eraseConn c k).find n = if s.find n = some c then none else s.find n) ∧ Keys (s.eraseConn c k) ∧
      (s.eraseConn c k).conns = s.conns ∧ (s.eraseConn c k).count = s.count ∧ (s.eraseConn c k).serial = s.serial ∧
      (s.eraseConn c k).closed = s.closed := by
  intro k
  induction k with
  | zero =>
    intro s hl hk
    have : s.names = [] := List.length_eq_zero_iff.mp (by omega)
    refine ⟨fun n => ?_, hk, rfl, rfl, rfl, rfl⟩
    unfold Server.eraseConn Server.find
    simp [this]
  | succ k ih =>
    intro s hl hk
    unfold Server.eraseConn
    cases hf : s.names.find? (·.2 == some c) with
    | none =>
      refine ⟨fun n => ?_, hk, rfl, rfl, rfl, rfl⟩
      dsimp only
      rw [if_neg]
      intro hn
      unfold Server.find at hn
      cases hlk : s.names.lookup n with
      | none => rw [hlk] at hn; cases hn
      | some v =>
        rw [hlk] at hn
        have hv : v = some c := hn
        have := List.find?_eq_none.mp hf _ (mem_lookup _ _ _ hlk)
        simp [hv] at this
    | some x =>
      obtain ⟨name, v⟩ := x
      dsimp only
      have hm := List.mem_of_find?_eq_some hf
      have hv : v = some c := by have := List.find?_some hf; simpa using this
      subst hv
      have hlk := lookup_mem _ _ _ hk hm
      have hlen : (s.erase name).names.length < s.names.length := by
        unfold Server.erase
        dsimp only
        refine List.length_filter_lt_length_iff_exists.mpr ⟨_, hm, by simp⟩
      obtain ⟨h1, h2, h3⟩ := ih (s.erase name) (by omega) (erase_keys s name hk)
      refine ⟨fun n => ?_, h2, h3⟩
      rw [h1, erase_find]
      by_cases e : n = name
      · subst e
        have : s.find n = some c := by unfold Server.find; rw [hlk]; rfl
        simp [this]
      · simp [e]

/-! ### Histories -/

theorem bus_eq : sBus = Spec.Bus.bus := rfl

theorem here_le {h : List Event} {c : Nat} (hc : c ∈ here h) : 1 ≤ c ∧ c ≤ connects h ∧ Event.gone c ∉ h := by
  unfold here at hc
  rw [List.mem_filter] at hc
  obtain ⟨h1, h2⟩ := hc
  obtain ⟨i, hi, he⟩ := List.mem_map.mp h1
  rw [List.mem_range] at hi
  exact ⟨by omega, by omega, by simpa using h2⟩

theorem mem_here {h : List Event} {c : Nat} (h1 : 1 ≤ c) (h2 : c ≤ connects h) (h3 : Event.gone c ∉ h) : c ∈ here h := by
  unfold here
  rw [List.mem_filter]
  exact ⟨List.mem_map.mpr ⟨c - 1, List.mem_range.mpr (by omega), by omega⟩, by simpa using h3⟩

theorem here_nodup (h : List Event) : (here h).Nodup := by
  unfold here
  refine List.Nodup.sublist List.filter_sublist ?_
  unfold List.Nodup
  rw [List.pairwise_map]
  exact List.Pairwise.imp (fun hne => by omega) List.nodup_range

theorem connects_le (e : Event) (h : List Event) : connects h ≤ connects (e :: h) := by
  cases e <;> simp [connects]

/-- Only connections that were made are mentioned. -/
theorem proper_bound {h : List Event} (hp : Spec.Bus.Proper h) : ∀ c,
    (Event.gone c ∈ h ∨ Event.close c ∈ h ∨ ∃ n, owner h n = some c) → 1 ≤ c ∧ c ≤ connects h := by
  induction h with
  | nil => intro c hc; rcases hc with hc | hc | ⟨n, hc⟩ <;> cases hc
  | cons e h ih =>
    intro c hc
    have hle := connects_le e h
    have hp' : Spec.Bus.Proper h := by cases e <;> first | exact hp | exact hp.1
    have old : (Event.gone c ∈ h ∨ Event.close c ∈ h ∨ ∃ n, owner h n = some c) → 1 ≤ c ∧ c ≤ connects (e :: h) := by
      intro ho
      have := ih hp' c ho
      omega
    cases e with
    | connect =>
      rcases hc with hc | hc | ⟨n, hc⟩
      · simp at hc; exact old (Or.inl hc)
      · simp at hc; exact old (Or.inr (Or.inl hc))
      · unfold owner at hc
        split at hc
        · cases hc; exact ⟨by omega, Nat.le_refl _⟩
        · exact old (Or.inr (Or.inr ⟨n, hc⟩))
    | msg d m =>
      have hd := here_le hp.2
      rcases hc with hc | hc | ⟨n, hc⟩
      · simp at hc; exact old (Or.inl hc)
      · simp at hc; exact old (Or.inr (Or.inl hc))
      · unfold owner at hc
        split at hc
        · cases hc; exact ⟨hd.1, hd.2.1⟩
        · split at hc
          · cases hc
          · exact old (Or.inr (Or.inr ⟨n, hc⟩))
    | close d =>
      have hd := here_le hp.2
      rcases hc with hc | hc | ⟨n, hc⟩
      · simp at hc; exact old (Or.inl hc)
      · simp at hc
        rcases hc with rfl | hc
        · exact ⟨hd.1, hd.2.1⟩
        · exact old (Or.inr (Or.inl hc))
      · exact old (Or.inr (Or.inr ⟨n, hc⟩))
    | gone d =>
      have hd := here_le hp.2.1
      rcases hc with hc | hc | ⟨n, hc⟩
      · simp at hc
        rcases hc with rfl | hc
        · exact ⟨hd.1, hd.2.1⟩
        · exact old (Or.inl hc)
      · simp at hc; exact old (Or.inr (Or.inl hc))
      · unfold owner at hc
        split at hc
        · cases hc
        · exact old (Or.inr (Or.inr ⟨n, hc⟩))

theorem here_connect {h : List Event} (hp : Spec.Bus.Proper h) : here (.connect :: h) = here h ++ [connects h + 1] := by
  have hb : Event.gone (connects h + 1) ∉ h := fun hm => by have := proper_bound hp _ (Or.inl hm); omega
  unfold here
  rw [show connects (.connect :: h) = connects h + 1 from rfl, List.range_succ, List.map_append, List.filter_append]
  congr 1
  · simp
  · simp [hb]

theorem here_other {e : Event} {h : List Event} (h1 : connects (e :: h) = connects h) (h2 : ∀ c, e ≠ .gone c) :
    here (e :: h) = here h := by
  unfold here
  rw [h1]
  refine List.filter_congr fun c _ => ?_
  have := h2 c
  simp [Ne.symm this]

theorem here_gone (c : Nat) (h : List Event) : here (.gone c :: h) = (here h).erase c := by
  rw [List.Nodup.erase_eq_filter (here_nodup h)]
  unfold here
  rw [List.filter_filter, show connects (.gone c :: h) = connects h from rfl]
  refine List.filter_congr fun d _ => ?_
  by_cases e : d = c <;> simp [e]

/-- The owner of a name is there. -/
theorem owner_here {h : List Event} (hp : Spec.Bus.Proper h) (n : Bytes) (c : Nat) (ho : owner h n = some c) : c ∈ here h := by
  induction h generalizing n with
  | nil => cases ho
  | cons e h ih =>
    cases e with
    | connect =>
      have hp' : Spec.Bus.Proper h := hp
      rw [here_connect hp']
      unfold owner at ho
      split at ho
      · cases ho; simp
      · exact List.mem_append_left _ (ih hp n ho)
    | msg d m =>
      rw [here_other rfl (fun _ => by simp)]
      unfold owner at ho
      split at ho
      · cases ho; exact hp.2
      · split at ho
        · cases ho
        · exact ih hp.1 n ho
    | close d =>
      rw [here_other rfl (fun _ => by simp)]
      exact ih hp.1 n ho
    | gone d =>
      rw [here_gone]
      unfold owner at ho
      split at ho
      · cases ho
      · rename_i hne
        have : c ≠ d := fun e => hne (by rw [ho, e])
        exact (List.mem_erase_of_ne this).mpr (ih hp.1 n ho)

/-! ### The invariant -/

structure Inv (h : List Event) (s : Server) : Prop where
  count : s.count = connects h
  conns : s.conns = here h
  serial : s.serial = 1000 + answers h
  closed : ∀ c, c ∈ s.closed ↔ Event.close c ∈ h
  find : ∀ n, s.find n = owner h n
  keys : Keys s

theorem Inv.same {h : List Event} {s t : Server} (hi : Inv h s) (hs : Same s t) : Inv h t :=
  ⟨hs.count.trans hi.count, hs.conns.trans hi.conns, hs.serial.trans hi.serial, fun c => by rw [hs.closed]; exact hi.closed c,
    fun n => by rw [hs.find]; exact hi.find n, hs.keys hi.keys⟩

theorem send_eq {h : List Event} {s : Server} (hc : ∀ c, c ∈ s.closed ↔ Event.close c ∈ h) (c : Nat) (m : Msg) :
    s.send c m = Spec.Bus.deliver h [(c, m)] := by
  unfold Server.send Spec.Bus.deliver
  by_cases e : Event.close c ∈ h
  · rw [if_pos ((hc c).mpr e)]; simp [e]
  · rw [if_neg (fun x => e ((hc c).mp x))]; simp [e]

theorem inv_connect {h : List Event} {s : Server} (hp : Spec.Bus.Proper h) (hi : Inv h s) (e : Env) :
    ∃ t, s.step e .connect = some (t, []) ∧ Inv (.connect :: h) t := by
  refine ⟨_, rfl, ?_, ?_, hi.serial, ?_, ?_, ?_⟩
  · show s.count + 1 = _; rw [hi.count]; rfl
  · show s.conns ++ [s.count + 1] = _; rw [hi.conns, hi.count, here_connect hp]
  · intro c
    show c ∈ s.closed ↔ _
    rw [hi.closed]; simp
  · intro n
    rw [register_find, uniquename_eq, hi.count]
    unfold owner
    have : ({ s with count := connects h + 1, conns := s.conns ++ [connects h + 1] } : Server).find n = owner h n := hi.find n
    rw [this]
  · exact register_keys _ _ _ hi.keys

theorem inv_close {h : List Event} {s : Server} (hi : Inv h s) (e : Env) (c : Nat) :
    ∃ t, s.step e (.close c) = some (t, []) ∧ Inv (.close c :: h) t := by
  refine ⟨_, rfl, hi.count, ?_, hi.serial, ?_, hi.find, hi.keys⟩
  · rw [here_other rfl (fun _ => by simp)]; exact hi.conns
  · intro d
    show d ∈ c :: s.closed ↔ _
    rw [List.mem_cons, List.mem_cons, hi.closed]; simp

theorem inv_gone {h : List Event} {s : Server} (hi : Inv h s) (e : Env) (c : Nat) :
    ∃ t, s.step e (.gone c) = some (t, []) ∧ Inv (.gone c :: h) t := by
  obtain ⟨h1, h2, h3, h4, h5, h6⟩ := eraseConn_spec c s.names.length s (Nat.le_refl _) hi.keys
  refine ⟨_, rfl, ?_, ?_, ?_, ?_, ?_, ?_⟩
  · exact h4.trans hi.count
  · show (Server.eraseConn s c s.names.length).conns.erase c = _
    rw [h3, hi.conns, here_gone]
  · exact h5.trans hi.serial
  · intro d
    show d ∈ (Server.eraseConn s c s.names.length).closed ↔ _
    rw [h6, hi.closed]; simp
  · intro n
    show (Server.eraseConn s c s.names.length).find n = _
    rw [h1, hi.find]; rfl
  · exact h2

theorem owner_msg {h : List Event} {c : Nat} {m : Msg} (h1 : ¬ (m.dest = Spec.Bus.bus ∧ m.member = Spec.Bus.requestName))
    (h2 : ¬ (m.dest = Spec.Bus.bus ∧ m.member = Spec.Bus.releaseName)) (n : Bytes) : owner (.msg c m :: h) n = owner h n := by
  show (if _ then _ else _) = _
  rw [if_neg (fun x => h1 ⟨x.1, x.2.1⟩), if_neg (fun x => h2 ⟨x.1, x.2.1⟩)]

/-- What is left when the bus has made its answer. -/
structure Next (h : List Event) (s t : Server) : Prop where
  conns : t.conns = s.conns
  count : t.count = s.count
  serial : t.serial = s.serial
  closed : t.closed = s.closed
  find : ∀ n, t.find n = owner h n
  keys : Keys t

theorem Next.of_same {h g : List Event} {s t : Server} (hi : Inv h s) (hs : Same s t) (hg : ∀ n, owner g n = owner h n) :
    Next g s t :=
  ⟨hs.conns, hs.count, hs.serial, hs.closed, fun n => by rw [hs.find, hi.find, hg], hs.keys hi.keys⟩

theorem answer_spec {h : List Event} {s : Server} (hi : Inv h s) (e : Env) (c : Nat) (m : Msg) (hd : m.dest = Spec.Bus.bus)
    (hr : m.member = Spec.Bus.releaseName → owner h m.name = some c) :
    ∃ t, s.answer e c m = some (Spec.Bus.answer e h c m, t) ∧ Next (.msg c m :: h) s t := by
  obtain ⟨hat, hsame⟩ := at_eq s (arg m)
  rw [hi.find, show owner h (arg m) = owner h m.name by rw [arg_eq]] at hat
  unfold Server.answer Spec.Bus.answer
  by_cases e1 : m.member = sHello
  · have hg : ∀ n, owner (.msg c m :: h) n = owner h n :=
      owner_msg (fun x => by rw [x.2] at e1; revert e1; decide) (fun x => by rw [x.2] at e1; revert e1; decide)
    rw [if_pos e1]
    refine ⟨s, ?_, Next.of_same hi (Same.refl s) hg⟩
    dsimp only
    rw [if_pos (show m.member = Spec.Bus.hello from e1), uniquename_eq]; rfl
  rw [if_neg e1]
  dsimp only
  rw [if_neg (show ¬ m.member = Spec.Bus.hello from e1)]
  by_cases e2 : m.member = sRequestName
  · rw [if_pos e2, if_pos (show m.member = Spec.Bus.requestName from e2)]
    refine ⟨_, rfl, rfl, rfl, rfl, rfl, fun n => ?_, register_keys _ _ _ hi.keys⟩
    rw [register_find, hi.find, arg_eq]
    show _ = if _ then _ else _
    by_cases en : n = m.name
    · rw [if_pos en, if_pos ⟨hd, e2, en.symm⟩]
    · rw [if_neg en, if_neg (fun x => en x.2.2.symm), if_neg]
      rintro ⟨-, x, -⟩
      rw [x] at e2; revert e2; decide
  rw [if_neg e2, if_neg (show ¬ m.member = Spec.Bus.requestName from e2)]
  by_cases e3 : m.member = sReleaseName
  · rw [if_pos e3, if_pos (show m.member = Spec.Bus.releaseName from e3)]
    have ho := hr e3
    rw [ho]
    dsimp only
    rw [if_pos rfl]
    unfold Server.unregisterName
    cases hx : s.at (arg m) with
    | mk x t =>
      rw [hx] at hat hsame
      dsimp only at hat hsame ⊢
      rw [hat, ho, if_pos rfl]
      refine ⟨_, rfl, hsame.conns, hsame.count, hsame.serial, hsame.closed, fun n => ?_, erase_keys _ _ (hsame.keys hi.keys)⟩
      rw [erase_find, hsame.find, hi.find, arg_eq]
      show _ = if _ then _ else if _ then _ else _
      by_cases en : n = m.name
      · rw [if_pos en, if_neg (fun x => e2 x.2.1), if_pos ⟨hd, e3, en.symm⟩]
      · rw [if_neg en, if_neg (fun x => e2 x.2.1), if_neg (fun x => en x.2.2.symm)]
  rw [if_neg e3, if_neg (show ¬ m.member = Spec.Bus.releaseName from e3)]
  have hg : ∀ n, owner (.msg c m :: h) n = owner h n := owner_msg (fun x => e2 x.2) (fun x => e3 x.2)
  have n0 := Next.of_same hi (Same.refl s) hg
  have n1 := Next.of_same hi hsame hg
  cases hx : s.at (arg m) with
  | mk x t =>
    rw [hx] at hat n1
    dsimp only at hat n1 ⊢
    rw [hat]
    by_cases e4 : m.member = sNameHasOwner
    · rw [if_pos e4, if_pos (show m.member = Spec.Bus.nameHasOwner from e4)]
      exact ⟨t, rfl, n1⟩
    rw [if_neg e4, if_neg (show ¬ m.member = Spec.Bus.nameHasOwner from e4)]
    by_cases e5 : m.member = sGetNameOwner
    · rw [if_pos e5, if_pos (show m.member = Spec.Bus.getNameOwner from e5)]
      cases owner h m.name with
      | none => exact ⟨t, rfl, n1⟩
      | some d => exact ⟨t, by dsimp only; rw [uniquename_eq]; rfl, n1⟩
    rw [if_neg e5, if_neg (show ¬ m.member = Spec.Bus.getNameOwner from e5)]
    by_cases e6 : m.member = sAddMatch
    · rw [if_pos e6, if_pos (Or.inl (show m.member = Spec.Bus.addMatch from e6))]
      exact ⟨s, rfl, n0⟩
    rw [if_neg e6]
    by_cases e7 : m.member = sStart
    · rw [if_pos e7, if_pos (Or.inr (show m.member = Spec.Bus.startService from e7))]
      exact ⟨s, rfl, n0⟩
    rw [if_neg e7, if_neg (show ¬ (m.member = Spec.Bus.addMatch ∨ m.member = Spec.Bus.startService) from fun x => x.elim e6 e7)]
    by_cases e8 : m.member = sUnixUser
    · rw [if_pos (Or.inl e8), if_pos (show m.member = Spec.Bus.unixUser from e8)]
      cases (owner h m.name).bind e.uid with
      | none => exact ⟨t, rfl, n1⟩
      | some u =>
        dsimp only
        rw [if_pos e8]
        exact ⟨t, rfl, n1⟩
    rw [if_neg (show ¬ m.member = Spec.Bus.unixUser from e8)]
    by_cases e9 : m.member = sUnixUserName
    · rw [if_pos (Or.inr e9), if_pos (show m.member = Spec.Bus.unixUserName from e9)]
      cases (owner h m.name).bind e.uid with
      | none => exact ⟨t, rfl, n1⟩
      | some u =>
        dsimp only [Option.bind_some]
        rw [if_neg e8]
        cases e.user u with
        | none => exact ⟨t, rfl, n1⟩
        | some u => exact ⟨t, rfl, n1⟩
    rw [if_neg (fun x => x.elim e8 e9), if_neg (show ¬ m.member = Spec.Bus.unixUserName from e9)]
    by_cases e10 : m.member = sCert
    · have e11 : ¬ m.member = sCertFingerprint := by rw [e10]; decide
      rw [if_pos (Or.inl e10), if_pos (show m.member = Spec.Bus.cert from e10)]
      cases (owner h m.name).bind e.cert with
      | none => exact ⟨t, rfl, n1⟩
      | some u => exact ⟨t, by dsimp only; rw [if_neg e11]; rfl, n1⟩
    rw [if_neg (show ¬ m.member = Spec.Bus.cert from e10)]
    by_cases e11 : m.member = sCertFingerprint
    · rw [if_pos (Or.inr e11), if_pos (show m.member = Spec.Bus.certFingerprint from e11)]
      cases (owner h m.name).bind e.cert with
      | none => exact ⟨t, rfl, n1⟩
      | some u => exact ⟨t, by dsimp only; rw [if_pos e11]; rfl, n1⟩
    rw [if_neg (fun x => x.elim e10 e11), if_neg (show ¬ m.member = Spec.Bus.certFingerprint from e11)]
    exact ⟨s, rfl, n0⟩

theorem answer_bad {h : List Event} {s : Server} (hi : Inv h s) (e : Env) (c : Nat) (m : Msg)
    (hr : m.member = Spec.Bus.releaseName) (ho : owner h m.name ≠ some c) : s.answer e c m = none := by
  obtain ⟨hat, -⟩ := at_eq s (arg m)
  rw [arg_eq, hi.find] at hat
  unfold Server.answer
  rw [if_neg (show ¬ m.member = sHello by rw [hr]; decide), if_neg (show ¬ m.member = sRequestName by rw [hr]; decide),
    if_pos (show m.member = sReleaseName from hr)]
  unfold Server.unregisterName
  rw [arg_eq]
  dsimp only
  rw [hat, if_neg ho]; rfl

theorem deliver_flatMap (h : List Event) (l : List Nat) (m : Msg) :
    (l.flatMap fun d => Spec.Bus.deliver h [(d, m)]) = Spec.Bus.deliver h (l.map (·, m)) := by
  induction l with
  | nil => rfl
  | cons d l ih =>
    rw [List.flatMap_cons, ih, List.map_cons]
    unfold Spec.Bus.deliver
    rw [← List.filter_append]; rfl

theorem inv_msg {h : List Event} {s : Server} (hi : Inv h s) (e : Env) (c : Nat) (m : Msg)
    (hr : m.dest = Spec.Bus.bus ∧ m.member = Spec.Bus.releaseName → owner h m.name = some c) :
    ∃ t, s.step e (.msg c m) = some (t, Spec.Bus.deliver h (Spec.Bus.out e h c m)) ∧ Inv (.msg c m :: h) t := by
  have hhere : here (.msg c m :: h) = here h := here_other rfl (fun _ => by simp)
  have hcl : ∀ {t : Server}, t.closed = s.closed → ∀ d, d ∈ t.closed ↔ Event.close d ∈ Event.msg c m :: h := by
    intro t ht d
    rw [ht, hi.closed]; simp
  show ∃ t, s.message e c m = _ ∧ _
  unfold Server.message Spec.Bus.out
  by_cases en : m.isNotice
  · rw [if_pos (show m.path = sLocal ∧ m.member = sDisconnected from en), if_pos en]
    have ho : ¬ own h m = true := by simp [own, en]
    have hg : ∀ n, owner (.msg c m :: h) n = owner h n :=
      owner_msg (fun x => by have := en.2; rw [x.2] at this; revert this; decide)
        (fun x => by have := en.2; rw [x.2] at this; revert this; decide)
    refine ⟨s, rfl, hi.count, by rw [hhere]; exact hi.conns, ?_, hcl rfl, fun n => by rw [hg]; exact hi.find n, hi.keys⟩
    rw [hi.serial, answers]
    simp [ho]
  rw [if_neg (show ¬ (m.path = sLocal ∧ m.member = sDisconnected) from en), if_neg en]
  by_cases ed : m.dest = Spec.Bus.bus
  · have ho : own h m = true := by simp [own, en, ed]
    rw [if_pos (show m.dest = sBus from ed), if_pos ed, if_pos ho]
    obtain ⟨t, h1, h2⟩ := answer_spec hi e c m ed (fun x => hr ⟨ed, x⟩)
    rw [h1]
    refine ⟨{ t with serial := t.serial + 1 }, ?_, h2.count.trans hi.count, ?_, ?_, hcl h2.closed, h2.find, h2.keys⟩
    · rw [Option.map_some]
      unfold Server.number
      dsimp only
      rw [send_eq (h := h) (fun d => by show d ∈ t.closed ↔ _; rw [h2.closed]; exact hi.closed d)]
      rw [h2.serial, hi.serial, show 1000 + answers h + 1 = 1001 + answers h by omega]
      rfl
    · rw [hhere]; exact h2.conns.trans hi.conns
    · show t.serial + 1 = _
      rw [h2.serial, hi.serial, answers, ho]; rfl
  have hg : ∀ n, owner (.msg c m :: h) n = owner h n := owner_msg (fun x => ed x.1) (fun x => ed x.1)
  rw [if_neg (show ¬ m.dest = sBus from ed), if_neg ed]
  by_cases ez : m.dest = []
  · have ho : ¬ own h m = true := by simp [own, ed, ez]; intro _ x; cases x
    rw [if_neg (fun x => x ez), if_neg ho]
    refine ⟨s, ?_, hi.count, by rw [hhere]; exact hi.conns, ?_, hcl rfl, fun n => by rw [hg]; exact hi.find n, hi.keys⟩
    · unfold Spec.Bus.route
      rw [if_pos ez, ← deliver_flatMap, hi.conns]
      simp only [send_eq hi.closed]
    · rw [hi.serial, answers]
      simp [ho]
  rw [if_pos ez]
  unfold Spec.Bus.route
  rw [if_neg ez]
  dsimp only
  rw [hi.find]
  cases hw : owner h m.dest with
  | some d =>
    have ho : ¬ own h m = true := by simp [own, ed, hw]
    rw [if_neg ho]
    refine ⟨s, ?_, hi.count, by rw [hhere]; exact hi.conns, ?_, hcl rfl, fun n => by rw [hg]; exact hi.find n, hi.keys⟩
    · dsimp only
      rw [send_eq hi.closed, uniquename_eq]
    · rw [hi.serial, answers]
      simp [ho]
  | none =>
    have ho : own h m = true := by simp [own, ed, hw, en, ez]
    rw [if_pos ho]
    refine ⟨{ s with serial := s.serial + 1 }, ?_, hi.count, by rw [hhere]; exact hi.conns, ?_, hcl rfl,
      fun n => by rw [hg]; exact hi.find n, hi.keys⟩
    · unfold Server.number
      dsimp only
      rw [send_eq (h := h) (s := { s with serial := s.serial + 1 }) hi.closed, hi.serial, uniquename_eq, show 1000 + answers h + 1 = 1001 + answers h by omega]
      rfl
    · show s.serial + 1 = _
      rw [hi.serial, answers, ho]; rfl

theorem inv_nil : Inv [] {} :=
  ⟨rfl, rfl, rfl, fun c => by simp, fun n => rfl, List.nodup_nil⟩

/-- The bus follows the history. -/
theorem run_inv (e : Env) : ∀ (h : List Event), Spec.Bus.Proper h → Spec.Bus.ReleasesOk h → ∃ s l, Server.run e h = some (s, l) ∧ Inv h s := by
  intro h
  induction h with
  | nil => intro _ _; exact ⟨_, _, rfl, inv_nil⟩
  | cons x h ih =>
    intro hp hr
    have hp' : Spec.Bus.Proper h := by cases x <;> first | exact hp | exact hp.1
    have hr' : Spec.Bus.ReleasesOk h := by cases x <;> first | exact hr | exact hr.1
    obtain ⟨s, l, hs, hi⟩ := ih hp' hr'
    unfold Server.run
    rw [hs, Option.bind_some]
    dsimp only
    cases x with
    | connect => obtain ⟨t, h1, h2⟩ := inv_connect hp' hi e; exact ⟨t, _, h1, h2⟩
    | msg c m =>
      obtain ⟨t, h1, h2⟩ := inv_msg hi e c m (fun y => hr.2 y)
      exact ⟨t, _, h1, h2⟩
    | close c => obtain ⟨t, h1, h2⟩ := inv_close hi e c; exact ⟨t, _, h1, h2⟩
    | gone c => obtain ⟨t, h1, h2⟩ := inv_gone hi e c; exact ⟨t, _, h1, h2⟩

theorem run_bad (e : Env) : ∀ (h : List Event), Spec.Bus.Proper h → ¬ Spec.Bus.ReleasesOk h → Server.run e h = none := by
  intro h
  induction h with
  | nil => intro _ hr; exact absurd trivial hr
  | cons x h ih =>
    intro hp hr
    have hp' : Spec.Bus.Proper h := by cases x <;> first | exact hp | exact hp.1
    by_cases hr' : Spec.Bus.ReleasesOk h
    · obtain ⟨s, l, hs, hi⟩ := run_inv e h hp' hr'
      unfold Server.run
      rw [hs, Option.bind_some]
      dsimp only
      cases x with
      | connect => exact absurd hr' hr
      | close c => exact absurd hr' hr
      | gone c => exact absurd hr' hr
      | msg c m =>
        have hb : m.dest = Spec.Bus.bus ∧ m.member = Spec.Bus.releaseName ∧ owner h m.name ≠ some c := by
          refine Decidable.byContradiction fun hn => hr ⟨hr', fun y => Decidable.byContradiction fun z => hn ⟨y.1, y.2, z⟩⟩
        show s.message e c m = none
        unfold Server.message
        rw [if_neg (fun y => by have := y.2; rw [hb.2.1] at this; revert this; decide), if_pos (show m.dest = sBus from hb.1),
          answer_bad hi e c m hb.2.1 hb.2.2]
        rfl
    · unfold Server.run
      rw [ih hp' hr']; rfl

end Wv.Bus
