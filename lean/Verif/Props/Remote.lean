import Verif.Lemmas.Remote
/- C56: a configuration used through a client and a daemon. -/
namespace Props
open Wv Wv.Tcl Wv.UniConn Spec.Conf Spec.Remote Gens
open Spec.UniConn (Msg CStrings GoodEnd withoutBadEnd)

namespace Rem
open Wv.Remote
open Wv.TempGen (Value)
open Wv.Key (fold mk Names)
open Spec.Walk (Closed)

/-- Messages the client did not ask for. -/
def Reply.event : Reply → Bool
  | .hello => true
  | .notice _ _ => true
  | _ => false

/-- The replies that give an answer, when the client has already made a list. -/
def Owes : Op → Option (List (Key × Value)) → List Reply → Ans → Prop
  | .get k, _, L, a => (L = [.fail] ∧ a = .value none) ∨ ∃ v, L = [.oneval (written k) v] ∧ a = .value (some v)
  | .haschildren k, _, L, a => ∃ b, L = [.child (written k) b] ∧ a = .flag b
  | .iterator _, acc, L, a => (L = [.fail] ∧ a = .list none) ∨ ∃ (l : List (Key × Value)) (vals : List (List Byte × List Byte)), acc = some l ∧ L = (vals.map fun x => .val x.1 x.2) ++ [.ok] ∧
      a = .list (some ((l.map fun x => (Key.printable x.1, x.2)) ++ vals.map fun x => (Key.printable (Key.parse x.1), x.2)))
  | .commit, _, L, a => L = [.ok] ∧ a = .done
  | .refresh, _, L, a => (L = [.ok] ∧ a = .flag true) ∨ (L = [.fail] ∧ a = .flag false)
  | _, _, _, _ => False

def begun : Op → Option (List (Key × Value))
  | .iterator _ => some []
  | _ => none

theorem parse_written (k : Text) : Key.parse (written k) = Key.parse k := by
  rw [written, Key.parse_write _ _ (Key.names_ok k) (Key.dir_names k), Key.parse_eq]

theorem lower_zero (c : Byte) : Spec.Path.lower c = 0 ↔ c = 0 := by
  revert c; apply forall_byte; decide +kernel

theorem zero_lower (n : List Byte) : 0 ∉ n.map Spec.Path.lower ↔ 0 ∉ n := by
  simp only [List.mem_map, not_exists, not_and]
  constructor
  · intro h h0; exact h 0 h0 ((lower_zero 0).mpr rfl)
  · intro h c hc e; exact h ((lower_zero c).mp e ▸ hc)

theorem join_mem (c : Byte) (ns : List Seg) (n : Seg) (hn : n ∈ ns) (hc : c ∈ n) : c ∈ Spec.Split.join [Spec.Path.slash] ns := by
  induction ns with
  | nil => simp at hn
  | cons a ns ih =>
    cases ns with
    | nil => simp at hn; subst hn; simpa [Spec.Split.join] using hc
    | cons b ns =>
      have e : Spec.Split.join [Spec.Path.slash] (a :: b :: ns) = a ++ Spec.Path.slash :: Spec.Split.join [Spec.Path.slash] (b :: ns) := by
        simp [Spec.Split.join]
      rw [e]
      rcases List.mem_cons.mp hn with rfl | hn
      · simp [hc]
      · have := ih hn
        simp [this]

/-- a key that can be sent stands for names that can -/
theorem place_zero (k : Text) (h : 0 ∉ written k) : ∀ n ∈ place k, 0 ∉ n := by
  intro n hn
  obtain ⟨x, hx, rfl⟩ := List.mem_map.mp hn
  rw [zero_lower]
  intro h0
  exact h (List.mem_append_left _ (join_mem 0 _ _ hx h0))

theorem sane_set (m : Spec.Conf.State) (h : Spec.Remote.Sane m) (k : Text) (v : Option Text) (hk : 0 ∉ written k) (hv : ∀ x, v = some x → Fits x) :
    Spec.Remote.Sane (Spec.Conf.set m k v) := by
  intro q x hq
  cases v with
  | none =>
    simp only [Spec.Conf.set] at hq
    split at hq
    · cases hq
    · exact h q x hq
  | some v =>
    simp only [Spec.Conf.set] at hq
    split at hq
    · exact h q x hq
    · dsimp only at hq
      split at hq
      · rename_i e
        subst e
        simp only [Option.some.injEq] at hq
        subst hq
        exact ⟨hv _ rfl, place_zero k hk⟩
      · split at hq
        · rename_i hp
          simp only [Option.some.injEq] at hq
          subst hq
          refine ⟨?_, fun n hn => place_zero k hk n (hp.subset hn)⟩
          cases hm : m q with
          | none => exact ⟨by simp, by simp⟩
          | some y => exact (h q y hm).1
        · exact h q x hq

theorem sane_effect (m : Spec.Conf.State) (h : Spec.Remote.Sane m) (op : Op) (hp : Plain op) : Spec.Remote.Sane (effect m op) := by
  cases op with
  | set k v => exact sane_set m h k (some v) hp.1.1 (by intro x hx; cases hx; exact hp.2)
  | remove k => exact sane_set m h k none hp.1.1 (by intro x hx; cases hx)
  | _ => exact h

theorem closed_effect (m : Spec.Conf.State) (h : Closed m) (op : Op) : Closed (effect m op) := by
  cases op with
  | set k v => exact Rec.set_closed m h k (some v)
  | remove k => exact Rec.set_closed m h k none
  | _ => exact h

theorem bytes_msg (r : Reply) (h : match r with | .ok => False | .fail => False | _ => True) : r.bytes = Uc.body r.msg ++ [10] := by
  cases r <;> first | rfl | exact absurd h id

theorem bytes_two (r : Reply) (c : Fin 19) (a b : List Byte) (h : match r with | .ok => False | .fail => False | _ => True)
    (hm : r.msg = (c, [a, b])) : r.bytes = writecmd c (some (spacecat (escape spaces a) (escape spaces b))) := by
  rw [bytes_msg r h, hm, ← Uc.writecmd_body]
  rfl

theorem good_two (r : Reply) (c : Fin 19) (a b : List Byte) (hm : r.msg = (c, [a, b])) (ha : 0 ∉ a) (hb : Fits b) : r.Good := by
  unfold Reply.Good
  rw [hm]
  refine ⟨fun x hx => ?_, fun x hx => ?_⟩
  · simp at hx
    rcases hx with rfl | rfl
    · exact ha
    · exact hb.1
  · simp at hx; subst hx; exact hb.2

theorem truth_fits (b : Bool) : Fits (truth b) := by cases b <;> exact ⟨by decide +kernel, by decide +kernel⟩

theorem truth_escape (b : Bool) : escape spaces (truth b) = truth b := by cases b <;> decide +kernel

theorem good_ok : Reply.Good .ok := ⟨by intro x hx; simp [Reply.msg] at hx, by intro x hx; simp [Reply.msg] at hx⟩
theorem good_fail : Reply.Good .fail := ⟨by intro x hx; simp [Reply.msg] at hx, by intro x hx; simp [Reply.msg] at hx⟩

theorem hello_bytes : hello = Reply.bytes .hello := by
  rw [bytes_two .hello 17 _ _ trivial rfl]
  rfl

theorem good_hello : Reply.Good .hello := good_two .hello 17 _ _ rfl (by decide +kernel) ⟨by decide +kernel, by decide +kernel⟩

theorem subkey_join (k : Text) (hd : Spec.Path.dir k = false) (n : Seg) (hn : n ≠ [] ∧ Spec.Path.slash ∉ n) :
    Key.subkey (Key.parse k) (Key.join (Key.parse k) [n]) = some [n] := by
  have hns : Names [n] := by simpa [Names] using hn
  have hj := Key.join_mk (Spec.Path.names k) [n] (Spec.Path.dir k) false (Key.names_ok k) hns (by simp)
  have e0 : mk [n] false = [n] := by simp [mk]
  rw [e0] at hj
  have hj2 : Key.join (mk (Spec.Path.names k) (Spec.Path.dir k)) [n] = mk (Spec.Path.names k ++ [n]) false := by rw [hj]; simp
  have hna := (Key.names_ok k).append hns
  rw [Key.parse_eq k, hj2, hd]
  unfold Key.subkey Key.suborsameKey
  have h1 : (if Key.hastrailingslash (mk (Spec.Path.names k) false) then Key.numsegments (mk (Spec.Path.names k) false) - 1
      else Key.numsegments (mk (Spec.Path.names k) false)) = (Spec.Path.names k).length := by
    rw [Key.trailing_mk _ _ (Key.names_ok k)]
    simp [Key.numsegments, mk]
  simp only [h1]
  rw [Key.first_mk _ _ hna (by simp) _ (by simp), Key.first_mk _ _ (Key.names_ok k) (by simp) _ (by simp), Key.removefirst_mk _ _ hna (by simp)]
  have h2 : Key.eq (List.take (Spec.Path.names k).length (Spec.Path.names k ++ [n])) (List.take (Spec.Path.names k).length (Spec.Path.names k)) = true := by
    simp only [List.take_left', List.take_length]
    have := (Key.eq_mk (Spec.Path.names k) (Spec.Path.names k) false false (Key.names_ok k) (Key.names_ok k)).mpr ⟨rfl, rfl⟩
    simpa [mk] using this
  rw [h2]
  simp [mk]

section
variable {σ : Type} (I : IGen σ) (Rep : σ → Spec.Conf.State → Prop) (hI : Behaves I Rep)
include hI

/-- What the daemon does with a request. -/
theorem serve_spec (s : σ) (m : Spec.Conf.State) (hs : Rep s m) (hc : Closed m) (hm : Sane m) (op : Op) (hp : Plain op) :
    ∃ N s' L, (∀ n, N ≤ n → serve I n s (.cmd (reqMsg op).1) (name (reqMsg op).1) (reqMsg op).2.head? (reqMsg op).2[1]? = (s', L.map Reply.bytes)) ∧
      Rep s' (effect m op) ∧ (∀ r ∈ L, r.Good ∧ r.event = false) ∧
      (asks op = true → ∃ a, Right m op a ∧ Owes op (begun op) L a) ∧ (asks op = false → L = []) := by
  have hr := hI.reads s m hs
  cases op with
  | get k =>
    have hp : Fits (written k) := hp
    have hg := hr.get k
    have e : ∀ n, serve I n s (.cmd (reqMsg (.get k)).1) (name (reqMsg (.get k)).1) (reqMsg (.get k)).2.head? (reqMsg (.get k)).2[1]? =
        match I.get s (Key.parse (written k)) with
        | none => (s, [writefail []])
        | some v => (s, [writeonevalue (Key.printable (Key.parse (written k))) v]) := fun n => rfl
    simp only [e, parse_written, hg, printable_written]
    cases hv : Spec.Conf.get m k with
    | none =>
      refine ⟨0, s, [.fail], fun n _ => rfl, hs, ?_, ?_, by simp [asks]⟩
      · intro r hr; simp at hr; subst hr; exact ⟨good_fail, rfl⟩
      · intro _; exact ⟨.value none, hv.symm, Or.inl ⟨rfl, rfl⟩⟩
    | some v =>
      have hf : Fits v := by
        unfold Spec.Conf.get at hv
        split at hv
        · cases hv
        · exact (hm _ _ hv).1
      refine ⟨0, s, [.oneval (written k) v], fun n _ => ?_, hs, ?_, ?_, by simp [asks]⟩
      · rw [List.map_cons, bytes_two (.oneval (written k) v) 14 _ _ trivial rfl]
        rfl
      · intro r hr; simp at hr; subst hr; exact ⟨good_two _ 14 _ _ rfl hp.1 hf, rfl⟩
      · intro _; exact ⟨.value (some v), hv.symm, Or.inr ⟨v, rfl, rfl⟩⟩
  | set k v =>
    have e : ∀ n, serve I n s (.cmd (reqMsg (.set k v)).1) (name (reqMsg (.set k v)).1) (reqMsg (.set k v)).2.head? (reqMsg (.set k v)).2[1]? =
        (I.set s (Key.parse (written k)) (some v), []) := fun n => rfl
    simp only [e, parse_written]
    exact ⟨0, _, [], fun n _ => rfl, hI.set s m hs k (some v), by simp, by simp [asks], by simp⟩
  | remove k =>
    have e : ∀ n, serve I n s (.cmd (reqMsg (.remove k)).1) (name (reqMsg (.remove k)).1) (reqMsg (.remove k)).2.head? (reqMsg (.remove k)).2[1]? =
        (doRemove I n s (Key.parse (written k)), []) := fun n => rfl
    simp only [e, parse_written]
    obtain ⟨N, s', h1, h2⟩ := doRemove_spec I Rep hI s m hs hc k hp
    exact ⟨N, s', [], fun n hn => by rw [h1 n hn]; rfl, h2, by simp, by simp [asks], by simp⟩
  | haschildren k =>
    have hp : Fits (written k) := hp
    have hg := hr.haschildren k
    have e : ∀ n, serve I n s (.cmd (reqMsg (.haschildren k)).1) (name (reqMsg (.haschildren k)).1) (reqMsg (.haschildren k)).2.head?
        (reqMsg (.haschildren k)).2[1]? =
        (s, [writecmd 13 (some (spacecat (Tcl.escape Tcl.spaces (Key.printable (Key.parse (written k)))) (truth (I.haschildren s (Key.parse (written k))))))]) :=
      fun n => rfl
    simp only [e, parse_written, printable_written]
    refine ⟨0, s, [.child (written k) (I.haschildren s (Key.parse k))], fun n _ => ?_, hs, ?_, ?_, by simp [asks]⟩
    · rw [List.map_cons, bytes_two (.child (written k) _) 13 _ _ trivial rfl, truth_escape]
      rfl
    · intro r hr; simp at hr; subst hr; exact ⟨good_two _ 13 _ _ rfl hp.1 (truth_fits _), rfl⟩
    · intro _; exact ⟨.flag (I.haschildren s (Key.parse k)), hg, _, rfl, rfl⟩
  | iterator k =>
    obtain ⟨hp, hd⟩ := hp
    have e : ∀ n, serve I n s (.cmd (reqMsg (.iterator k)).1) (name (reqMsg (.iterator k)).1) (reqMsg (.iterator k)).2.head?
        (reqMsg (.iterator k)).2[1]? = (s, doSubtree I s (Key.parse (written k))) := fun n => rfl
    simp only [e, parse_written]
    have hex := hr.exists_ k
    have hget : Spec.Conf.get m k = m (place k) := by simp [Spec.Conf.get, hd]
    rw [hget] at hex
    by_cases hz : m (place k) = none
    · have hf : I.exists s (Key.parse k) = false := Bool.eq_false_iff.mpr fun h => hex.mp h hz
      refine ⟨0, s, [.fail], fun n _ => ?_, hs, ?_, ?_, by simp [asks]⟩
      · simp only [doSubtree, hf, Bool.false_eq_true, if_false]; rfl
      · intro r hr; simp at hr; subst hr; exact ⟨good_fail, rfl⟩
      · intro _; exact ⟨.list none, hz, Or.inl ⟨rfl, rfl⟩⟩
    · have ht : I.exists s (Key.parse k) = true := hex.mpr hz
      have hit := hr.iterator k
      cases hi : I.iterator s (Key.parse k) with
      | none =>
        rw [hi] at hit
        exact absurd (by simpa using hit []) hz
      | some r =>
        rw [hi] at hit
        obtain ⟨i1, i2, i3⟩ := hit
        -- names and values
        have hvals : ∃ vals : List (Seg × Text), r = vals.map (fun x => ([x.1], some x.2)) ∧ ∀ x ∈ vals, x.1 ≠ [] ∧ Spec.Path.slash ∉ x.1 := by
          clear i1 i3 hi
          induction r with
          | nil => exact ⟨[], rfl, by simp⟩
          | cons z r ih =>
            obtain ⟨vals, h1, h2⟩ := ih fun x hx => i2 x (by simp [hx])
            obtain ⟨⟨n, e, hn⟩, hv⟩ := i2 z (by simp)
            obtain ⟨v, hv⟩ := Option.ne_none_iff_exists'.mp hv
            refine ⟨(n, v) :: vals, ?_, ?_⟩
            · obtain ⟨z1, z2⟩ := z
              simp only at e hv
              simp [h1, e, hv]
            · intro x hx
              rcases List.mem_cons.mp hx with rfl | hx
              · exact hn
              · exact h2 x hx
        obtain ⟨vals, hvals, hnames⟩ := hvals
        have hpr : ∀ x ∈ vals, Key.printable (Key.parse x.1) = x.1 := by
          intro x hx
          have hns : Names [x.1] := by simpa [Names] using hnames x hx
          rw [Key.parse_eq, Key.names_one _ (hnames x hx)]
          have : Spec.Path.dir x.1 = false := by
            have := Key.dir_write [x.1] false hns (by simp)
            simpa [Spec.Path.write, Spec.Split.join] using this
          rw [this]
          have := Key.printable_mk [x.1] false (by simp)
          rw [this]
          simp [Spec.Path.write, Spec.Split.join]
        have hpr1 : ∀ x ∈ vals, Key.printable [x.1] = x.1 := by
          intro x hx
          have := Key.printable_mk [x.1] false (by simp)
          simpa [mk, Spec.Path.write, Spec.Split.join] using this
        have hin : ∀ x ∈ vals, m (place k ++ [x.1.map tolower]) = some x.2 := by
          intro x hx
          refine (i3 _ _).mpr ⟨([x.1], some x.2), ?_, rfl, rfl⟩
          rw [hvals]
          exact List.mem_map.mpr ⟨x, hx, rfl⟩
        refine ⟨0, s, (vals.map fun x => .val x.1 x.2) ++ [.ok], fun n _ => ?_, hs, ?_, ?_, by simp [asks]⟩
        · simp only [doSubtree, ht, if_true, hi, Option.getD_some, hvals, List.map_append, List.map_map, List.map_cons, List.map_nil]
          congr 1
          congr 1
          apply List.map_congr_left
          intro x hx
          simp only [Function.comp]
          rw [subkey_join k hd x.1 (hnames x hx), Option.getD_some, hpr1 x hx, bytes_two (.val x.1 x.2) 15 _ _ trivial rfl]
          rfl
        · intro y hy
          rcases List.mem_append.mp hy with hy | hy
          · obtain ⟨x, hx, rfl⟩ := List.mem_map.mp hy
            have := hm _ _ (hin x hx)
            refine ⟨good_two _ 15 _ _ rfl ?_ this.1, rfl⟩
            have h0 := this.2 (x.1.map tolower) (by simp)
            exact (zero_lower x.1).mp h0
          · simp at hy; subst hy; exact ⟨good_ok, rfl⟩
        · intro _
          refine ⟨_, ?_, Or.inr ⟨[], vals, rfl, rfl, rfl⟩⟩
          have e2 : (vals.map fun x => (Key.printable (Key.parse x.1), x.2)) = vals := by
            have := List.map_congr_left (f := fun x : Seg × Text => (Key.printable (Key.parse x.1), x.2)) (g := id) (l := vals) fun x hx => by
              simp only [hpr x hx, id]
            rw [this, List.map_id]
          show m (place k) ≠ none ∧ _
          refine ⟨hz, ?_⟩
          rw [List.map_nil, List.nil_append, e2]
          have ef : ∀ x ∈ vals, fold [x.1] = [x.1.map Spec.Path.lower] := fun x _ => rfl
          refine ⟨?_, ?_⟩
          · rw [hvals, List.map_map] at i1
            have : (List.map ((fun x : Key × Option Value => fold x.1) ∘ fun x : Seg × Text => ([x.1], some x.2)) vals) =
                (vals.map fun x => x.1.map Spec.Path.lower).map fun n => [n] := by
              rw [List.map_map]; rfl
            rw [this] at i1
            exact (List.pairwise_map.mp i1).imp fun h e => h (by rw [e])
          · intro n v
            rw [i3, hvals]
            constructor
            · rintro ⟨x, hx, h1, h2⟩
              obtain ⟨y, hy, rfl⟩ := List.mem_map.mp hx
              refine ⟨y, hy, ?_, by simpa using h2⟩
              have : [y.1.map Spec.Path.lower] = [n] := h1
              simpa using this
            · rintro ⟨y, hy, h1, h2⟩
              refine ⟨_, List.mem_map.mpr ⟨y, hy, rfl⟩, ?_, by simp [h2]⟩
              show [y.1.map Spec.Path.lower] = [n]
              rw [h1]
  | commit =>
    have e : ∀ n, serve I n s (.cmd (reqMsg .commit).1) (name (reqMsg .commit).1) (reqMsg .commit).2.head? (reqMsg .commit).2[1]? =
        (I.commit s, [writeok []]) := fun n => rfl
    refine ⟨0, _, [.ok], fun n _ => by rw [e]; rfl, hI.commit s m hs, ?_, ?_, by simp [asks]⟩
    · intro r hr; simp at hr; subst hr; exact ⟨good_ok, rfl⟩
    · intro _; exact ⟨.done, trivial, rfl, rfl⟩
  | refresh =>
    have e : ∀ n, serve I n s (.cmd (reqMsg .refresh).1) (name (reqMsg .refresh).1) (reqMsg .refresh).2.head? (reqMsg .refresh).2[1]? =
        ((I.refresh s).1, [if (I.refresh s).2 then writeok [] else writefail []]) := fun n => rfl
    cases hb : (I.refresh s).2 with
    | true =>
      refine ⟨0, _, [.ok], fun n _ => by rw [e, hb]; rfl, hI.refresh s m hs, ?_, ?_, by simp [asks]⟩
      · intro r hr; simp at hr; subst hr; exact ⟨good_ok, rfl⟩
      · intro _; exact ⟨.flag true, trivial, Or.inl ⟨rfl, rfl⟩⟩
    | false =>
      refine ⟨0, _, [.fail], fun n _ => by rw [e, hb]; rfl, hI.refresh s m hs, ?_, ?_, by simp [asks]⟩
      · intro r hr; simp at hr; subst hr; exact ⟨good_fail, rfl⟩
      · intro _; exact ⟨.flag false, trivial, Or.inr ⟨rfl, rfl⟩⟩

end

/-! Histories -/

theorem after_append (m : Spec.Conf.State) (h g : List Event) : after m (h ++ g) = after (after m h) g := by
  induction h generalizing m with
  | nil => rfl
  | cons e h ih => cases e <;> exact ih _

theorem own_append (h g : List Event) : own (h ++ g) = own h ++ own g := by
  induction h with
  | nil => rfl
  | cons e h ih => cases e <;> simp [own, ih]

theorem others_append (h g : List Event) : others (h ++ g) = others h ++ others g := by
  induction h with
  | nil => rfl
  | cons e h ih => cases e <;> simp [others, ih]

theorem explains_append (m : Spec.Conf.State) (h g : List Event) (l r : List Ans) (h1 : Explains m h l) (h2 : Explains (after m h) g r) :
    Explains m (h ++ g) (l ++ r) := by
  induction h generalizing m l with
  | nil => simp only [Explains] at h1; subst h1; exact h2
  | cons e h ih =>
    cases e with
    | own op =>
      simp only [Explains, List.cons_append] at h1 ⊢
      cases ha : asks op with
      | true =>
        simp only [ha, if_true] at h1 ⊢
        obtain ⟨a, r', rfl, h3, h4⟩ := h1
        refine ⟨a, r' ++ r, rfl, h3, ih _ _ h4 ?_⟩
        have : effect m op = m := by cases op <;> first | rfl | (simp [asks] at ha)
        rw [after, this] at h2
        exact h2
      | false =>
        simp only [ha, Bool.false_eq_true, if_false] at h1 ⊢
        exact ih _ _ h1 h2
    | other k v => exact ih _ _ h1 h2

/-! The system -/

def notices : List Reply → List (Key × Option Value)
  | [] => []
  | .notice k v :: rs => (Key.parse k, v) :: notices rs
  | _ :: rs => notices rs

theorem notices_append (a b : List Reply) : notices (a ++ b) = notices a ++ notices b := by
  induction a with
  | nil => rfl
  | cons x a ih => cases x <;> simp [notices, ih]

theorem notices_none (a : List Reply) (h : ∀ r ∈ a, r.event = false) : notices a = [] := by
  induction a with
  | nil => rfl
  | cons x a ih =>
    have := h x (by simp)
    have ih := ih fun r hr => h r (by simp [hr])
    cases x <;> first | exact ih | simp [Reply.event] at this

/-- the replies among the messages -/
def asked : List Reply → List Reply := List.filter fun r => !r.event

section
variable {σ : Type} (I : IGen σ) (Rep : σ → Spec.Conf.State → Prop) (hI : Behaves I Rep) (m0 : Spec.Conf.State)

/-- Where the client is. -/
def Phase (s : Sys σ) (reqs : List Op) (reps outs : List Reply) : Option Op → Prop
  | none => (∀ op ∈ reqs, asks op = false) ∧ asked reps = [] ∧ outs = [] ∧ s.client.result_list = none ∧ Explains m0 s.hist s.answers
  | some op => asks op = true ∧ s.client.cmdinprogress = true ∧
    ((∃ pre, reqs = pre ++ [op] ∧ (∀ o ∈ pre, asks o = false) ∧ asked reps = [] ∧ outs = [] ∧ s.client.result_list = begun op ∧
        Explains m0 s.hist s.answers) ∨
     (reqs = [] ∧ ∃ a, Owes op s.client.result_list (asked reps ++ outs) a ∧ Explains m0 s.hist (s.answers ++ [a])))

/-- What holds when `reqs` are the operations the daemon has not executed, `reps` are the messages the client has not seen, `outs` those that
    are not written. -/
structure Inv (sent : List (Key × Option Value)) (s : Sys σ) (reqs : List Op) (reps outs : List Reply) : Prop where
  up : Ln.Inv (reqs.map fun op => Uc.body (reqMsg op)) s.toDaemon s.daemon
  down : Ln.Inv (reps.map Reply.text) s.toClient s.client.conn
  plain : ∀ op ∈ reqs, Plain op
  good : ∀ r ∈ reps, r.Good
  out : s.out = outs.map Reply.bytes
  outGood : ∀ r ∈ outs, r.Good ∧ r.event = false
  called : s.called = own s.hist ++ reqs
  rep : Rep s.conf (after m0 s.hist)
  closed : Closed (after m0 s.hist)
  sane : Sane (after m0 s.hist)
  deltas : s.client.deltas ++ notices reps = sent
  phase : Phase m0 s reqs reps outs s.waiting

theorem wire_one (b : List Byte) : Ln.wire [b] = b ++ [10] := by simp [Ln.wire]

theorem step_up (sent) (s : Sys σ) (reqs reps outs) (h : Inv Rep m0 sent s reqs reps outs) (n k : Nat) :
    Inv Rep m0 sent (step I n s (.up k)) reqs reps outs :=
  { h with
    up := Ln.arrive_inv (by
      show Ln.Inv _ (List.take k s.toDaemon ++ List.drop k s.toDaemon) _
      rw [List.take_append_drop]; exact h.up)
    phase := h.phase }

theorem step_down (sent) (s : Sys σ) (reqs reps outs) (h : Inv Rep m0 sent s reqs reps outs) (n k : Nat) :
    Inv Rep m0 sent (step I n s (.down k)) reqs reps outs :=
  { h with
    down := Ln.arrive_inv (by
      show Ln.Inv _ (List.take k s.toClient ++ List.drop k s.toClient) _
      rw [List.take_append_drop]; exact h.down)
    phase := h.phase }

theorem step_notice (sent) (s : Sys σ) (reqs reps outs) (h : Inv Rep m0 sent s reqs reps outs) (n : Nat) (k : Text) (v : Option Text)
    (hk : Fits (written k)) (hv : ∀ x, v = some x → Fits x) :
    Inv Rep m0 (sent ++ [(Key.parse k, v)]) (step I n s (.notice k v)) reqs (reps ++ [.notice (written k) v]) outs := by
  have hg : Reply.Good (.notice (written k) v) := by
    cases v with
    | none =>
      refine ⟨fun x hx => ?_, fun x hx => ?_⟩
      · simp [Reply.msg] at hx; subst hx; exact hk.1
      · simp [Reply.msg] at hx; subst hx; exact hk.2
    | some v => exact good_two _ 18 _ _ rfl hk.1 (hv v rfl)
  have hb : Remote.notice (Key.parse k) v = Reply.bytes (.notice (written k) v) := by
    rw [bytes_msg _ trivial, ← Uc.writecmd_body, ← printable_written]
    cases v <;> rfl
  have ha : asked (reps ++ [.notice (written k) v]) = asked reps := by simp [asked, Reply.event]
  have hp : Phase m0 (step I n s (.notice k v)) reqs (reps ++ [.notice (written k) v]) outs s.waiting := by
    have := h.phase
    unfold Phase at this ⊢
    rw [ha]
    exact this
  refine { h with down := ?_, good := ?_, deltas := ?_, phase := hp }
  · have := Ln.write_inv h.down [Reply.text (.notice (written k) v)]
    rw [wire_one] at this
    show Ln.Inv _ (s.toClient ++ Remote.notice (Key.parse k) v) _
    rw [hb, List.map_append]
    exact this
  · intro r hr
    rcases List.mem_append.mp hr with hr | hr
    · exact h.good r hr
    · simp at hr; subst hr; exact hg
  · show s.client.deltas ++ _ = _
    rw [notices_append, ← List.append_assoc, h.deltas]
    simp [notices, parse_written]

theorem step_emit (sent) (s : Sys σ) (reqs reps outs) (r : Reply) (h : Inv Rep m0 sent s reqs reps (r :: outs)) (n : Nat) :
    Inv Rep m0 sent (step I n s .emit) reqs (reps ++ [r]) outs := by
  have ho := h.out
  obtain ⟨hg, he⟩ := h.outGood r (by simp)
  have es : step I n s .emit = { s with toClient := s.toClient ++ r.bytes, out := outs.map Reply.bytes } := by
    simp only [step, ho, List.map_cons]
  rw [es]
  have ha : asked (reps ++ [r]) ++ outs = asked reps ++ r :: outs := by simp [asked, he]
  refine { h with down := ?_, good := ?_, deltas := ?_, out := rfl, outGood := fun x hx => h.outGood x (by simp [hx]), phase := ?_ }
  · have := Ln.write_inv h.down [r.text]
    rw [wire_one] at this
    rw [List.map_append]
    exact this
  · intro x hx
    rcases List.mem_append.mp hx with hx | hx
    · exact h.good x hx
    · simp at hx; subst hx; exact hg
  · show s.client.deltas ++ _ = _
    rw [notices_append, ← List.append_assoc, h.deltas, notices_none [r] (by simpa using he)]
    simp
  · have hph := h.phase
    show Phase m0 _ reqs (reps ++ [r]) outs s.waiting
    cases hw : s.waiting with
    | none =>
      rw [hw] at hph
      exact absurd hph.2.2.1 (by simp)
    | some op =>
      rw [hw] at hph
      obtain ⟨h1, h2, h3 | ⟨h3, a, h4, h5⟩⟩ := hph
      · obtain ⟨pre, -, -, -, h3, -⟩ := h3
        exact absurd h3 (by simp)
      · exact ⟨h1, h2, Or.inr ⟨h3, a, by rw [ha]; exact h4, h5⟩⟩

theorem step_emit_nil (sent) (s : Sys σ) (reqs reps) (h : Inv Rep m0 sent s reqs reps []) (n : Nat) : step I n s .emit = s := by
  have ho := h.out
  simp only [step, ho, List.map_nil]

theorem explains_other (h : List Event) (l : List Ans) (k : Text) (v : Option Text) (he : Explains m0 h l) : Explains m0 (h ++ [.other k v]) l := by
  have := explains_append m0 h [.other k v] l [] he rfl
  simpa using this

include hI in
theorem step_other (sent) (s : Sys σ) (reqs reps outs) (h : Inv Rep m0 sent s reqs reps outs) (n : Nat) (k : Text) (v : Option Text)
    (hk : 0 ∉ written k) (hv : ∀ x, v = some x → Fits x) : Inv Rep m0 sent (step I n s (.other k v)) reqs reps outs := by
  have e : after m0 (s.hist ++ [.other k v]) = Spec.Conf.set (after m0 s.hist) k v := by rw [after_append]; rfl
  refine { h with called := ?_, rep := ?_, closed := ?_, sane := ?_, phase := ?_ }
  · show s.called = own (s.hist ++ [.other k v]) ++ reqs
    rw [own_append, h.called]
    simp [own]
  · show Rep (I.set s.conf (Key.parse k) v) (after m0 (s.hist ++ [.other k v]))
    rw [e]
    exact hI.set _ _ h.rep k v
  · show Closed (after m0 (s.hist ++ [.other k v]))
    rw [e]
    exact Rec.set_closed _ h.closed k v
  · show Sane (after m0 (s.hist ++ [.other k v]))
    rw [e]
    exact sane_set _ h.sane k v hk hv
  · have hph := h.phase
    show Phase m0 _ reqs reps outs s.waiting
    cases hw : s.waiting with
    | none =>
      rw [hw] at hph
      exact ⟨hph.1, hph.2.1, hph.2.2.1, hph.2.2.2.1, explains_other m0 _ _ k v hph.2.2.2.2⟩
    | some op =>
      rw [hw] at hph
      obtain ⟨h1, h2, h3 | ⟨h3, a, h4, h5⟩⟩ := hph
      · obtain ⟨pre, p1, p2, p3, p4, p5, p6⟩ := h3
        exact ⟨h1, h2, Or.inl ⟨pre, p1, p2, p3, p4, p5, explains_other m0 _ _ k v p6⟩⟩
      · exact ⟨h1, h2, Or.inr ⟨h3, a, h4, explains_other m0 _ _ k v h5⟩⟩

theorem step_call (sent) (s : Sys σ) (reqs reps outs) (h : Inv Rep m0 sent s reqs reps outs) (n : Nat) (op : Op) (hp : Plain op) :
    ∃ reqs', Inv Rep m0 sent (step I n s (.call op)) reqs' reps outs := by
  cases hw : s.waiting with
  | some o => exact ⟨reqs, by simpa only [step, hw, Option.isSome_some, if_true] using h⟩
  | none =>
    refine ⟨reqs ++ [op], ?_⟩
    have hup : Ln.Inv ((reqs ++ [op]).map fun op => Uc.body (reqMsg op)) (s.toDaemon ++ request op) s.daemon := by
      have := Ln.write_inv h.up [Uc.body (reqMsg op)]
      rw [wire_one] at this
      rw [request_eq, List.map_append]
      exact this
    have hpl : ∀ o ∈ reqs ++ [op], Plain o := by
      intro o ho
      rcases List.mem_append.mp ho with ho | ho
      · exact h.plain o ho
      · simp at ho; subst ho; exact hp
    have hca : s.called ++ [op] = own s.hist ++ (reqs ++ [op]) := by rw [h.called]; simp
    have hph := h.phase
    rw [hw] at hph
    obtain ⟨h1, h2, h3, h4, h5⟩ := hph
    cases ha : asks op with
    | false =>
      have es : step I n s (.call op) = { s with toDaemon := s.toDaemon ++ request op, called := s.called ++ [op] } := by
        simp [step, hw, ha]
      rw [es]
      refine { h with up := hup, plain := hpl, called := hca, phase := ?_ }
      show Phase m0 _ _ _ _ s.waiting
      rw [hw]
      refine ⟨?_, h2, h3, h4, h5⟩
      intro o ho
      rcases List.mem_append.mp ho with ho | ho
      · exact h1 o ho
      · simp at ho; subst ho; exact ha
    | true =>
      have es : step I n s (.call op) = { s with client := begin s.client op, waiting := some op, toDaemon := s.toDaemon ++ request op, called := s.called ++ [op] } := by
        simp [step, hw, ha]
      rw [es]
      have hb : (begin s.client op).conn = s.client.conn ∧ (begin s.client op).deltas = s.client.deltas ∧
          (begin s.client op).cmdinprogress = true ∧ (begin s.client op).result_list = begun op := by
        cases op <;> first | exact ⟨rfl, rfl, rfl, rfl⟩ | exact ⟨rfl, rfl, rfl, h4⟩
      refine { h with up := hup, plain := hpl, called := hca, down := ?_, deltas := ?_, phase := ?_ }
      · show Ln.Inv _ _ (begin s.client op).conn
        rw [hb.1]; exact h.down
      · show (begin s.client op).deltas ++ _ = _
        rw [hb.2.1]; exact h.deltas
      · exact ⟨ha, hb.2.2.1, Or.inl ⟨reqs, rfl, h1, h2, h3, hb.2.2.2, h5⟩⟩

/-- the next reply -/
theorem owes_head (op : Op) (c : Client) (r : Reply) (rest : List Reply) (a : Ans) (h : Owes op c.result_list (r :: rest) a) :
    ((hand c r).cmdinprogress = false ∧ rest = [] ∧ finish (hand c r) op = a) ∨
    ((hand c r).cmdinprogress = c.cmdinprogress ∧ Owes op (hand c r).result_list rest a) := by
  cases op with
  | get k =>
    left
    rcases h with ⟨h, rfl⟩ | ⟨v, h, rfl⟩ <;> simp only [List.cons.injEq] at h <;> obtain ⟨rfl, rfl⟩ := h
    · exact ⟨rfl, rfl, by simp [finish, hand]⟩
    · exact ⟨rfl, rfl, by simp [finish, hand, printable_written]⟩
  | haschildren k =>
    left
    obtain ⟨b, h, rfl⟩ := h
    simp only [List.cons.injEq] at h
    obtain ⟨rfl, rfl⟩ := h
    refine ⟨rfl, rfl, ?_⟩
    have : (truth b = str ['T', 'R', 'U', 'E']) ↔ b = true := by cases b <;> decide +kernel
    simp [finish, hand, printable_written, this]
  | iterator k =>
    rcases h with ⟨h, rfl⟩ | ⟨l, vals, hl, h, rfl⟩
    · left
      simp only [List.cons.injEq] at h
      obtain ⟨rfl, rfl⟩ := h
      exact ⟨rfl, rfl, by simp [finish, hand]⟩
    · cases vals with
      | nil =>
        left
        simp only [List.map_nil, List.nil_append, List.cons.injEq] at h
        obtain ⟨rfl, rfl⟩ := h
        exact ⟨rfl, rfl, by simp [finish, hand, hl]⟩
      | cons x vals =>
        right
        simp only [List.map_cons, List.cons_append, List.cons.injEq] at h
        obtain ⟨rfl, rfl⟩ := h
        exact ⟨rfl, Or.inr ⟨l ++ [(Key.parse x.1, x.2)], vals, by simp [hand, hl], rfl, by simp⟩⟩
  | commit =>
    left
    obtain ⟨h, rfl⟩ := h
    simp only [List.cons.injEq] at h
    obtain ⟨rfl, rfl⟩ := h
    exact ⟨rfl, rfl, rfl⟩
  | refresh =>
    left
    rcases h with ⟨h, rfl⟩ | ⟨h, rfl⟩ <;> simp only [List.cons.injEq] at h <;> obtain ⟨rfl, rfl⟩ := h
    · exact ⟨rfl, rfl, rfl⟩
    · exact ⟨rfl, rfl, rfl⟩
  | set k v => exact absurd h id
  | remove k => exact absurd h id

theorem owes_ne (op : Op) (acc) (a : Ans) : ¬ Owes op acc [] a := by
  cases op with
  | iterator k =>
    rintro (⟨h, _⟩ | ⟨l, vals, -, h, -⟩)
    · cases h
    · have := congrArg List.length h
      simp at this
  | get k => rintro (⟨h, _⟩ | ⟨v, h, -⟩) <;> cases h
  | haschildren k => rintro ⟨v, h, -⟩; cases h
  | commit => rintro ⟨h, -⟩; cases h
  | refresh => rintro (⟨h, -⟩ | ⟨h, -⟩) <;> cases h
  | set k v => exact id
  | remove k => exact id

theorem hand_other (c : Client) (r : Reply) : (hand c r).conn = c.conn ∧ (r.event = false → (hand c r).deltas = c.deltas) ∧
    (r.event = true → (hand c r).cmdinprogress = c.cmdinprogress ∧ (hand c r).result_list = c.result_list) ∧
    (hand c r).deltas ++ [] = c.deltas ++ notices [r] := by
  cases r <;> simp [hand, Reply.event, notices]

theorem step_callback (sent) (s : Sys σ) (reqs reps outs) (h : Inv Rep m0 sent s reqs reps outs) (n : Nat) :
    ∃ reps', Inv Rep m0 sent (step I n s .callback) reqs reps' outs ∧ (s.toClient = [] → reps ≠ [] → reps'.length < reps.length) := by
  have hph := h.phase
  rcases callback_spec s.toClient reps h.good s.client h.down with ⟨⟨conn, h1, h2⟩, h3⟩ | ⟨r, reps', conn, hr, h1, h2⟩
  · refine ⟨reps, ?_, ?_⟩
    · have es : step I n s .callback = { s with client := { s.client with conn := conn } } := by
        cases hw : s.waiting with
        | none => simp only [step, hw, h1]
        | some op =>
          rw [hw] at hph
          have : s.client.cmdinprogress = true := hph.2.1
          simp only [step, hw, h1, this, if_true]
      rw [es]
      exact { h with down := h2, phase := hph }
    · intro hf hne
      obtain ⟨r, rs, e⟩ := List.exists_cons_of_ne_nil hne
      exact absurd hf (h3 r rs e)
  · refine ⟨reps', ?_, fun _ _ => by rw [hr]; simp⟩
    subst hr
    obtain ⟨o1, o2, o3, o4⟩ := hand_other { s.client with conn := conn } r
    rw [List.append_nil] at o4
    have hdl : (hand { s.client with conn := conn } r).deltas ++ notices reps' = sent := by
      rw [o4, List.append_assoc, ← notices_append]
      exact h.deltas
    have hdn : Ln.Inv (reps'.map Reply.text) s.toClient (hand { s.client with conn := conn } r).conn := by rw [o1]; exact h2
    have hgd : ∀ x ∈ reps', x.Good := fun x hx => h.good x (by simp [hx])
    cases he : r.event with
    | true =>
      obtain ⟨e1, e2⟩ := o3 he
      have ha : asked (r :: reps') = asked reps' := by simp [asked, he]
      have es : step I n s .callback = { s with client := hand { s.client with conn := conn } r } := by
        cases hw : s.waiting with
        | none => simp only [step, hw, h1]
        | some op =>
          rw [hw] at hph
          have : (hand { s.client with conn := conn } r).cmdinprogress = true := by rw [e1]; exact hph.2.1
          simp only [step, hw, h1, this, if_true]
      rw [es]
      refine { h with down := hdn, good := hgd, deltas := hdl, phase := ?_ }
      show Phase m0 _ reqs reps' outs s.waiting
      unfold Phase at hph ⊢
      rw [ha] at hph
      cases hw : s.waiting with
      | none =>
        rw [hw] at hph
        simp only [e2]
        exact hph
      | some op =>
        rw [hw] at hph
        simp only [e1, e2]
        exact hph
    | false =>
      have ha : asked (r :: reps') = r :: asked reps' := by simp [asked, he]
      cases hw : s.waiting with
      | none =>
        rw [hw] at hph
        exact absurd hph.2.1 (by rw [ha]; simp)
      | some op =>
        rw [hw] at hph
        obtain ⟨p1, p2, p3 | ⟨p3, a, p4, p5⟩⟩ := hph
        · obtain ⟨pre, -, -, p3, -⟩ := p3
          exact absurd p3 (by rw [ha]; simp)
        · rw [ha, List.cons_append] at p4
          rcases owes_head op { s.client with conn := conn } r _ a p4 with ⟨q1, q2, q3⟩ | ⟨q1, q2⟩
          · have es : step I n s .callback = { s with client := { hand { s.client with conn := conn } r with result_list := none }, waiting := none, answers := s.answers ++ [finish (hand { s.client with conn := conn } r) op] } := by
              simp only [step, hw, h1, q1, Bool.false_eq_true, if_false]
            rw [es]
            obtain ⟨q4, q5⟩ := List.append_eq_nil_iff.mp q2
            refine { h with down := hdn, good := hgd, deltas := hdl, phase := ?_ }
            refine ⟨?_, q4, q5, rfl, ?_⟩
            · rw [p3]; simp
            · show Explains m0 s.hist (s.answers ++ [finish (hand { s.client with conn := conn } r) op])
              rw [q3]; exact p5
          · have hip : (hand { s.client with conn := conn } r).cmdinprogress = true := by rw [q1]; exact p2
            have es : step I n s .callback = { s with client := hand { s.client with conn := conn } r } := by
              simp only [step, hw, h1, hip, if_true]
            rw [es]
            refine { h with down := hdn, good := hgd, deltas := hdl, phase := ?_ }
            show Phase m0 _ reqs reps' outs s.waiting
            rw [hw]
            exact ⟨p1, hip, Or.inr ⟨p3, a, q2, p5⟩⟩

include hI in
theorem step_execute (sent) (s : Sys σ) (reqs reps outs) (h : Inv Rep m0 sent s reqs reps outs) :
    ∃ N s' reqs' outs', (∀ n, N ≤ n → step I n s .execute = s') ∧ Inv Rep m0 sent s' reqs' reps outs' ∧
      (s.toDaemon = [] → outs = [] → reqs ≠ [] → reqs'.length < reqs.length) := by
  cases ho : outs with
  | cons x outs =>
    subst ho
    refine ⟨0, s, reqs, x :: outs, fun n _ => ?_, h, by simp⟩
    have := h.out
    simp [step, this]
  | nil =>
    subst ho
    have hout : s.out = [] := by simpa using h.out
    cases hreqs : reqs with
    | nil =>
      subst hreqs
      rcases execute_spec I 0 s.conf s.toDaemon [] (by simp) s.daemon h.up with ⟨h1, ⟨d', h2, h3⟩, h4⟩ | ⟨op, ops', d', h1, -⟩
      · have es : ∀ n, step I n s .execute = { s with daemon := d', out := [] } := by
          intro n
          have : execute I n s.conf s.daemon = (d', s.conf, []) := by
            have e : execute I n s.conf s.daemon = execute I 0 s.conf s.daemon := by simp [execute, h1]
            rw [e, h2]
          simp [step, hout, this, h1]
        exact ⟨0, _, [], [], fun n _ => es n, { h with up := h3, out := rfl, phase := h.phase }, by simp⟩
      · cases h1
    | cons op0 ops0 =>
      rw [← hreqs]
      have hplain := h.plain
      have hup := h.up
      -- whether there is a message does not depend on the number of steps
      rcases execute_spec I 0 s.conf s.toDaemon reqs hplain s.daemon hup with ⟨h1, ⟨d', h2, h3⟩, h4⟩ | ⟨op, ops', d', h1, h2, h3, h4⟩
      · have es : ∀ n, step I n s .execute = { s with daemon := d', out := [] } := by
          intro n
          have : execute I n s.conf s.daemon = (d', s.conf, []) := by
            have e : execute I n s.conf s.daemon = execute I 0 s.conf s.daemon := by simp [execute, h1]
            rw [e, h2]
          simp [step, hout, this, h1]
        refine ⟨0, _, reqs, [], fun n _ => es n, { h with up := h3, out := rfl, phase := h.phase }, ?_⟩
        intro hf _ hne
        exact absurd hf (h4 _ _ hreqs)
      · obtain ⟨N, s', L, g1, g2, g3, g4, g5⟩ := serve_spec I Rep hI s.conf (after m0 s.hist) h.rep h.closed h.sane op (hplain op (by rw [h1]; simp))
        have hd : ∀ n, execute I n s.conf s.daemon = (d', serve I n s.conf (.cmd (reqMsg op).1) (name (reqMsg op).1) (reqMsg op).2.head? (reqMsg op).2[1]?) := by
          intro n
          rcases execute_spec I n s.conf s.toDaemon reqs hplain s.daemon hup with ⟨k1, -⟩ | ⟨op', ops'', d'', k1, k2, k3, k4⟩
          · exact absurd k1 h2
          · rw [h1] at k1
            simp only [List.cons.injEq] at k1
            obtain ⟨rfl, rfl⟩ := k1
            have : d'' = d' := by
              have a1 : (execute I n s.conf s.daemon).1 = (execute I 0 s.conf s.daemon).1 := by simp only [execute, h2, if_false]
              rw [k4, h4] at a1
              exact a1
            rw [k4, this]
        have hasked : Wv.Remote.asked s.called s.hist = [.own op] := by
          unfold Wv.Remote.asked
          rw [h.called, h1, List.drop_left' rfl]
          rfl
        have e : after m0 (s.hist ++ [.own op]) = effect (after m0 s.hist) op := by rw [after_append]; rfl
        refine ⟨N, { s with daemon := d', conf := s', out := L.map Reply.bytes, hist := s.hist ++ [.own op] }, ops', L, ?_, ?_, ?_⟩
        · intro n hn
          simp only [step, hout, List.isEmpty_nil, if_true, hd, g1 n hn, h2, if_false, hasked]
        · refine { h with up := h3, plain := fun o ho => hplain o (by rw [h1]; simp [ho]), out := rfl, outGood := g3, called := ?_, rep := ?_, closed := ?_, sane := ?_, phase := ?_ }
          · show s.called = own (s.hist ++ [.own op]) ++ ops'
            rw [h.called, h1, own_append]
            simp [own]
          · show Rep s' (after m0 (s.hist ++ [.own op]))
            rw [e]; exact g2
          · show Closed (after m0 (s.hist ++ [.own op]))
            rw [e]; exact closed_effect _ h.closed op
          · show Sane (after m0 (s.hist ++ [.own op]))
            rw [e]; exact sane_effect _ h.sane op (hplain op (by rw [h1]; simp))
          · have hph := h.phase
            show Phase m0 _ ops' reps L s.waiting
            cases hw : s.waiting with
            | none =>
              rw [hw] at hph
              obtain ⟨p1, p2, p3, p4, p5⟩ := hph
              have ha : asks op = false := p1 op (by rw [h1]; simp)
              refine ⟨fun o ho => p1 o (by rw [h1]; simp [ho]), p2, g5 ha, p4, ?_⟩
              have := explains_append m0 s.hist [.own op] s.answers [] p5 (by simp [Explains, ha])
              simpa using this
            | some o =>
              rw [hw] at hph
              obtain ⟨p1, p2, p3 | ⟨p3, a, p4, p5⟩⟩ := hph
              · obtain ⟨pre, q1, q2, q3, q4, q5, q6⟩ := p3
                cases pre with
                | nil =>
                  rw [h1] at q1
                  simp only [List.nil_append, List.cons.injEq] at q1
                  obtain ⟨rfl, rfl⟩ := q1
                  obtain ⟨a, r1, r2⟩ := g4 p1
                  refine ⟨p1, p2, Or.inr ⟨rfl, a, ?_, ?_⟩⟩
                  · rw [q3]
                    show Owes op s.client.result_list _ a
                    rw [q5]
                    exact r2
                  · exact explains_append m0 s.hist [.own op] s.answers [a] q6 (by simp [Explains, p1, r1])
                | cons x pre =>
                  rw [h1] at q1
                  simp only [List.cons_append, List.cons.injEq] at q1
                  obtain ⟨rfl, rfl⟩ := q1
                  have ha : asks op = false := q2 op (by simp)
                  refine ⟨p1, p2, Or.inl ⟨pre, rfl, fun y hy => q2 y (by simp [hy]), q3, g5 ha, q5, ?_⟩⟩
                  have := explains_append m0 s.hist [.own op] s.answers [] q6 (by simp [Explains, ha])
                  simpa using this
              · rw [p3] at h1; cases h1
        · intro _ _ _
          rw [h1]; simp

/-- Notifications and the others' changes fit in messages, and the program's operations are plain. -/
def Allowed : Act → Prop
  | .call op => Plain op
  | .notice k v => Fits (written k) ∧ ∀ x, v = some x → Fits x
  | .other k v => 0 ∉ written k ∧ ∀ x, v = some x → Fits x
  | _ => True

/-- The notifications the daemon wrote. -/
def noticed : List Act → List (Key × Option Value)
  | [] => []
  | .notice k v :: l => (Key.parse k, v) :: noticed l
  | _ :: l => noticed l

/-- The changes by others. -/
def changed : List Act → List (Text × Option Text)
  | [] => []
  | .other k v :: l => (k, v) :: changed l
  | _ :: l => changed l

include hI in
theorem step_inv (sent) (s : Sys σ) (reqs reps outs) (h : Inv Rep m0 sent s reqs reps outs) (a : Act) (ha : Allowed a) :
    ∃ N s' reqs' reps' outs', (∀ n, N ≤ n → step I n s a = s') ∧ Inv Rep m0 (sent ++ noticed [a]) s' reqs' reps' outs' := by
  have hn0 : noticed [a] = [] → sent ++ noticed [a] = sent := fun e => by rw [e, List.append_nil]
  cases a with
  | call op =>
    obtain ⟨r, h1⟩ := step_call I Rep m0 sent s reqs reps outs h 0 op ha
    exact ⟨0, step I 0 s (.call op), r, reps, outs, fun n _ => rfl, by rw [hn0 rfl]; exact h1⟩
  | callback =>
    obtain ⟨r, h1, -⟩ := step_callback I Rep m0 sent s reqs reps outs h 0
    exact ⟨0, step I 0 s .callback, reqs, r, outs, fun n _ => rfl, by rw [hn0 rfl]; exact h1⟩
  | up k => exact ⟨0, step I 0 s (.up k), reqs, reps, outs, fun n _ => rfl, by rw [hn0 rfl]; exact step_up I Rep m0 sent s reqs reps outs h 0 k⟩
  | down k => exact ⟨0, step I 0 s (.down k), reqs, reps, outs, fun n _ => rfl, by rw [hn0 rfl]; exact step_down I Rep m0 sent s reqs reps outs h 0 k⟩
  | execute =>
    obtain ⟨N, s', r, o, h1, h2, -⟩ := step_execute I Rep hI m0 sent s reqs reps outs h
    exact ⟨N, s', r, reps, o, h1, by rw [hn0 rfl]; exact h2⟩
  | emit =>
    cases ho : outs with
    | nil =>
      subst ho
      exact ⟨0, s, reqs, reps, [], fun n _ => step_emit_nil I Rep m0 sent s reqs reps h n, by rw [hn0 rfl]; exact h⟩
    | cons r outs =>
      subst ho
      exact ⟨0, step I 0 s .emit, reqs, _, outs, fun n _ => rfl, by rw [hn0 rfl]; exact step_emit I Rep m0 sent s reqs reps outs r h 0⟩
  | notice k v => exact ⟨0, _, reqs, _, outs, fun n _ => rfl, step_notice I Rep m0 sent s reqs reps outs h 0 k v ha.1 ha.2⟩
  | other k v =>
    exact ⟨0, step I 0 s (.other k v), reqs, reps, outs, fun n _ => rfl, by rw [hn0 rfl]; exact step_other I Rep hI m0 sent s reqs reps outs h 0 k v ha.1 ha.2⟩

theorem noticed_cons (a : Act) (l : List Act) : noticed (a :: l) = noticed [a] ++ noticed l := by cases a <;> rfl
theorem changed_cons (a : Act) (l : List Act) : changed (a :: l) = changed [a] ++ changed l := by cases a <;> rfl

include hI in
theorem run_inv (acts : List Act) : ∀ (sent) (s : Sys σ) (reqs reps outs), Inv Rep m0 sent s reqs reps outs → (∀ a ∈ acts, Allowed a) →
    ∃ N s' reqs' reps' outs', (∀ n, N ≤ n → run I n s acts = s') ∧ Inv Rep m0 (sent ++ noticed acts) s' reqs' reps' outs' := by
  induction acts with
  | nil => intro sent s reqs reps outs h _; exact ⟨0, s, reqs, reps, outs, fun n _ => rfl, by simpa [noticed] using h⟩
  | cons a acts ih =>
    intro sent s reqs reps outs h ha
    obtain ⟨N1, s1, r1, p1, o1, h1, h2⟩ := step_inv I Rep hI m0 sent s reqs reps outs h a (ha a (by simp))
    obtain ⟨N2, s2, r2, p2, o2, h3, h4⟩ := ih _ s1 r1 p1 o1 h2 fun b hb => ha b (by simp [hb])
    refine ⟨max N1 N2, s2, r2, p2, o2, ?_, ?_⟩
    · intro n hn
      show run I n (step I n s a) acts = s2
      rw [h1 n (by omega), h3 n (by omega)]
    · rw [noticed_cons, ← List.append_assoc]; exact h4

theorem start_inv (s0 : σ) (h0 : Rep s0 m0) (hc : Closed m0) (hm : Sane m0) : Inv Rep m0 [] { conf := s0 } [] [.hello] [] where
  up := Ln.new_inv
  down := by
    have := Ln.write_inv Ln.new_inv [Reply.text .hello]
    rw [wire_one] at this
    show Ln.Inv _ hello _
    rw [hello_bytes]
    exact this
  plain := by simp
  good := by intro r hr; simp at hr; subst hr; exact good_hello
  out := rfl
  outGood := by simp
  called := rfl
  rep := h0
  closed := hc
  sane := hm
  deltas := rfl
  phase := ⟨by simp, rfl, rfl, rfl, rfl⟩

theorem step_others (n : Nat) (s : Sys σ) (a : Act) : others (step I n s a).hist = others s.hist ++ changed [a] := by
  cases a with
  | call op =>
    simp only [step]
    split
    · simp [changed]
    · split <;> simp [changed]
  | callback =>
    simp only [step]
    split
    · simp [changed]
    · split <;> simp [changed]
  | execute =>
    simp only [step]
    split
    · have : ∀ l h, others (Wv.Remote.asked l h) = [] := by
        intro l h
        unfold Wv.Remote.asked
        cases (l.drop (own h).length).head? <;> rfl
      by_cases hr : (readcmd s.daemon).1 = .none
      · simp [hr, changed]
      · simp [hr, changed, others_append, this]
    · simp [changed]
  | emit =>
    simp only [step]
    split <;> simp [changed]
  | other k v => simp [step, changed, others_append, others]
  | _ => simp [step, changed]

theorem run_others (n : Nat) (acts : List Act) : ∀ s : Sys σ, others (run I n s acts).hist = others s.hist ++ changed acts := by
  induction acts with
  | nil => intro s; simp [Remote.run, changed]
  | cons a acts ih =>
    intro s
    show others (run I n (step I n s a) acts).hist = _
    rw [ih, step_others, changed_cons a acts, List.append_assoc]

theorem step_grows (n : Nat) (s : Sys σ) (a : Act) : s.hist <+: (step I n s a).hist ∧ s.answers <+: (step I n s a).answers ∧
    s.called <+: (step I n s a).called := by
  cases a with
  | call op =>
    simp only [step]
    split
    · simp
    · split <;> simp
  | callback =>
    simp only [step]
    split
    · simp
    · split <;> simp
  | execute =>
    simp only [step]
    split
    · by_cases hr : (readcmd s.daemon).1 = .none <;> simp [hr]
    · simp
  | emit =>
    simp only [step]
    split <;> simp
  | other k v => simp [step]
  | _ => simp [step]

/-- only the network and the programs at both ends do something -/
def Running : Act → Prop
  | .call _ => False
  | .notice _ _ => False
  | .other _ _ => False
  | _ => True

theorem run_append (n : Nat) (s : Sys σ) (a b : List Act) : run I n s (a ++ b) = run I n (run I n s a) b := by simp [Remote.run]

include hI in
/-- In the end everything is delivered. -/
theorem drain : ∀ (b a : Nat) (sent) (s : Sys σ) (reqs reps outs), Inv Rep m0 sent s reqs reps outs → reqs.length = a → 2 * outs.length + reps.length ≤ b →
    (∀ a', a' < a → ∀ (sent) (s : Sys σ) (reqs reps outs), Inv Rep m0 sent s reqs reps outs → reqs.length = a' →
      ∃ acts N s', (∀ x ∈ acts, Running x) ∧ (∀ n, N ≤ n → run I n s acts = s') ∧ Inv Rep m0 sent s' [] [] []) →
    ∃ acts N s', (∀ x ∈ acts, Running x) ∧ (∀ n, N ≤ n → run I n s acts = s') ∧ Inv Rep m0 sent s' [] [] [] := by
  intro b
  induction b with
  | zero =>
    intro a sent s reqs reps outs h hl hb iha
    have ho : outs = [] := List.length_eq_zero_iff.mp (by omega)
    have hr : reps = [] := List.length_eq_zero_iff.mp (by omega)
    subst ho hr
    by_cases hq : reqs = []
    · subst hq
      exact ⟨[], 0, s, by simp, fun n _ => rfl, h⟩
    · have h1 := step_up I Rep m0 sent s reqs [] [] h 0 s.toDaemon.length
      obtain ⟨N, s', r', o', h2, h3, h4⟩ := step_execute I Rep hI m0 sent _ reqs [] [] h1
      have h5 := h4 (by simp [step]) rfl hq
      obtain ⟨acts, N', s'', g1, g2, g3⟩ := iha r'.length (by omega) sent s' r' [] o' h3 rfl
      refine ⟨.up s.toDaemon.length :: .execute :: acts, max N N', s'', ?_, ?_, g3⟩
      · intro x hx
        simp at hx
        rcases hx with rfl | rfl | hx
        · trivial
        · trivial
        · exact g1 x hx
      · intro n hn
        show run I n (step I n (step I n s (.up s.toDaemon.length)) .execute) acts = s''
        have e : step I n s (.up s.toDaemon.length) = step I 0 s (.up s.toDaemon.length) := rfl
        rw [e, h2 n (by omega), g2 n (by omega)]
  | succ b ih =>
    intro a sent s reqs reps outs h hl hb iha
    cases ho : outs with
    | cons r outs =>
      subst ho
      have h1 := step_emit I Rep m0 sent s reqs reps outs r h 0
      obtain ⟨acts, N, s', g1, g2, g3⟩ := ih a sent _ reqs _ outs h1 hl (by simp at hb ⊢; omega) iha
      refine ⟨.emit :: acts, N, s', ?_, ?_, g3⟩
      · intro x hx
        rcases List.mem_cons.mp hx with rfl | hx
        · trivial
        · exact g1 x hx
      · intro n hn
        show run I n (step I n s .emit) acts = s'
        exact g2 n hn
    | nil =>
      subst ho
      by_cases hr : reps = []
      · exact ih a sent s reqs reps [] h hl (by simp [hr]) iha
      · have h1 := step_down I Rep m0 sent s reqs reps [] h 0 s.toClient.length
        obtain ⟨reps', h2, h3⟩ := step_callback I Rep m0 sent _ reqs reps [] h1 0
        have h4 := h3 (by simp [step]) hr
        obtain ⟨acts, N, s', g1, g2, g3⟩ := ih a sent _ reqs reps' [] h2 hl (by simp at hb ⊢; omega) iha
        refine ⟨.down s.toClient.length :: .callback :: acts, N, s', ?_, ?_, g3⟩
        · intro x hx
          simp at hx
          rcases hx with rfl | rfl | hx
          · trivial
          · trivial
          · exact g1 x hx
        · intro n hn
          show run I n (step I n (step I n s (.down s.toClient.length)) .callback) acts = s'
          exact g2 n hn

include hI in
theorem drained (a : Nat) : ∀ (sent) (s : Sys σ) (reqs reps outs), Inv Rep m0 sent s reqs reps outs → reqs.length = a →
    ∃ acts N s', (∀ x ∈ acts, Running x) ∧ (∀ n, N ≤ n → run I n s acts = s') ∧ Inv Rep m0 sent s' [] [] [] := by
  induction a using Nat.strongRecOn with
  | _ a ih =>
    intro sent s reqs reps outs h hl
    exact drain I Rep hI m0 _ a sent s reqs reps outs h hl (Nat.le_refl _) ih

end

end Rem

open Wv.Remote Rem in
/-- C56: whatever a program, the network, the daemon and others do, and in whatever order, there is an order of the program's operations and the
    others' changes that explains everything: the answers so far (and at most one that is on its way) are right if things happened in this
    order, the daemon's configuration is what they make of the one at the start, the program's operations are in the order in which it
    called them, the others' changes are all in it. When the program does not wait, all its questions are in the order and all
    answers have come. The notifications come in the order in which they were written. For operations that are plain. -/
theorem C56_linearizable_partial {σ : Type} (I : IGen σ) (Rep : σ → Spec.Conf.State → Prop) (hI : Behaves I Rep) (s0 : σ)
    (m0 : Spec.Conf.State) (h0 : Rep s0 m0) (hc : Spec.Walk.Closed m0) (hm : Sane m0) (acts : List Act) (ha : ∀ a ∈ acts, Allowed a) :
    ∃ N s, (∀ n, N ≤ n → run I n { conf := s0 } acts = s) ∧
      Rep s.conf (after m0 s.hist) ∧ own s.hist <+: s.called ∧ others s.hist = changed acts ∧ s.client.deltas <+: noticed acts ∧
      match s.waiting with
      | none => Explains m0 s.hist s.answers ∧ ∀ op ∈ s.called.drop (own s.hist).length, asks op = false
      | some _ => Explains m0 s.hist s.answers ∨ ∃ a, Explains m0 s.hist (s.answers ++ [a]) := by
  obtain ⟨N, s, reqs, reps, outs, h1, h2⟩ := run_inv I Rep hI m0 acts [] { conf := s0 } [] [.hello] [] (start_inv Rep m0 s0 h0 hc hm) ha
  refine ⟨N, s, h1, h2.rep, ?_, ?_, ?_, ?_⟩
  · rw [h2.called]; exact List.prefix_append _ _
  · have := run_others I N acts { conf := s0 }
    rw [h1 N (Nat.le_refl _)] at this
    simpa [others] using this
  · have := h2.deltas
    rw [List.nil_append] at this
    rw [← this]; exact List.prefix_append _ _
  · have hp := h2.phase
    cases hw : s.waiting with
    | none =>
      rw [hw] at hp
      refine ⟨hp.2.2.2.2, ?_⟩
      rw [h2.called, List.drop_left' rfl]
      exact hp.1
    | some op =>
      rw [hw] at hp
      obtain ⟨-, -, ⟨_, -, -, -, -, -, h⟩ | ⟨-, a, -, h⟩⟩ := hp
      · exact Or.inl h
      · exact Or.inr ⟨a, h⟩

open Wv.Remote Rem in
/-- C56: the order only grows: what happens later comes later in it; answers and calls are not taken back. -/
theorem C56_order {σ : Type} (I : IGen σ) (n : Nat) (s : Sys σ) (acts : List Act) :
    s.hist <+: (run I n s acts).hist ∧ s.answers <+: (run I n s acts).answers ∧ s.called <+: (run I n s acts).called := by
  induction acts generalizing s with
  | nil => exact ⟨List.prefix_rfl, List.prefix_rfl, List.prefix_rfl⟩
  | cons a acts ih =>
    obtain ⟨h1, h2, h3⟩ := ih (step I n s a)
    obtain ⟨g1, g2, g3⟩ := step_grows I n s a
    exact ⟨g1.trans h1, g2.trans h2, g3.trans h3⟩

open Wv.Remote Rem in
/-- C56: at any time, if from then on the network delivers what was sent and both ends look at their connections often enough, the
    program gets its answer, all its operations are done, and all notifications come. -/
theorem C56_answered_partial {σ : Type} (I : IGen σ) (Rep : σ → Spec.Conf.State → Prop) (hI : Behaves I Rep) (s0 : σ)
    (m0 : Spec.Conf.State) (h0 : Rep s0 m0) (hc : Spec.Walk.Closed m0) (hm : Sane m0) (acts : List Act) (ha : ∀ a ∈ acts, Allowed a) :
    ∃ more N s, (∀ a ∈ more, Running a) ∧ (∀ n, N ≤ n → run I n { conf := s0 } (acts ++ more) = s) ∧
      s.waiting = none ∧ own s.hist = s.called ∧ s.client.deltas = noticed acts ∧ Explains m0 s.hist s.answers ∧
      Rep s.conf (after m0 s.hist) := by
  obtain ⟨N, s, reqs, reps, outs, h1, h2⟩ := run_inv I Rep hI m0 acts [] { conf := s0 } [] [.hello] [] (start_inv Rep m0 s0 h0 hc hm) ha
  obtain ⟨more, N', s', h3, h4, h5⟩ := drained I Rep hI m0 _ _ s reqs reps outs h2 rfl
  have hp := h5.phase
  have hw : s'.waiting = none := by
    cases hw : s'.waiting with
    | none => rfl
    | some op =>
      rw [hw] at hp
      obtain ⟨-, -, ⟨pre, h, -⟩ | ⟨-, a, h, -⟩⟩ := hp
      · have := congrArg List.length h; simp at this
      · exact absurd h (owes_ne op _ a)
  rw [hw] at hp
  refine ⟨more, max N N', s', h3, ?_, hw, ?_, ?_, hp.2.2.2.2, h5.rep⟩
  · intro n hn
    rw [run_append, h1 n (by omega), h4 n (by omega)]
  · rw [h5.called]; simp
  · have := h5.deltas
    simpa [notices] using this

namespace Rem
open Wv.Remote

instance (o : Option Byte) (p : Byte → Prop) [∀ c, Decidable (p c)] : Decidable (∀ c, o = some c → p c) :=
  match o with
  | none => .isTrue (by simp)
  | some c => decidable_of_iff (p c) (by simp)

instance (o : Option Text) (p : Text → Prop) [∀ c, Decidable (p c)] : Decidable (∀ c, o = some c → p c) :=
  match o with
  | none => .isTrue (by simp)
  | some c => decidable_of_iff (p c) (by simp)

instance (t : Text) : Decidable (Fits t) := inferInstanceAs (Decidable (_ ∧ _))

instance : (op : Op) → Decidable (Plain op)
  | .get k => inferInstanceAs (Decidable (Fits (written k)))
  | .set k v => inferInstanceAs (Decidable (Fits (written k) ∧ Fits v))
  | .remove k => inferInstanceAs (Decidable (Fits (written k) ∧
      (∀ c, (Spec.Path.write (Spec.Path.names k) false).getLast? = some c → white c = false) ∧ Spec.Path.names k ≠ [[46]]))
  | .haschildren k => inferInstanceAs (Decidable (Fits (written k)))
  | .iterator k => inferInstanceAs (Decidable (Fits (written k) ∧ Spec.Path.dir k = false))
  | .commit => .isTrue trivial
  | .refresh => .isTrue trivial

instance : (x : Act) → Decidable (Allowed x)
  | .call op => inferInstanceAs (Decidable (Plain op))
  | .notice k v => inferInstanceAs (Decidable (Fits (written k) ∧ ∀ x, v = some x → Fits x))
  | .other k v => inferInstanceAs (Decidable (0 ∉ written k ∧ ∀ x, v = some x → Fits x))
  | .callback => .isTrue trivial
  | .up _ => .isTrue trivial
  | .down _ => .isTrue trivial
  | .execute => .isTrue trivial
  | .emit => .isTrue trivial

/-- everything is delivered and looked at -/
def round : List Act := [.up 999, .execute, .emit, .emit, .emit, .down 999, .callback, .callback, .callback]

/-- A program, without regard to what comes in between: each operation, and then `round` three times. -/
def program (l : List Op) : List Act := l.flatMap fun op => .call op :: (round ++ round ++ round)

def a : Text := str ['a']
def b : Text := str ['b']
def one : Text := str ['1']
/-- an opening brace and a newline -/
def bad : Text := [123, 10]

/-- `execute` some number of times: the configuration afterwards and all that is to be written. -/
def executes {σ : Type} (I : IGen σ) (n : Nat) : Nat → σ → Conn → σ × List (List Byte)
  | 0, s, _ => (s, [])
  | i + 1, s, d =>
    let r := Wv.Remote.execute I n s d
    let q := executes I n i r.2.1 r.1
    (q.1, r.2.2 ++ q.2)

theorem execute_msg {σ : Type} (I : IGen σ) (n : Nat) (s : σ) (m : Msg) (ms : List Msg) (hm : ∀ x ∈ m :: ms, CStrings x) (d : Conn)
    (h : Ln.Inv ((m :: ms).map Uc.body) [] d) :
    ∃ a1 a2 d', Wv.Remote.execute I n s d = (d', serve I n s (.cmd m.1) (name m.1) a1 a2) ∧ Ln.Inv (ms.map Uc.body) [] d' := by
  have hline : ∀ b ∈ (m :: ms).map Uc.body, Ln.Line b := by
    intro b hb
    obtain ⟨r, h1, rfl⟩ := List.mem_map.mp hb
    exact Ln.line_body _ (hm r h1)
  rcases Ln.readmsg_inv [] _ hline _ d rfl h with ⟨h1, h2, h3⟩ | ⟨b, bs', hb, h1, h2⟩
  · have := h3 _ _ rfl
    simp at this
  · simp only [List.map_cons, List.cons.injEq] at hb
    obtain ⟨rfl, rfl⟩ := hb
    have hrc : readcmd d = (.cmd m.1, name m.1, { (readmsg d).2 with payloadbuf := Uc.tail m.2 }) := by
      unfold readcmd
      rcases hm : readmsg d with ⟨_ | x, c'⟩
      · rw [hm] at h1; simp at h1
      · rw [hm] at h1
        simp only [Option.some.injEq] at h1
        subst h1
        simp only [readarg, Uc.getword_name, Uc.lookup_name]
    obtain ⟨-, -, q, a3⟩ := readargs (Uc.tail m.2) { (readmsg d).2 with payloadbuf := Uc.tail m.2 } rfl
    refine ⟨(readarg { (readmsg d).2 with payloadbuf := Uc.tail m.2 }).1, (readarg (readarg { (readmsg d).2 with payloadbuf := Uc.tail m.2 }).2).1,
      { (readmsg d).2 with payloadbuf := q }, ?_, h2⟩
    unfold Wv.Remote.execute
    rw [hrc]
    simp only [reduceCtorEq, if_false, a3]

end Rem

open Wv.Remote Rem in
/-- C56: `setv` does nothing. The daemon says that it has version 19, for which the client writes commands that the daemon does not know: it
    changes nothing and writes a failure for each pair and one more, all of which the client takes for replies to what it asks later. -/
theorem C56_setv_fails : (Wv.Remote.callback { conn := arrive {} hello }).version = 19 ∧
    ∀ {σ : Type} (I : IGen σ) (n : Nat) (s : σ) (l : List (Text × Text)), (∀ x ∈ l, 0 ∉ written x.1 ∧ 0 ∉ x.2) →
      executes I n (l.length + 1) s (arrive {} (requestv 19 l)) = (s, List.replicate (l.length + 1) (do_invalid (name 3))) := by
  refine ⟨by decide +kernel, ?_⟩
  intro σ I n s l hl
  have hw : requestv 19 l = Ln.wire ((l.map (fun x : Text × Text => ((3, [written x.1, x.2]) : Msg)) ++ [(3, [])]).map Uc.body) := by
    unfold requestv Ln.wire
    rw [if_pos (by decide), List.map_append, List.flatMap_append]
    congr 1
    rw [List.map_map, List.flatMap_map]
    apply congrArg (fun f => List.flatMap f l)
    funext x
    simp only [Function.comp]
    rw [← Uc.writecmd_body, printable_written]
    rfl
  have hd : Ln.Inv ((l.map (fun x : Text × Text => ((3, [written x.1, x.2]) : Msg)) ++ [(3, [])]).map Uc.body) [] (arrive {} (requestv 19 l)) := by
    refine Ln.arrive_inv ?_
    have := Ln.write_inv Ln.new_inv ((l.map (fun x : Text × Text => ((3, [written x.1, x.2]) : Msg)) ++ [(3, [])]).map Uc.body)
    rw [List.append_nil, hw]
    exact this
  generalize arrive {} (requestv 19 l) = d at hd
  clear hw
  have hserve : ∀ a1 a2, serve I n s (.cmd 3) (name 3) a1 a2 = (s, [do_invalid (name 3)]) := fun _ _ => rfl
  induction l generalizing d with
  | nil =>
    obtain ⟨a1, a2, d', h1, h2⟩ := execute_msg I n s (3, []) [] (by intro x hx; simp at hx; subst hx; intro y hy; simp at hy) d hd
    simp [executes, h1, hserve, List.replicate]
  | cons x l ih =>
    obtain ⟨a1, a2, d', h1, h2⟩ := execute_msg I n s (3, [written x.1, x.2]) (l.map (fun x : Text × Text => ((3, [written x.1, x.2]) : Msg)) ++ [(3, [])]) (by
      intro y hy
      rcases List.mem_cons.mp hy with rfl | hy
      · intro z hz
        simp at hz
        rcases hz with rfl | rfl
        · exact (hl x (by simp)).1
        · exact (hl x (by simp)).2
      · rcases List.mem_append.mp hy with hy | hy
        · obtain ⟨w, hw, rfl⟩ := List.mem_map.mp hy
          intro z hz
          simp at hz
          rcases hz with rfl | rfl
          · exact (hl w (by simp [hw])).1
          · exact (hl w (by simp [hw])).2
        · simp at hy; subst hy; intro z hz; simp at hz) d (by simpa using hd)
    have := ih (fun y hy => hl y (by simp [hy])) d' h2
    rw [List.length_cons, executes]
    simp only [h1, hserve]
    rw [this]
    simp [List.replicate_succ]

open Wv.Remote Rem in
/-- C56: when a value with an opening brace that is not closed and a newline at the end is set, reads come back without a value: the daemon
    writes a failure, and unless the client sees it before it asks, it takes it for the reply, and then each reply for the one to the
    next question. -/
theorem C56_set_fails : ∃ (acts : List Act) (c : Text), let s := Remote.run (IGen.temp id) 100 { conf := TempGen.new } acts
    s.called = [.set a bad, .set b one, .get b, .set c one, .get c] ∧ own s.hist = s.called ∧ s.answers = [.value none, .value none] :=
  ⟨[.call (.set a bad), .call (.set b one), .call (.get b), .up 99, .execute, .emit, .execute, .execute, .emit, .down 99, .callback, .callback,
    .call (.set (str ['c']) one), .call (.get (str ['c'])), .up 99, .execute, .execute, .emit, .down 99, .callback], str ['c'], by decide +kernel⟩

open Wv.Remote Rem in
/-- C56: such a value, set by someone else, is not read. -/
theorem C56_get_fails : ∃ acts : List Act, let s := Remote.run (IGen.temp id) 100 { conf := TempGen.new } acts
    s.hist = [.other a (some bad), .own (.get a)] ∧ s.answers = [.value none] :=
  ⟨.other a (some bad) :: program [.get a], by decide +kernel⟩

open Wv.Remote Rem in
/-- C56: removing a key that ends with a space removes another key, and not the key. -/
theorem C56_remove_space_fails : ∃ acts : List Act, let s := Remote.run (IGen.temp id) 100 { conf := TempGen.new } acts
    s.hist = [.own (.set a one), .own (.set (a ++ [32]) one), .own (.remove (a ++ [32])), .own (.get a), .own (.get (a ++ [32]))] ∧
    s.answers = [.value none, .value (some one)] :=
  ⟨program [.set a one, .set (a ++ [32]) one, .remove (a ++ [32]), .get a, .get (a ++ [32])], by decide +kernel⟩

open Wv.Remote Rem in
/-- C56: removing the key "." removes what is below it, but not the key. -/
theorem C56_remove_dot_fails : ∃ acts : List Act, let s := Remote.run (IGen.temp id) 100 { conf := TempGen.new } acts
    s.hist = [.own (.set (str ['.', '/', 'a']) one), .own (.remove (str ['.'])), .own (.get (str ['.', '/', 'a'])), .own (.get (str ['.']))] ∧
    s.answers = [.value none, .value (some [])] :=
  ⟨program [.set (str ['.', '/', 'a']) one, .remove (str ['.']), .get (str ['.', '/', 'a']), .get (str ['.'])], by decide +kernel⟩

open Wv.Remote Rem in
/-- C56: an iterator over a key that is written with a slash at its end is null, though it is not when the generator is used itself. -/
theorem C56_iterator_fails : ∃ acts : List Act, let s := Remote.run (IGen.temp id) 100 { conf := TempGen.new } acts
    s.hist = [.own (.set (str ['a', '/', 'b']) one), .own (.iterator (str ['a', '/']))] ∧ s.answers = [.list none] ∧
    (IGen.temp id).iterator s.conf (Key.parse (str ['a', '/'])) = some [(Key.parse b, some one)] :=
  ⟨program [.set (str ['a', '/', 'b']) one, .iterator (str ['a', '/'])], by decide +kernel⟩

open Wv.Remote Rem in
/-- A run that is covered: answers come while someone else changes things, a notification comes, and bytes come in pieces. -/
example : ∃ acts : List Act, (∀ x ∈ acts, Allowed x) ∧
    (let s := Remote.run (IGen.temp id) 100 { conf := TempGen.new } acts
     s.hist = [.own (.set (str ['a', '/', 'b']) one), .other a (some bad.tail), .own (.iterator a), .own (.remove a), .own (.get (str ['a', '/', 'b']))] ∧
     s.answers = [.list (some [(b, one)]), .value none] ∧ s.client.deltas = [(Key.parse a, some bad.tail)]) := by
  refine ⟨[.call (.set (str ['a', '/', 'b']) one), .up 3, .execute, .up 30, .execute, .other a (some bad.tail), .notice a (some bad.tail), .call (.iterator a), .up 9,
    .down 11, .callback, .execute, .up 5, .execute, .emit, .down 40, .callback, .callback, .emit, .down 20, .callback, .callback, .callback,
    .call (.remove a), .call (.get (str ['a', '/', 'b'])), .up 50, .execute, .execute, .emit, .down 50, .callback], by decide +kernel, by decide +kernel⟩

end Props
