import Verif.Model.Buf.Any
import Verif.Lemmas.Buf.Dyn
/-
Stores of any kind are lawful; the kind never changes; and one call does what the specification says.
-/
namespace Wv.Buf
open Store Spec.Queue

namespace Any

def AInv : Any → Prop
  | .inplace s => Lawful.Inv s
  | .circ s => Lawful.Inv s
  | .dyn s => Lawful.Inv s

def ahist : Any → List Byte
  | .inplace s => Lawful.hist s
  | .circ s => Lawful.hist s
  | .dyn s => Lawful.hist s

def acont : Any → List Byte
  | .inplace s => Lawful.cont s
  | .circ s => Lawful.cont s
  | .dyn s => Lawful.cont s

def AAt : Any → Loc → Int → Nat → Prop
  | .inplace s, p, o, n => Lawful.At s p o n
  | .circ s, p, o, n => Lawful.At s p o n
  | .dyn s, p, o, n => Lawful.At s p o n

def ANeg : Any → Prop
  | .inplace s => Lawful.NegOk s
  | .circ s => Lawful.NegOk s
  | .dyn s => Lawful.NegOk s

def APeek : Any → Int → Nat → Prop
  | .inplace s, o, n => Lawful.PeekOk s o n
  | .circ s, o, n => Lawful.PeekOk s o n
  | .dyn s, o, n => Lawful.PeekOk s o n

instance : Lawful Any where
  Inv := AInv
  hist := ahist
  cont := acont
  At := AAt
  NegOk := ANeg
  PeekOk := APeek
  used_eq s h := by
    cases s with
    | inplace s => exact Lawful.used_eq (σ := InPlace) s h
    | circ s => exact Lawful.used_eq (σ := Circ) s h
    | dyn s => exact Lawful.used_eq (σ := Dyn) s h
  ungettable_eq s h := by
    cases s with
    | inplace s => exact Lawful.ungettable_eq (σ := InPlace) s h
    | circ s => exact Lawful.ungettable_eq (σ := Circ) s h
    | dyn s => exact Lawful.ungettable_eq (σ := Dyn) s h
  optgettable_law s h := by
    cases s with
    | inplace s => exact Lawful.optgettable_law (σ := InPlace) s h
    | circ s => exact Lawful.optgettable_law (σ := Circ) s h
    | dyn s => exact Lawful.optgettable_law (σ := Dyn) s h
  zap_law s h := by
    cases s with
    | inplace s => exact Lawful.zap_law (σ := InPlace) s h
    | circ s => exact Lawful.zap_law (σ := Circ) s h
    | dyn s => exact Lawful.zap_law (σ := Dyn) s h
  optallocable_law s h hf := by
    cases s with
    | inplace s => exact Lawful.optallocable_law (σ := InPlace) s h hf
    | circ s => exact Lawful.optallocable_law (σ := Circ) s h hf
    | dyn s => exact Lawful.optallocable_law (σ := Dyn) s h hf
  optpeekable_law s off h h0 h1 := by
    cases s with
    | inplace s => exact Lawful.optpeekable_law (σ := InPlace) s off h h0 h1
    | circ s => exact Lawful.optpeekable_law (σ := Circ) s off h h0 h1
    | dyn s => exact Lawful.optpeekable_law (σ := Dyn) s off h h0 h1
  at_bound s p off n ha := by
    cases s with
    | inplace s => exact Lawful.at_bound (σ := InPlace) s p off n ha
    | circ s => exact Lawful.at_bound (σ := Circ) s p off n ha
    | dyn s => exact Lawful.at_bound (σ := Dyn) s p off n ha
  at_add s p off n k h ha hk := by
    cases s with
    | inplace s => exact Lawful.at_add (σ := InPlace) s p off n k h ha hk
    | circ s => exact Lawful.at_add (σ := Circ) s p off n k h ha hk
    | dyn s => exact Lawful.at_add (σ := Dyn) s p off n k h ha hk
  read_law s p off n m h ha hm := by
    cases s with
    | inplace s => exact Lawful.read_law (σ := InPlace) s p off n m h ha hm
    | circ s => exact Lawful.read_law (σ := Circ) s p off n m h ha hm
    | dyn s => exact Lawful.read_law (σ := Dyn) s p off n m h ha hm
  get_law s n h hn := by
    cases s with
    | inplace s =>
      obtain ⟨p, s', e1, e2⟩ := Lawful.get_law (σ := InPlace) s n h hn
      exact ⟨p, .inplace s', by show (Store.get s n).map _ = _; rw [e1]; rfl, e2⟩
    | circ s =>
      obtain ⟨p, s', e1, e2⟩ := Lawful.get_law (σ := Circ) s n h hn
      exact ⟨p, .circ s', by show (Store.get s n).map _ = _; rw [e1]; rfl, e2⟩
    | dyn s =>
      obtain ⟨p, s', e1, e2⟩ := Lawful.get_law (σ := Dyn) s n h hn
      exact ⟨p, .dyn s', by show (Store.get s n).map _ = _; rw [e1]; rfl, e2⟩
  unget_law s n h hn := by
    cases s with
    | inplace s =>
      obtain ⟨s', e1, e2⟩ := Lawful.unget_law (σ := InPlace) s n h hn
      exact ⟨.inplace s', by show (Store.unget s n).map _ = _; rw [e1]; rfl, e2⟩
    | circ s =>
      obtain ⟨s', e1, e2⟩ := Lawful.unget_law (σ := Circ) s n h hn
      exact ⟨.circ s', by show (Store.unget s n).map _ = _; rw [e1]; rfl, e2⟩
    | dyn s =>
      obtain ⟨s', e1, e2⟩ := Lawful.unget_law (σ := Dyn) s n h hn
      exact ⟨.dyn s', by show (Store.unget s n).map _ = _; rw [e1]; rfl, e2⟩
  alloc_law s n h hn := by
    cases s with
    | inplace s =>
      obtain ⟨p, s', g, e1, e2⟩ := Lawful.alloc_law (σ := InPlace) s n h hn
      exact ⟨p, .inplace s', g, by show (Store.alloc s n).map _ = _; rw [e1]; rfl, e2⟩
    | circ s =>
      obtain ⟨p, s', g, e1, e2⟩ := Lawful.alloc_law (σ := Circ) s n h hn
      exact ⟨p, .circ s', g, by show (Store.alloc s n).map _ = _; rw [e1]; rfl, e2⟩
    | dyn s =>
      obtain ⟨p, s', g, e1, e2⟩ := Lawful.alloc_law (σ := Dyn) s n h hn
      exact ⟨p, .dyn s', g, by show (Store.alloc s n).map _ = _; rw [e1]; rfl, e2⟩
  unalloc_law s n h hn := by
    cases s with
    | inplace s =>
      obtain ⟨s', e1, e2⟩ := Lawful.unalloc_law (σ := InPlace) s n h hn
      exact ⟨.inplace s', by show (Store.unalloc s n).map _ = _; rw [e1]; rfl, e2⟩
    | circ s =>
      obtain ⟨s', e1, e2⟩ := Lawful.unalloc_law (σ := Circ) s n h hn
      exact ⟨.circ s', by show (Store.unalloc s n).map _ = _; rw [e1]; rfl, e2⟩
    | dyn s =>
      obtain ⟨s', e1, e2⟩ := Lawful.unalloc_law (σ := Dyn) s n h hn
      exact ⟨.dyn s', by show (Store.unalloc s n).map _ = _; rw [e1]; rfl, e2⟩
  mutablepeek_law s off n h h0 h1 hn hneg h2 := by
    cases s with
    | inplace s =>
      obtain ⟨p, s', e1, e2⟩ := Lawful.mutablepeek_law (σ := InPlace) s off n h h0 h1 hn hneg h2
      exact ⟨p, .inplace s', by show (Store.mutablepeek s off n).map _ = _; rw [e1]; rfl, e2⟩
    | circ s =>
      obtain ⟨p, s', e1, e2⟩ := Lawful.mutablepeek_law (σ := Circ) s off n h h0 h1 hn hneg h2
      exact ⟨p, .circ s', by show (Store.mutablepeek s off n).map _ = _; rw [e1]; rfl, e2⟩
    | dyn s =>
      obtain ⟨p, s', e1, e2⟩ := Lawful.mutablepeek_law (σ := Dyn) s off n h h0 h1 hn hneg h2
      exact ⟨p, .dyn s', by show (Store.mutablepeek s off n).map _ = _; rw [e1]; rfl, e2⟩
  peek_law s off n h h0 h1 hn hneg h2 := by
    cases s with
    | inplace s =>
      obtain ⟨p, s', e1, e2⟩ := Lawful.peek_law (σ := InPlace) s off n h h0 h1 hn hneg h2
      exact ⟨p, .inplace s', by show (Store.mutablepeek s off n).map _ = _; rw [e1]; rfl, e2⟩
    | circ s =>
      obtain ⟨p, s', e1, e2⟩ := Lawful.peek_law (σ := Circ) s off n h h0 h1 hn hneg h2
      exact ⟨p, .circ s', by show (Store.mutablepeek s off n).map _ = _; rw [e1]; rfl, e2⟩
    | dyn s =>
      obtain ⟨p, s', e1, e2⟩ := Lawful.peek_law (σ := Dyn) s off n h h0 h1 hn hneg h2
      exact ⟨p, .dyn s', by show (Store.mutablepeek s off n).map _ = _; rw [e1]; rfl, e2⟩
  write_law s p off n d h ha hd := by
    cases s with
    | inplace s =>
      obtain ⟨s', e1, e2⟩ := Lawful.write_law (σ := InPlace) s p off n d h ha hd
      exact ⟨.inplace s', by show (Store.write s p d).map _ = _; rw [e1]; rfl, e2⟩
    | circ s =>
      obtain ⟨s', e1, e2⟩ := Lawful.write_law (σ := Circ) s p off n d h ha hd
      exact ⟨.circ s', by show (Store.write s p d).map _ = _; rw [e1]; rfl, e2⟩
    | dyn s =>
      obtain ⟨s', e1, e2⟩ := Lawful.write_law (σ := Dyn) s p off n d h ha hd
      exact ⟨.dyn s', by show (Store.write s p d).map _ = _; rw [e1]; rfl, e2⟩

/-- The kind of a store. -/
def kind : Any → Kind
  | .inplace s => .inplace s.xsize
  | .circ s => .circular s.xsize
  | .dyn s => .dynamic s.granularity s.minalloc s.maxalloc

end Any

/-- Something the primitive operations of a store do not change. -/
structure Stable {σ α : Type} [Store σ] (f : σ → α) : Prop where
  get : ∀ s n p s', get s n = some (p, s') → f s' = f s
  alloc : ∀ s n p s', alloc s n = some (p, s') → f s' = f s
  peek : ∀ s o n p s', mutablepeek s o n = some (p, s') → f s' = f s
  unget : ∀ s n s', unget s n = some s' → f s' = f s
  unalloc : ∀ s n s', unalloc s n = some s' → f s' = f s
  write : ∀ s p d s', write s p d = some s' → f s' = f s
  zap : ∀ s, f (zap s) = f s

section
variable {σ τ α β : Type} [Store σ] [Store τ] {f : σ → α} {g : τ → β}

theorem Stable.putLoop (h : Stable f) (fuel : Nat) : ∀ (s : σ) (d : List Byte) (s' : σ), putLoop s fuel d = some s' → f s' = f s := by
  induction fuel with
  | zero =>
    intro s d s' e
    cases d with
    | nil => simp [Buf.putLoop] at e; rw [e]
    | cons c cs => simp [Buf.putLoop] at e
  | succ fuel ih =>
    intro s d s' e
    cases d with
    | nil => simp [Buf.putLoop] at e; rw [e]
    | cons c cs =>
      rw [Buf.putLoop] at e
      dsimp only at e
      split at e
      · cases e
      · simp only [Option.bind_eq_bind, Option.bind_eq_some_iff] at e
        obtain ⟨⟨p, s1⟩, e1, s2, e2, e3⟩ := e
        rw [ih _ _ _ e3, h.write _ _ _ _ e2, h.alloc _ _ _ _ e1]

theorem Stable.copyLoop (h : Stable f) (fuel : Nat) : ∀ (s : σ) (o : Int) (n : Nat) (d : List Byte) (s' : σ),
    copyLoop s o fuel n = some (d, s') → f s' = f s := by
  induction fuel with
  | zero =>
    intro s o n d s' e
    cases n with
    | zero => simp [Buf.copyLoop] at e; rw [e.2]
    | succ n => simp [Buf.copyLoop] at e
  | succ fuel ih =>
    intro s o n d s' e
    cases n with
    | zero => simp [Buf.copyLoop] at e; rw [e.2]
    | succ n =>
      rw [Buf.copyLoop] at e
      dsimp only at e
      split at e
      · cases e
      · simp only [Option.bind_eq_bind, Option.bind_eq_some_iff] at e
        obtain ⟨⟨p, s1⟩, e1, d1, e2, ⟨d2, s2⟩, e3, e4⟩ := e
        cases e4
        rw [ih _ _ _ _ _ e3, h.peek _ _ _ _ _ e1]

theorem Stable.pokeLoop (h : Stable f) (fuel : Nat) : ∀ (s : σ) (o : Int) (d : List Byte) (s' : σ),
    pokeLoop s o fuel d = some s' → f s' = f s := by
  induction fuel with
  | zero =>
    intro s o d s' e
    cases d with
    | nil => simp [Buf.pokeLoop] at e; rw [e]
    | cons c cs => simp [Buf.pokeLoop] at e
  | succ fuel ih =>
    intro s o d s' e
    cases d with
    | nil => simp [Buf.pokeLoop] at e; rw [e]
    | cons c cs =>
      rw [Buf.pokeLoop] at e
      dsimp only at e
      split at e
      · cases e
      · simp only [Option.bind_eq_bind, Option.bind_eq_some_iff] at e
        obtain ⟨⟨p, s1⟩, e1, s2, e2, e3⟩ := e
        rw [ih _ _ _ _ e3, h.write _ _ _ _ e2, h.peek _ _ _ _ _ e1]

theorem Stable.poke (h : Stable f) (s : σ) (d : List Byte) (o : Int) (s' : σ) (e : poke s d o = some s') : f s' = f s := by
  unfold Buf.poke at e
  dsimp only at e
  split at e
  · split at e
    · simp only [Option.bind_eq_bind, Option.bind_eq_some_iff] at e
      obtain ⟨s1, e1, e2⟩ := e
      rw [h.pokeLoop _ _ _ _ _ e2, h.putLoop _ _ _ _ e1]
    · exact h.pokeLoop _ _ _ _ _ e
  · cases e

theorem Stable.mergeLoop (hf : Stable f) (hg : Stable g) (fuel : Nat) : ∀ (d : σ) (s : τ) (ip : Loc) (ia : Nat) (op : Loc) (oa n : Nat) (d' : σ)
    (s' : τ), mergeLoop d s ip ia op oa fuel n = some (d', s') → f d' = f d ∧ g s' = g s := by
  induction fuel with
  | zero => intro d s ip ia op oa n d' s' e; simp [Buf.mergeLoop] at e
  | succ fuel ih =>
    intro d s ip ia op oa n d' s' e
    rw [Buf.mergeLoop] at e
    simp only [Option.bind_eq_bind, Option.bind_eq_some_iff] at e
    obtain ⟨⟨ip1, ia1, s1⟩, e1, ⟨op1, oa1, d1⟩, e2, e3⟩ := e
    have h1 : g s1 = g s := by
      unfold refillIn at e1
      dsimp only at e1
      split at e1
      · split at e1
        · cases e1
        · simp only [Option.map_eq_some_iff] at e1
          obtain ⟨⟨p, s2⟩, r1, r2⟩ := e1
          cases r2
          exact hg.get _ _ _ _ r1
      · cases e1; rfl
    have h2 : f d1 = f d := by
      unfold refillOut at e2
      dsimp only at e2
      split at e2
      · split at e2
        · cases e2
        · simp only [Option.map_eq_some_iff] at e2
          obtain ⟨⟨p, s2⟩, r1, r2⟩ := e2
          cases r2
          exact hf.alloc _ _ _ _ r1
      · cases e2; rfl
    dsimp only at e3
    split at e3
    · simp only [Option.bind_eq_some_iff] at e3
      obtain ⟨x, r1, d2, r2, r3⟩ := e3
      split at r3
      · simp only [Option.bind_eq_some_iff] at r3
        obtain ⟨d3, r3, r4⟩ := r3
        cases r4
        exact ⟨by rw [hf.unalloc _ _ _ r3, hf.write _ _ _ _ r2, h2], h1⟩
      · have := ih _ _ _ _ _ _ _ _ _ r3
        exact ⟨by rw [this.1, hf.write _ _ _ _ r2, h2], by rw [this.2, h1]⟩
    · simp only [Option.bind_eq_some_iff] at e3
      obtain ⟨x, r1, d2, r2, r3⟩ := e3
      split at r3
      · cases r3
        exact ⟨by rw [hf.write _ _ _ _ r2, h2], h1⟩
      · have := ih _ _ _ _ _ _ _ _ _ r3
        exact ⟨by rw [this.1, hf.write _ _ _ _ r2, h2], by rw [this.2, h1]⟩

theorem Stable.basicmerge (hf : Stable f) (hg : Stable g) (d : σ) (s : τ) (n : Nat) (d' : σ) (s' : τ)
    (e : basicmerge d s n = some (d', s')) : f d' = f d ∧ g s' = g s := by
  unfold Buf.basicmerge at e
  split at e
  · cases e; exact ⟨rfl, rfl⟩
  · exact hf.mergeLoop hg _ _ _ _ _ _ _ _ _ _ e

end

theorem Circ.ec_xsize (s : Circ) (o : Int) (n : Nat) (k : Bool) (a : Nat) (s' : Circ) (e : s.ensurecontiguous o n k = some (a, s')) :
    s'.xsize = s.xsize := by
  unfold Circ.ensurecontiguous at e
  split at e
  · cases e
  · dsimp only at e
    split at e
    · split at e
      · cases e
      · cases e; rfl
    · cases e; rfl

theorem Circ.stable : Stable Circ.xsize where
  get s n p s' e := by
    change s.get n = _ at e
    unfold Circ.get at e
    split at e
    · split at e
      · cases e
      · rename_i h; cases e; have := Circ.ec_xsize _ _ _ _ _ _ h; exact this
    · cases e
  alloc s n p s' e := by
    change s.alloc n = _ at e
    unfold Circ.alloc at e
    split at e
    · dsimp only at e
      split at e
      · cases e
      · rename_i h; cases e; have := Circ.ec_xsize _ _ _ _ _ _ h; exact this
    · cases e
  peek s o n p s' e := by
    change s.mutablepeek o n = _ at e
    unfold Circ.mutablepeek at e
    split at e
    · cases e; rfl
    · repeat' split at e
      all_goals first
        | (cases e; done)
        | (rename_i h; cases e; have := Circ.ec_xsize _ _ _ _ _ _ h; exact this)
  unget s n s' e := by
    change s.unget n = _ at e
    unfold Circ.unget at e
    split at e
    · cases e; rfl
    · cases e
  unalloc s n s' e := by
    change s.unalloc n = _ at e
    unfold Circ.unalloc at e
    split at e
    · cases e; rfl
    · cases e
  write s p d s' e := by
    change s.write p d = _ at e
    unfold Circ.write at e
    split at e
    · cases e; rfl
    · split at e
      · cases e; rfl
      · cases e
  zap _ := rfl

theorem InPlace.stable : Stable InPlace.xsize where
  get s n p s' e := by
    change s.get n = _ at e
    unfold InPlace.get at e
    split at e
    · cases e; rfl
    · cases e
  alloc s n p s' e := by
    change s.alloc n = _ at e
    unfold InPlace.alloc at e
    split at e
    · cases e; rfl
    · cases e
  peek s o n p s' e := by
    change s.mutablepeek o n = _ at e
    unfold InPlace.mutablepeek at e
    repeat' split at e
    all_goals first
      | (cases e; done)
      | (cases e; rfl)
  unget s n s' e := by
    change s.unget n = _ at e
    unfold InPlace.unget at e
    split at e
    · cases e; rfl
    · cases e
  unalloc s n s' e := by
    change s.unalloc n = _ at e
    unfold InPlace.unalloc at e
    split at e
    · cases e; rfl
    · cases e
  write s p d s' e := by
    change (if d = [] then some s else _) = _ at e
    split at e
    · cases e; rfl
    · split at e
      · cases e; rfl
      · cases e
  zap _ := rfl

/-- The parameters of a dynamic buffer. -/
def Dyn.params (s : Dyn) : Nat × Nat × Nat := (s.granularity, s.minalloc, s.maxalloc)

theorem Dyn.linkedalloc_params (s : Dyn) (n : Nat) (p : Loc) (s' : Dyn) (e : s.linkedalloc n = some (p, s')) : s'.params = s.params := by
  unfold Dyn.linkedalloc at e
  split at e
  · cases e; rfl
  · split at e
    · cases e
    · simp only [Option.map_eq_some_iff] at e
      obtain ⟨_, _, h⟩ := e
      cases h; rfl

theorem Dyn.stable : Stable Dyn.params where
  get s n p s' e := by
    change s.get n = _ at e
    unfold Dyn.get at e
    split at e
    · cases e
    · split at e
      · cases e; rfl
      · split at e
        · split at e
          · cases e
          · dsimp only at e
            split at e
            · cases e
            · simp only [Option.map_eq_some_iff] at e
              obtain ⟨_, _, h⟩ := e
              cases h; rfl
        · cases e
  alloc s n p s' e := by
    change s.alloc n = _ at e
    unfold Dyn.alloc at e
    split at e
    · split at e
      · cases e
      · have := Dyn.linkedalloc_params _ _ _ _ e; exact this
    · exact Dyn.linkedalloc_params _ _ _ _ e
  peek s o n p s' e := by
    change s.mutablepeek o n = _ at e
    unfold Dyn.mutablepeek at e
    split at e
    · cases e; rfl
    · split at e
      · cases e
      · split at e
        · cases e
        · simp only [Option.map_eq_some_iff] at e
          obtain ⟨_, _, h⟩ := e
          cases h; rfl
  unget s n s' e := by
    change s.unget n = _ at e
    unfold Dyn.unget at e
    split at e
    · cases e
    · split at e
      · cases e; rfl
      · split at e
        · cases e
        · split at e
          · simp only [Option.map_eq_some_iff] at e
            obtain ⟨_, _, h⟩ := e
            cases h; rfl
          · cases e
  unalloc s n s' e := by
    change s.unalloc n = _ at e
    unfold Dyn.unalloc at e
    split at e
    · simp only [Option.map_eq_some_iff] at e
      obtain ⟨_, _, h⟩ := e
      cases h; rfl
    · cases e
  write s p d s' e := by
    change s.write p d = _ at e
    unfold Dyn.write at e
    split at e
    · cases e; rfl
    · split at e
      · cases e
      · simp only [Option.map_eq_some_iff] at e
        obtain ⟨_, _, h⟩ := e
        cases h; rfl
  zap _ := rfl

theorem Dyn.steal_params (l : List Circ) : ∀ (d s : Dyn) (n : Nat), (Dyn.stealLoop d s l n).1.params = d.params ∧
    (Dyn.stealLoop d s l n).2.1.params = s.params := by
  induction l with
  | nil => intro d s n; exact ⟨rfl, rfl⟩
  | cons b bs ih =>
    intro d s n
    rw [Dyn.stealLoop]
    split
    · exact ⟨rfl, rfl⟩
    · dsimp only
      split
      · exact ⟨rfl, rfl⟩
      · exact ih _ _ _

theorem Dyn.merge_params (d s : Dyn) (n : Nat) (d' s' : Dyn) (e : Dyn.merge d s n = some (d', s')) :
    d'.params = d.params ∧ s'.params = s.params := by
  unfold Dyn.merge at e
  split at e
  · cases e; exact ⟨rfl, rfl⟩
  · have h := Dyn.steal_params s.list d s n
    dsimp only at e
    split at e
    · cases e; exact h
    · have := Dyn.stable.basicmerge Dyn.stable _ _ _ _ _ e
      exact ⟨by rw [this.1, h.1], by rw [this.2, h.2]⟩

namespace Any

theorem kind_circ (s s' : Circ) (h : s'.xsize = s.xsize) : kind (.circ s') = kind (.circ s) := by simp [kind, h]
theorem kind_inplace (s s' : InPlace) (h : s'.xsize = s.xsize) : kind (.inplace s') = kind (.inplace s) := by simp [kind, h]
theorem kind_dyn (s s' : Dyn) (h : s'.params = s.params) : kind (.dyn s') = kind (.dyn s) := by
  simp [Dyn.params] at h
  simp [kind, h]

theorem stable : Stable kind where
  get s n p s' e := by
    cases s with
    | inplace s =>
      obtain ⟨r, e1, e2⟩ := Option.map_eq_some_iff.mp e
      cases e2
      exact kind_inplace _ _ (InPlace.stable.get _ _ _ _ e1)
    | circ s =>
      obtain ⟨r, e1, e2⟩ := Option.map_eq_some_iff.mp e
      cases e2
      exact kind_circ _ _ (Circ.stable.get _ _ _ _ e1)
    | dyn s =>
      obtain ⟨r, e1, e2⟩ := Option.map_eq_some_iff.mp e
      cases e2
      exact kind_dyn _ _ (Dyn.stable.get _ _ _ _ e1)
  alloc s n p s' e := by
    cases s with
    | inplace s =>
      obtain ⟨r, e1, e2⟩ := Option.map_eq_some_iff.mp e
      cases e2
      exact kind_inplace _ _ (InPlace.stable.alloc _ _ _ _ e1)
    | circ s =>
      obtain ⟨r, e1, e2⟩ := Option.map_eq_some_iff.mp e
      cases e2
      exact kind_circ _ _ (Circ.stable.alloc _ _ _ _ e1)
    | dyn s =>
      obtain ⟨r, e1, e2⟩ := Option.map_eq_some_iff.mp e
      cases e2
      exact kind_dyn _ _ (Dyn.stable.alloc _ _ _ _ e1)
  peek s o n p s' e := by
    cases s with
    | inplace s =>
      obtain ⟨r, e1, e2⟩ := Option.map_eq_some_iff.mp e
      cases e2
      exact kind_inplace _ _ (InPlace.stable.peek _ _ _ _ _ e1)
    | circ s =>
      obtain ⟨r, e1, e2⟩ := Option.map_eq_some_iff.mp e
      cases e2
      exact kind_circ _ _ (Circ.stable.peek _ _ _ _ _ e1)
    | dyn s =>
      obtain ⟨r, e1, e2⟩ := Option.map_eq_some_iff.mp e
      cases e2
      exact kind_dyn _ _ (Dyn.stable.peek _ _ _ _ _ e1)
  unget s n s' e := by
    cases s with
    | inplace s =>
      obtain ⟨r, e1, e2⟩ := Option.map_eq_some_iff.mp e
      cases e2
      exact kind_inplace _ _ (InPlace.stable.unget _ _ _ e1)
    | circ s =>
      obtain ⟨r, e1, e2⟩ := Option.map_eq_some_iff.mp e
      cases e2
      exact kind_circ _ _ (Circ.stable.unget _ _ _ e1)
    | dyn s =>
      obtain ⟨r, e1, e2⟩ := Option.map_eq_some_iff.mp e
      cases e2
      exact kind_dyn _ _ (Dyn.stable.unget _ _ _ e1)
  unalloc s n s' e := by
    cases s with
    | inplace s =>
      obtain ⟨r, e1, e2⟩ := Option.map_eq_some_iff.mp e
      cases e2
      exact kind_inplace _ _ (InPlace.stable.unalloc _ _ _ e1)
    | circ s =>
      obtain ⟨r, e1, e2⟩ := Option.map_eq_some_iff.mp e
      cases e2
      exact kind_circ _ _ (Circ.stable.unalloc _ _ _ e1)
    | dyn s =>
      obtain ⟨r, e1, e2⟩ := Option.map_eq_some_iff.mp e
      cases e2
      exact kind_dyn _ _ (Dyn.stable.unalloc _ _ _ e1)
  write s p d s' e := by
    cases s with
    | inplace s =>
      obtain ⟨r, e1, e2⟩ := Option.map_eq_some_iff.mp e
      cases e2
      exact kind_inplace _ _ (InPlace.stable.write _ _ _ _ e1)
    | circ s =>
      obtain ⟨r, e1, e2⟩ := Option.map_eq_some_iff.mp e
      cases e2
      exact kind_circ _ _ (Circ.stable.write _ _ _ _ e1)
    | dyn s =>
      obtain ⟨r, e1, e2⟩ := Option.map_eq_some_iff.mp e
      cases e2
      exact kind_dyn _ _ (Dyn.stable.write _ _ _ _ e1)
  zap s := by cases s <;> rfl

theorem merge_kind (d s : Any) (n : Nat) (d' s' : Any) (e : merge d s n = some (d', s')) :
    kind d' = kind d ∧ kind s' = kind s := by
  unfold merge at e
  split at e
  · obtain ⟨r, e1, e2⟩ := Option.map_eq_some_iff.mp e
    cases e2
    have := Dyn.merge_params _ _ _ _ _ e1
    exact ⟨kind_dyn _ _ this.1, kind_dyn _ _ this.2⟩
  · exact stable.basicmerge stable _ _ _ _ _ e

theorem exec_kind (s : Any) (op : Op) (out : List Byte) (s' : Any) (e : exec s op = some (out, s')) : kind s' = kind s := by
  cases op with
  | put d =>
    obtain ⟨r, e1, e2⟩ := Option.map_eq_some_iff.mp e
    cases e2
    exact stable.putLoop _ _ _ _ e1
  | alloc d =>
    obtain ⟨r, e1, e2⟩ := Option.map_eq_some_iff.mp e
    cases e2
    unfold fastput at e1
    simp only [Option.bind_eq_bind, Option.bind_eq_some_iff] at e1
    obtain ⟨⟨p, s1⟩, e1, e2⟩ := e1
    rw [stable.write _ _ _ _ e2, stable.alloc _ _ _ _ e1]
  | get n =>
    change (do let (p, s) ← Store.get s n; let d ← Store.read s p n; return (d, s)) = _ at e
    simp only [Option.bind_eq_bind, Option.bind_eq_some_iff] at e
    obtain ⟨⟨p, s1⟩, e1, d1, e2, e3⟩ := e
    cases e3
    exact stable.get _ _ _ _ e1
  | unget n =>
    obtain ⟨r, e1, e2⟩ := Option.map_eq_some_iff.mp e
    cases e2
    exact stable.unget _ _ _ e1
  | unalloc n =>
    obtain ⟨r, e1, e2⟩ := Option.map_eq_some_iff.mp e
    cases e2
    exact stable.unalloc _ _ _ e1
  | peek o n =>
    change (do let (p, s) ← Store.mutablepeek s o n; let d ← Store.read s p n; return (d, s)) = _ at e
    simp only [Option.bind_eq_bind, Option.bind_eq_some_iff] at e
    obtain ⟨⟨p, s1⟩, e1, d1, e2, e3⟩ := e
    cases e3
    exact stable.peek _ _ _ _ _ e1
  | copy o n => exact stable.copyLoop _ _ _ _ _ _ e
  | poke d o =>
    obtain ⟨r, e1, e2⟩ := Option.map_eq_some_iff.mp e
    cases e2
    exact stable.poke _ _ _ _ e1
  | zap => cases e; exact stable.zap s

/-- The queue a store stands for. -/
def abs (s : Any) : Q := ⟨ahist s, acont s⟩

theorem used_eq (s : Any) (h : AInv s) : Store.used s = (abs s).queue.length := Lawful.used_eq s h
theorem ungettable_eq (s : Any) (h : AInv s) : Store.ungettable s = (abs s).hist.length := Lawful.ungettable_eq s h

theorem free_eq (s : Any) (h : AInv s) : Store.free s = room (kind s) (abs s) := by
  cases s with
  | inplace s =>
    have h : s.PInv := h
    have h1 := h.read
    have h2 := h.write
    show s.xsize - s.writeidx = s.xsize - s.phist.length - s.pcont.length
    rw [InPlace.hist_length, InPlace.cont_length]; omega
  | circ s =>
    show s.xsize - s.totalused = s.xsize - s.ccont.length
    rw [Circ.cont_length]
  | dyn s => rfl

theorem neg_ok (s : Any) (_h : AInv s) (hb : behind (kind s) (abs s)) : ANeg s := by
  cases s with
  | inplace s => trivial
  | circ s =>
    have hb : s.ccont ≠ [] := hb
    show s.totalused ≠ 0
    intro hz
    exact hb (List.eq_nil_of_length_eq_zero (by rw [Circ.cont_length]; exact hz))
  | dyn s => exact hb

theorem peek_ok (s : Any) (off : Int) (n : Nat) (hb : inOnePiece (kind s) (Store.optpeekable s off) off n) : APeek s off n := by
  cases s with
  | inplace s => trivial
  | circ s => trivial
  | dyn s => exact hb

theorem over_eq (l : List Byte) (i : Nat) (d : List Byte) : over l i d = splice l i d := rfl

theorem exec_law (s : Any) (op : Op) (h : AInv s) (hl : Legal (kind s) (Store.optpeekable s) (abs s) op) :
    ∃ out s', exec s op = some (out, s') ∧ AInv s' ∧ Step (abs s) op out (abs s') := by
  cases op with
  | put d =>
    obtain ⟨s', e1, e2, e3, e4, -⟩ := put_law s d h (by rw [free_eq s h]; exact hl)
    exact ⟨[], s', by simp [exec, e1], e2, rfl, e3, e4⟩
  | alloc d =>
    obtain ⟨s', e1, e2, e3, e4, -⟩ := fastput_law s d h (by rw [free_eq s h]; exact hl)
    exact ⟨[], s', by simp [exec, e1], e2, rfl, e3, e4⟩
  | get n =>
    obtain ⟨s', e1, e2, e3, e4, -⟩ := getBytes_law s n h hl
    exact ⟨_, s', e1, e2, rfl, e3, e4⟩
  | unget n =>
    obtain ⟨s', e1, e2, e3, e4⟩ := Lawful.unget_law s n h hl
    exact ⟨[], s', by simp [exec, e1], e2, rfl, e3, e4⟩
  | unalloc n =>
    obtain ⟨s', e1, e2, e3, e4⟩ := Lawful.unalloc_law s n h hl
    exact ⟨[], s', by simp [exec, e1], e2, rfl, e3, e4⟩
  | peek o n =>
    obtain ⟨l1, l2, l3, l4, l5⟩ := hl
    obtain ⟨s', e1, e2, e3, e4⟩ := peekBytes_law s o n h l2 l3 l1 (fun h0 => neg_ok s h (l4 h0)) (peek_ok s o n l5)
    exact ⟨_, s', e1, e2, rfl, e4, e3⟩
  | copy o n =>
    obtain ⟨l1, l2, l3⟩ := hl
    obtain ⟨s', e1, e2, e3, e4, -⟩ := copy_law s o n h l1 l2 (fun h0 _ => neg_ok s h (l3 h0))
    exact ⟨_, s', e1, e2, rfl, e4, 0, by rw [List.drop_zero]; exact e3⟩
  | poke d o =>
    obtain ⟨l1, l2, l3, l4⟩ := hl
    rw [← free_eq s h] at l3
    obtain ⟨s', e1, e2, k, e3, e4⟩ := poke_law s d o h l1 l2 l3 (fun h0 _ => neg_ok s h (l4 h0))
    exact ⟨[], s', by simp [exec, e1], e2, rfl, k, e3, e4⟩
  | zap =>
    obtain ⟨e1, e2, e3⟩ := Lawful.zap_law s h
    exact ⟨[], Store.zap s, rfl, e1, rfl, e2, e3⟩

theorem merge_law (d s : Any) (n : Nat) (hd : AInv d) (hs : AInv s) (hn : n ≤ (abs s).queue.length)
    (hr : n ≤ room (kind d) (abs d)) :
    ∃ d' s', merge d s n = some (d', s') ∧ AInv d' ∧ AInv s' ∧ MergeStep (abs d) (abs s) n (abs d') (abs s') := by
  have hb : ∃ d' s', basicmerge d s n = some (d', s') ∧ AInv d' ∧ AInv s' ∧ MergeStep (abs d) (abs s) n (abs d') (abs s') := by
    obtain ⟨d', s', e1, e2, e3, e4, e5, e6, -, -, e7⟩ := basicmerge_law d s n hd hs hn (by rw [free_eq d hd]; exact hr)
    exact ⟨d', s', e1, e2, e3, e4, e5, e6, e7⟩
  cases d with
  | inplace d => exact hb
  | circ d => exact hb
  | dyn d =>
    cases s with
    | inplace s => exact hb
    | circ s => exact hb
    | dyn s =>
      obtain ⟨d', s', e1, e2, e3, e4, e5, e6, e7⟩ := Dyn.merge_law d s n hd hs hn hr
      exact ⟨.dyn d', .dyn s', by simp [merge, e1], e2, e3, e4, e5, e6, e7⟩

theorem slice_init (d : List Byte) : Mem.slice (fun i => d.getD i 0) 0 d.length = d := by
  apply Circ.ext_getD
  · rw [slice_length]
  · intro j hj
    rw [slice_length] at hj
    rw [slice_getD, if_pos hj, Nat.zero_add]

/-- Which buffers can be made. -/
def MakeOk (k : Kind) (d : List Byte) : Prop :=
  match k with
  | .inplace cap => d.length ≤ cap
  | .circular cap => d.length ≤ cap ∧ 0 < cap
  | .dynamic g lo hi => d = [] ∧ lo ≤ hi ∧ 0 < g

theorem init_law (k : Kind) (d : List Byte) (h : MakeOk k d) : ∃ s, init k d = some s ∧ AInv s ∧ kind s = k ∧ abs s = ⟨[], d⟩ := by
  cases k with
  | inplace cap =>
    have h : d.length ≤ cap := h
    refine ⟨.inplace ⟨fun i => d.getD i 0, cap, 0, d.length⟩, by simp [init, InPlace.reset, h], ⟨Nat.zero_le _, h⟩, rfl, ?_⟩
    show Q.mk _ _ = _
    congr 1
    exact slice_init d
  | circular cap =>
    obtain ⟨h1, h2⟩ := h
    refine ⟨.circ ⟨fun i => d.getD i 0, cap, 0, d.length, d.length⟩, by simp [init, Circ.reset, h1],
      ⟨h2, h2, Nat.le_refl _, h1⟩, rfl, ?_⟩
    show Q.mk _ _ = _
    congr 1
    · apply List.eq_nil_of_length_eq_zero
      show (Circ.chist _).length = 0
      rw [Circ.hist_length]; simp
    · show ring _ _ _ _ = _
      rw [← slice_ring _ cap 0 0 d.length (Nat.zero_mod _) (by omega)]
      exact slice_init d
  | dynamic g lo hi =>
    obtain ⟨rfl, h2, h3⟩ := h
    exact ⟨.dyn ⟨[], 0, 0, lo, hi, g⟩, by simp [init, Dyn.empty, h2], ⟨by simp, rfl, fun _ => rfl, h3⟩, rfl, rfl⟩

end Any
end Wv.Buf
