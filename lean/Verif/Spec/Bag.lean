/-
A collection of elements with keys, independent of the model: a list whose order does not matter. Each element comes with a
flag: does the collection own it (and delete it when it is removed)?
-/
namespace Spec.Bag
variable {α κ : Type}

/-- A call. -/
inductive Call (α κ : Type)
  | add (x : α) (autofree : Bool)
  | remove (x : α)
  | setAutofree (x : α) (autofree : Bool)
  | zap
  | find (key : κ)
deriving Repr

/-- Is it an add? -/
def Call.isAdd : Call α κ → Bool
  | .add _ _ => true
  | _ => false

/-- What a call shows: the objects it deletes, what it finds. -/
inductive Out (α : Type)
  | freed (l : List α)
  | found (x : Option α)
deriving Repr, DecidableEq

/-- What a call may do and show. Of several elements with the key, any one may be found or removed. -/
inductive Step (key : α → κ) : List (α × Bool) → Call α κ → Out α → List (α × Bool) → Prop
  | add {c c' x a} : c'.Perm ((x, a) :: c) → Step key c (.add x a) (.freed []) c'
  | remove {c c' x y a} : key y = key x → c.Perm ((y, a) :: c') → Step key c (.remove x) (.freed (if a then [y] else [])) c'
  | removeNone {c c' x} : (∀ p ∈ c, key p.1 ≠ key x) → c'.Perm c → Step key c (.remove x) (.freed []) c'
  | setAutofree {c c' r x y a b} : key y = key x → c.Perm ((y, a) :: r) → c'.Perm ((y, b) :: r) →
      Step key c (.setAutofree x b) (.freed []) c'
  | setAutofreeNone {c c' x b} : (∀ p ∈ c, key p.1 ≠ key x) → c'.Perm c → Step key c (.setAutofree x b) (.freed []) c'
  | zap {c l} : l.Perm ((c.filter Prod.snd).map Prod.fst) → Step key c .zap (.freed l) []
  | find {c c' k y a} : (y, a) ∈ c → key y = k → c'.Perm c → Step key c (.find k) (.found (some y)) c'
  | findNone {c c' k} : (∀ p ∈ c, key p.1 ≠ k) → c'.Perm c → Step key c (.find k) (.found none) c'

/-- A history of calls. -/
inductive Steps (key : α → κ) : List (α × Bool) → List (Call α κ) → List (Out α) → List (α × Bool) → Prop
  | nil {c} : Steps key c [] [] c
  | cons {c c' c'' op ops o os} : Step key c op o c' → Steps key c' ops os c'' → Steps key c (op :: ops) (o :: os) c''

end Spec.Bag
