/- Notifications that can be held back, from the history of calls. Independent of the model. -/
namespace Spec.Held

inductive Call (α : Type) where
  | hold
  | unhold
  | notify (d : α)
  | flush
  | clear

variable {α : Type}

/-- Whether what has been issued at a depth of holds is delivered in what follows: at once at depth 0; else at the first point
    where the depth comes to 0 or a flush is called, if this is before a call of clear. -/
def released : Nat → List (Call α) → Bool
  | 0, _ => true
  | _ + 1, [] => false
  | n + 1, .hold :: r => released (n + 2) r
  | n + 1, .unhold :: r => released n r
  | n + 1, .notify _ :: r => released (n + 1) r
  | _ + 1, .flush :: _ => true
  | _ + 1, .clear :: _ => false

/-- What is delivered, starting at a depth of holds. -/
def deliveries : Nat → List (Call α) → List α
  | _, [] => []
  | n, .hold :: r => deliveries (n + 1) r
  | n, .unhold :: r => deliveries (n - 1) r
  | n, .notify d :: r => (if released n r then [d] else []) ++ deliveries n r
  | n, .flush :: r => deliveries n r
  | n, .clear :: r => deliveries n r

/-- Each unhold is after a hold it matches. -/
def Balanced : Nat → List (Call α) → Prop
  | _, [] => True
  | n, .hold :: r => Balanced (n + 1) r
  | 0, .unhold :: _ => False
  | n + 1, .unhold :: r => Balanced n r
  | n, .notify _ :: r => Balanced n r
  | n, .flush :: r => Balanced n r
  | n, .clear :: r => Balanced n r

/-- A history of a first-in-first-out queue of notifications: what is in it at the end. `none` if something was delivered that was
    not first. -/
inductive Event (α : Type) where
  | issue (d : α)
  | deliver (d : α)
  | clear

inductive Fifo : List α → List (Event α) → List α → Prop
  | done (q) : Fifo q [] q
  | issue (q d r q') : Fifo (q ++ [d]) r q' → Fifo q (.issue d :: r) q'
  | deliver (q d r q') : Fifo q r q' → Fifo (d :: q) (.deliver d :: r) q'
  | clear (q r q') : Fifo [] r q' → Fifo q (.clear :: r) q'

end Spec.Held
