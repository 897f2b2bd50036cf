import Verif.Model.Key
/- Requests to a configuration generator and their answers, independent of the model of the generators. -/
namespace Spec.Wrap
open Wv (Key)

abbrev Value := List UInt8

/-- What a generator can be asked for. -/
inductive Req where
  | get (k : Key)
  | «exists» (k : Key)
  | haschildren (k : Key)
  | iterator (k : Key)
  | set (k : Key) (v : Option Value)
  | setv (l : List (Key × Option Value))
  | commit
  | refresh
  | prefetch (k : Key) (recursive : Bool)
  | flush

/-- What it answers. -/
inductive Ans where
  | value (v : Option Value)
  | truth (b : Bool)
  | items (l : Option (List (Key × Option Value)))
  | done

/-- The requests that a generator behind a bachelor never sees. -/
def persistence : Req → Bool
  | .commit | .refresh => true
  | _ => false

/-- Asking for written things to be sent on. -/
def flushing : Req → Bool
  | .flush => true
  | _ => false

/-- The requests that may have to wait for an answer. -/
def waits : Req → Bool
  | .get _ | .exists _ | .haschildren _ | .iterator _ | .commit | .refresh => true
  | _ => false

/-- The answers of a configuration that has nothing and takes nothing. -/
def nothing : Req → Ans
  | .get _ => .value none
  | .exists _ => .truth false
  | .haschildren _ => .truth false
  | .iterator _ => .items (some [])
  | .refresh => .truth true
  | _ => .done

/-- A request to one that counts, or starting to count again. -/
inductive Ev where
  | req (r : Req)
  | reset

/-- The requests among them. -/
def reqs : List Ev → List Req
  | [] => []
  | .req r :: l => r :: reqs l
  | .reset :: l => reqs l

/-- Those since the last reset. -/
def sinceReset (l : List Ev) : List Req :=
  reqs (l.reverse.takeWhile fun e => match e with | .reset => false | .req _ => true)

end Spec.Wrap
