import Verif.Model.Basic
namespace Spec.Backslash
open Wv

/-- The sets of extra characters to escape for which the escaping is reversible: the backslash is in the set (as the
    documentation asks, include/wvbackslash.h:31), and no character which means something else after a backslash. -/
def Good (n : List Byte) : Prop :=
  ch '\\' ∈ n ∧ ∀ c ∈ str ['0', '1', '2', '3', 'x', 'a', 'b', 'f', 'n', 'r', 't', 'v'], c ∉ n

end Spec.Backslash
