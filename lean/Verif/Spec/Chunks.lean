/- Input handed over in several calls. -/
namespace Wv

/-- All the input handed over in a sequence of `encode` calls (each with its flush flag): the pieces in order. -/
def flat (cs : List (List UInt8 × Bool)) : List UInt8 := (cs.map Prod.fst).flatten

end Wv
