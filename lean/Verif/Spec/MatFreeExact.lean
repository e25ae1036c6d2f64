import Mathlib.Algebra.Ring.Defs
/-! # The vectors to which the operator is applied -/
namespace Verif.MatFree
variable {K : Type} [CommRing K] {n : Nat}

/-- The vector to which the operator is applied for column `i`: zero before `i`, one at `i` and the contents
of the work vector after `i`. -/
def probe (x0 : Fin n → K) (i : Fin n) : Fin n → K := fun j => if j = i then 1 else if j < i then 0 else x0 j

end Verif.MatFree
