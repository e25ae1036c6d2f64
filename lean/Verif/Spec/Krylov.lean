import Verif.Model.Krylov
import Verif.Spec.BlockOps
/-!
# Specification for operators passed to scipy
-/
namespace Verif.Krylov
open Verif BlockOps

variable {K : Type}

/-- A block operator: it accepts exactly the block vectors with its column sizes and returns
block vectors with its row sizes. -/
def IsBlockOp (A : BlockOp K) : Prop :=
  ∀ xs, (HasDims A.cols xs → ∃ ys, A.apply xs = .ok ys ∧ HasDims A.rows ys) ∧
    (¬ HasDims A.cols xs → ∃ e, A.apply xs = .error e)

end Verif.Krylov
