import Verif.Spec.Nullspace
/-! # What is left of a vector -/
namespace Verif.Nullspace
open scoped InnerProductSpace

variable {E : Type} [NormedAddCommGroup E] [InnerProductSpace ℝ E]

/-- What is left of `v` after its components along the vectors of `B` have been taken away. -/
noncomputable def rest (B : List E) (v : E) : E := v - (B.map (fun b => ⟪v, b⟫_ℝ • b)).sum

end Verif.Nullspace
