import Verif.Model.PetscWrap
/-! # Specification of the operators handed to PETSc -/
namespace Verif.PetscWrap

variable {K : Type}

/-- Two vectors have the same structure. -/
def SameShape (y z : List (List K)) : Prop := y.map List.length = z.map List.length

end Verif.PetscWrap
