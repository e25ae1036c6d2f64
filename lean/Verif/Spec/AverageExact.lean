import Verif.Spec.Average
/-! # Weights of points inside and outside of the mesh -/
namespace Verif.Average
variable {K P : Type} [Field K]

/-- Total weight of the points with the property `s`. -/
def weightOf (s : P → Prop) [DecidablePred s] (pts : List P) (ws : List K) : K :=
  (((pts.zip ws).filter (fun q => s q.1)).map Prod.snd).sum

end Verif.Average
