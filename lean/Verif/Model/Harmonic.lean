import Verif.Model.MatFree
/-!
# Harmonic extension: `harmonic_extension_operator`, xii/assembler/extension_matrix.py:102-173

The forms are given by the matrices they are assembled into.
-/
namespace Verif.Harmonic
open Verif Verif.MatFree Matrix

variable {K : Type} [CommRing K] {n t v x q : Nat}

/-- The matrices assembled in `matvec`, extension_matrix.py:134-161: `n` is the dimension of the auxiliary space
    `V2`, `v` that of the space on the curve, `q` that of the space on the extended mesh, and `t`, `x` those of the
    trace spaces of `V2` on the two meshes. -/
structure Forms (K : Type) (n t v x q : Nat) where
  /-- `inner(grad(u), grad(v))*dx` -/
  stiffness : Matrix (Fin n) (Fin n) K
  /-- `inner(u, v)*dx` -/
  mass : Matrix (Fin n) (Fin n) K
  /-- the trace of `V2` on the curve -/
  traceCurve : Matrix (Fin t) (Fin n) K
  /-- `inner(f, w)*dx` on the curve, for `f` in `V` and `w` in the trace space -/
  curve : Matrix (Fin t) (Fin v) K
  /-- the trace of `V2` on the extended mesh -/
  traceExt : Matrix (Fin x) (Fin n) K
  /-- `inner(w, q)*dx` on the extended mesh, for `w` in the trace space and `q` in `EV` -/
  ext : Matrix (Fin q) (Fin x) K
  /-- `inner(p, q)*dx` on the extended mesh -/
  extMass : Matrix (Fin q) (Fin q) K

/-- `df.solve(A, x, b)`. -/
abbrev Solver (K : Type) := (k : Nat) → Matrix (Fin k) (Fin k) K → (Fin k → K) → Py (Fin k → K)

/-- `FOO.matvec`, extension_matrix.py:126-170.  Linear forms with the trace of the test function are assembled by
    the transpose of the trace (reduced_assembler.py:113-117), those with the trace of a function by the trace of
    the function (reduced_assembler.py:131-138).  The boundary conditions are commented out (146-147, 164-165). -/
def matvec (solve : Solver K) (F : Forms K n t v x q) : Op K q v := fun f => do
  let u ← solve n (F.stiffness + F.mass) (F.traceCurveᵀ *ᵥ (F.curve *ᵥ f))
  solve q F.extMass (F.ext *ᵥ (F.traceExt *ᵥ u))

/-- `harmonic_extension_operator`, extension_matrix.py:102-173: `gdimV`, `gdimEV`, `gdimAux` are the geometric
    dimensions of the meshes, `marks` the values of `auxiliary_facet_f`, `x0` is the vector of `create_vec`. -/
def harmonicExtension (solve : Solver K) (gdimV gdimEV gdimAux : Nat) (marks : List Nat) (F : Forms K n t v x q)
    (x0 : Fin v → K) : Py (Matrix (Fin q) (Fin v) K) := do
  pyAssert (decide (gdimV = 2) && decide (gdimEV = 2))
  pyAssert (decide (gdimAux = 2))
  pyAssert (marks.contains 1)
  let r ← (FemOp.mk (matvec solve F) none).collapse x0
  .ok r.1

end Verif.Harmonic
