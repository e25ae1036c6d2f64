import Verif.Model.DofMat
/-!
# Injection of coarse functions by the parents of cells: sandbox/injection_mat.py

The spaces, the evaluators and the loops over cells and dofs are those of `Model/DofMat.lean`.
-/
namespace Verif.DofMat
open Verif Verif.BlockOps
variable {K X : Type}

/-- What is done for a fine cell before the loop over its dofs, sandbox/injection_mat.py:36-45: the evaluator of
    coarse basis functions is moved to the parent cell.  (The two evaluators are moved in the other order.) -/
def parentPrep (Vc : Space K X) (parents : List Nat) (t : Nat) (s : St K) : Py (St K × (Nat → Py (Option Nat))) := do
  let c ← pyGet parents t
  let vb ← setCell Vc s.vb c
  .ok ({ s with vb := vb }, fun _ => .ok (some c))

/-- `injection_matrix`, sandbox/injection_mat.py:12-60.  `hasParent`, `hasChild` and `isParent` are the results of
    `mesh_f.has_parent()`, `mesh_c.has_child()` and `mesh_f.parent().id() == mesh_c.id()`; `parents` is the array
    `parent_cell` of dolfin. -/
def sandboxInjection [AddZeroClass K] (Vc Vf : Space K X) (hasParent hasChild isParent : Bool) (parents : List Nat) :
    Py (Mat K) := do
  pyAssert (hasParent && hasChild)
  pyAssert isParent
  let s ← cellLoop Vf (putRow Vc Vf .insert id) (parentPrep Vc parents) (List.range parents.length) (St.init Vc Vf)
  .ok (Mat.of Vf.dim Vc.dim s.mat)

end Verif.DofMat
