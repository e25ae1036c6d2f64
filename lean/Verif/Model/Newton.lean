import Verif.Model.Program
import Verif.Model.Jacobian
import Mathlib.Analysis.SpecialFunctions.Sqrt
/-!
# Newton's method for coupled problems: sandbox/babuska_hand_newton.py:45-93

The same loop is in sandbox/mortar_nlin_couple.py:66-91 and sandbox/mortar_lin_couple.py:63-88.  Assembly of a form, which reads
the coefficient vectors of the functions in it, and the linear solver are parameters.  UFL expands the derivatives in the
form before the assembly; this belongs to the parameter.  Printing is left out.
-/
namespace Verif.Newton
open Verif Ufl BlockOps BlockForm Collapse IIFunction Workflow Reduced ListUtils Program Jacobian

variable {S : Type} [DecidableEq S]

/-- `ii_assemble` of a form or number, with the coefficients at the time. -/
abbrev Assemble (S : Type) := Heap ℝ → Entry S → Py (Tensor ℝ)

/-- `ii_convert(ii_assemble(dF))`, sandbox/babuska_hand_newton.py:67. -/
noncomputable def matrix (asm : Assemble S) (tiny : Tiny ℝ) (g : Nat) (ns : List Nat) (dF : List (List (Entry S)))
    (h : Heap ℝ) : Py (Mat ℝ) := do
  let A ← NL.assembleNested (dF.length * dF.length + 1) (asm h) (nested2 dF)
  let A ← blockMat A
  convertMat tiny g ns ns A

/-- `ii_convert(ii_assemble(F))`, sandbox/babuska_hand_newton.py:67. -/
noncomputable def vector (asm : Assemble S) (F : List (List (Integral S))) (h : Heap ℝ) : Py (List ℝ) := do
  let b ← NL.assembleNested ((F.map Entry.form).length + 1) (asm h) (nested1 (F.map Entry.form))
  let b ← blockVec b
  .ok (convertVec b)

/-- `x.norm('l2')` -/
noncomputable def l2 (x : List ℝ) : ℝ := √(x.map (fun c => c ^ 2)).sum

/-- `eps = sqrt(sum(x.norm('l2')**2 for x in dup.vectors()))`, sandbox/babuska_hand_newton.py:83. -/
noncomputable def size (xs : List (List ℝ)) : ℝ := √(xs.map (fun x => l2 x ^ 2)).sum

/-- `up[i].vector().axpy(-1, dup[i].vector())`, sandbox/babuska_hand_newton.py:90-91; PETSc refuses vectors of different
sizes.  `up` and `dup` are made from the same `W`, the loop over `range(len(W))` is a loop over pairs of components. -/
noncomputable def update : List (Fn × Fn) → Heap ℝ → Py (Heap ℝ)
  | [], h => .ok h
  | (u, d) :: rest, h =>
      if (h.vec u.addr).length = (h.vec d.addr).length then
        update rest (h.put u.addr (List.zipWith (fun a b => a + (-1) * b) (h.vec u.addr) (h.vec d.addr)))
      else .error .runtimeError

/-- The body of the loop, sandbox/babuska_hand_newton.py:67-91: returns `eps` and the coefficient vectors.  The solver
writes to `dup.vector()`. -/
noncomputable def pass (asm : Assemble S) (tiny : Tiny ℝ) (g : Nat) (solve : Solver ℝ) (ns : List Nat)
    (F : List (List (Integral S))) (dF : List (List (Entry S))) (up dup : List Fn) (h : Heap ℝ) : Py (ℝ × Heap ℝ) := do
  let A ← matrix asm tiny g ns dF h
  let b ← vector asm F h
  let x ← solve A b
  let h1 := writeNest h dup x
  let h2 ← update (up.zip dup) h1
  .ok (size (vectors h1 dup), h2)

/-- The loop `while eps > tol and niter < maxiter`, sandbox/babuska_hand_newton.py:64-91, with `maxiter - niter` passes left.
Returns `eps` and the coefficient vectors after each pass. -/
noncomputable def loop (body : Heap ℝ → Py (ℝ × Heap ℝ)) (tol : ℝ) : Nat → ℝ → Heap ℝ → Py (List (ℝ × Heap ℝ))
  | 0, _, _ => .ok []
  | n + 1, eps, h =>
      if tol < eps then do
        let r ← body h
        let rest ← loop body tol n r.1 r.2
        .ok (r :: rest)
      else .ok []

/-- sandbox/babuska_hand_newton.py:45-93: the Jacobian `dF`, `dup = ii_Function(W)` and the loop; `x` are the components of
`up` in the residuals `F`, `W` their spaces. -/
noncomputable def newton (K : Kinds S) (fresh : Nat → Nat → Nat → Nat) (asm : Assemble S) (tiny : Tiny ℝ) (g : Nat)
    (solve : Solver ℝ) (F : List (List (Integral S))) (x : List (Term S)) (W : List IIFunction.Space) (up : List Fn) (tol : ℝ)
    (maxiter : Nat) (h : Heap ℝ) : Py (List (ℝ × Heap ℝ)) := do
  let dF ← blockJacobian K fresh F x
  let dup ← init h W none
  loop (pass asm tiny g solve (W.map (fun s => s.dim)) F dF up dup.1) tol maxiter 1 dup.2

end Verif.Newton
