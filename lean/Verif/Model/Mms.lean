import Verif.Spec.Mms

/-!
# Manufactured solutions and weak equations of the demos

For each demo the values computed by `setup_mms` (for arbitrary functions in place of the sines and
cosines of the demo) and the block rows and right hand sides set up by `setup_problem`.  A row is
the sum of the forms in a row of the block form `a`, as a function of the trial functions (in whose
place the theorems put the solution of `setup_mms`) and of the test function.

Simplified: the finite element spaces are replaced by the whole ring of functions, expressions
compiled by ulfy and the derivatives of UFL are exact, traces are restrictions to the edges, and
`FacetNormal` and `OuterNormal(., [0.5, 0.5])` are the outer normals of the edges of the squares
(`OuterNormal` is the subject of `Verif.Model.Normal`).
-/

namespace Verif.Mms

variable {A : Type} [CommRing A] [Algebra ℝ A] [Smooth A]

/-- The value with a given tag of the dictionary `dict(enumerate(l, 1))`. -/
def tagged {α : Type} (l : List α) (d : α) (t : ℕ) : α := (l[t - 1]?).getD d

/-- `normals` of the demos on the unit square, demo/poisson_babuska_bc.py:94,
demo/sym_grad_babuska.py:36, demo/bertoluzza_stokes.py:38,107 (flat), demo/dq_darcy_stokes.py:55. -/
def normals : ℕ → ℝ × ℝ := tagged [(-1, 0), (1, 0), (0, -1), (0, 1)] (0, 0)

/-- `normalsI`, demo/emi_primal.py:38, demo/dq_darcy_stokes.py:58. -/
def normalsI : ℕ → ℝ × ℝ := tagged [(1, 0), (-1, 0), (0, 1), (0, -1)] (0, 0)

/-- `normalsS`, demo/dq_darcy_stokes.py:49. -/
def normalsS : ℕ → ℝ × ℝ :=
  tagged [(1, 0), (-1, 0), (0, 1), (0, -1), (-1, 0), (1, 0), (0, -1), (0, 1)] (0, 0)

/-- `dot(Constant(((0, 1), (-1, 0))), n)`, demo/utils.py:6, demo/sym_grad_babuska.py:37,67,
demo/curl_curl_babuska.py:66. -/
def rotate (n : Vec A) : Vec A := (n.2, - n.1)

/-- `dot(Constant(((0, -1), (1, 0))), n)`, demo/bertoluzza_stokes.py:109,137. -/
def rotateB (n : Vec A) : Vec A := (- n.2, n.1)

/-- The normal of the tag `t` as a function. -/
def nrm (t : ℕ) : Vec A := cvec (outward t)

/-! ### demo/poisson_babuska.py -/

namespace Poisson

/-- demo/poisson_babuska.py:74 -/
def force (u : A) : A := - div (grad u) + u

/-- First row, demo/poisson_babuska.py:53-54. -/
def row0 (D : Square A) (u p v : A) : ℝ :=
  D.vol (dot (grad u) (grad v) + u * v) + over D.side [1, 2, 3, 4] fun _ => v * p

/-- demo/poisson_babuska.py:60 -/
def rhs0 (D : Square A) (u v : A) : ℝ := D.vol (force u * v)

end Poisson

/-! ### demo/poisson_babuska_bc.py -/

namespace PoissonBc

/-- Choices of the argument `bc_setup`, demo/poisson_babuska_bc.py:20-27. -/
inductive Setup | dirNeu | dir | neu

/-- demo/poisson_babuska_bc.py:21,24,27 -/
def lmTags (_ : Setup) : List ℕ := [2, 4]

/-- demo/poisson_babuska_bc.py:21,24,27 -/
def dirTags : Setup → List ℕ
  | .dirNeu => [1]
  | .dir => [1, 3]
  | .neu => []

/-- demo/poisson_babuska_bc.py:21,24,27 -/
def neuTags : Setup → List ℕ
  | .dirNeu => [3]
  | .dir => []
  | .neu => [1, 3]

/-- The multiplier on the edge `t`, demo/poisson_babuska_bc.py:95. -/
def lms (u : A) (t : ℕ) : A := - dot (grad u) (cvec (normals t))

/-- demo/poisson_babuska_bc.py:97 -/
def force (u : A) : A := - div (grad u)

/-- demo/poisson_babuska_bc.py:99 -/
def neumann (u : A) (t : ℕ) : A := dot (grad u) (cvec (normals t))

/-- First row, demo/poisson_babuska_bc.py:46-47. -/
def row0 (D : Square A) (s : Setup) (u : A) (p : ℕ → A) (v : A) : ℝ :=
  D.vol (dot (grad u) (grad v)) + over D.side (lmTags s) fun t => v * p t

/-- demo/poisson_babuska_bc.py:52-54 -/
def rhs0 (D : Square A) (s : Setup) (u v : A) : ℝ :=
  D.vol (force u * v) + over D.side (neuTags s) fun t => neumann u t * v

end PoissonBc

/-! ### demo/mixed_poisson_babuska.py -/

namespace MixedPoisson

/-- demo/mixed_poisson_babuska.py:29 -/
def flux (u : A) : Vec A := (- dx u, - dy u)

/-- demo/mixed_poisson_babuska.py:34 -/
def force (u : A) : A := div (flux u)

/-- First row, demo/mixed_poisson_babuska.py:78-80. -/
def row0 (D : Square A) (s : Vec A) (u p : A) (r : Vec A) : ℝ :=
  D.vol (dot s r) + D.vol (- (u * div r)) + over D.side [2, 4] fun t => p * dot r (nrm t)

/-- demo/mixed_poisson_babuska.py:87 -/
def rhs0 (D : Square A) (u : A) (r : Vec A) : ℝ :=
  - over D.side [1] fun t => u * dot r (nrm t)

/-- Second row, demo/mixed_poisson_babuska.py:81. -/
def row1 (D : Square A) (s : Vec A) (v : A) : ℝ := D.vol (- (v * div s))

/-- demo/mixed_poisson_babuska.py:89 -/
def rhs1 (D : Square A) (u v : A) : ℝ := D.vol (- (force u * v))

end MixedPoisson

/-! ### demo/grad_div_babuska.py -/

namespace GradDiv

/-- demo/grad_div_babuska.py:30 -/
def lm (u : Vec A) : A := - div u

/-- demo/grad_div_babuska.py:32 -/
def force (u : Vec A) : Vec A := (- dx (div u) + u.1, - dy (div u) + u.2)

/-- First row, demo/grad_div_babuska.py:69-70. -/
def row0 (D : Square A) (u : Vec A) (p : A) (v : Vec A) : ℝ :=
  D.vol (dot u v + div u * div v) + over D.side [1, 2, 3, 4] fun t => p * dot v (nrm t)

/-- demo/grad_div_babuska.py:75 -/
def rhs0 (D : Square A) (u v : Vec A) : ℝ := D.vol (dot (force u) v)

end GradDiv

/-! ### demo/curl_curl_babuska.py -/

namespace CurlCurl

/-- demo/curl_curl_babuska.py:30 -/
def lm (u : Vec A) : A := curl u

/-- demo/curl_curl_babuska.py:32 -/
def force (u : Vec A) : Vec A := ((curlS (curl u)).1 + u.1, (curlS (curl u)).2 + u.2)

/-- First row, demo/curl_curl_babuska.py:70-71. -/
def row0 (D : Square A) (u : Vec A) (p : A) (v : Vec A) : ℝ :=
  D.vol (dot u v + curl u * curl v)
    + over D.side [1, 2, 3, 4] fun t => p * dot v (rotate (nrm t))

/-- demo/curl_curl_babuska.py:76 -/
def rhs0 (D : Square A) (u v : Vec A) : ℝ := D.vol (dot (force u) v)

end CurlCurl

/-! ### demo/sym_grad_babuska.py -/

namespace SymGrad

/-- demo/sym_grad_babuska.py:30 -/
noncomputable def stress (u : Vec A) : Ten A := sym (gradV u)

/-- demo/sym_grad_babuska.py:31 -/
noncomputable def force (u : Vec A) : Vec A :=
  (- (divT (stress u)).1 + u.1, - (divT (stress u)).2 + u.2)

/-- demo/sym_grad_babuska.py:39 -/
noncomputable def lm (u : Vec A) (t : ℕ) : Vec A :=
  (- (mul (stress u) (cvec (normals t))).1, - (mul (stress u) (cvec (normals t))).2)

/-- demo/sym_grad_babuska.py:40 -/
noncomputable def lmN (u : Vec A) (t : ℕ) : A := dot (lm u t) (cvec (normals t))

/-- demo/sym_grad_babuska.py:41 -/
noncomputable def lmT (u : Vec A) (t : ℕ) : A := dot (lm u t) (rotate (cvec (normals t)))

/-- demo/sym_grad_babuska.py:61 -/
noncomputable def neumann (u : Vec A) (t : ℕ) : Vec A := mul (stress u) (cvec (normals t))

/-- demo/sym_grad_babuska.py:98 -/
noncomputable def bulk (D : Square A) (u v : Vec A) : ℝ :=
  D.vol (inner (sym (gradV u)) (sym (gradV v)) + dot u v)

/-- First row for `Bop == 'full'`, demo/sym_grad_babuska.py:98,105. -/
noncomputable def rowFull (D : Square A) (u : Vec A) (p : ℕ → Vec A) (v : Vec A) : ℝ :=
  bulk D u v + over D.side [1, 2, 3, 4] fun t => dot v (p t)

/-- demo/sym_grad_babuska.py:99 -/
noncomputable def rhsFull (D : Square A) (u v : Vec A) : ℝ := D.vol (dot (force u) v)

/-- First row for `Bop == 'normal'`, demo/sym_grad_babuska.py:98,111. -/
noncomputable def rowNormal (D : Square A) (u : Vec A) (p : ℕ → A) (v : Vec A) : ℝ :=
  bulk D u v + over D.side [1, 2, 3, 4] fun t => dot v (nrm t) * p t

/-- demo/sym_grad_babuska.py:99,114 -/
noncomputable def rhsNormal (D : Square A) (u v : Vec A) : ℝ :=
  D.vol (dot (force u) v)
    + over D.side [1, 2, 3, 4] fun t => dot (neumann u t) (rotate (nrm t)) * dot v (rotate (nrm t))

/-- First row for `Bop == 'tangent'`, demo/sym_grad_babuska.py:98,118. -/
noncomputable def rowTangent (D : Square A) (u : Vec A) (p : ℕ → A) (v : Vec A) : ℝ :=
  bulk D u v + over D.side [1, 2, 3, 4] fun t => dot v (rotate (nrm t)) * p t

/-- demo/sym_grad_babuska.py:99,121 -/
noncomputable def rhsTangent (D : Square A) (u v : Vec A) : ℝ :=
  D.vol (dot (force u) v)
    + over D.side [1, 2, 3, 4] fun t => dot (neumann u t) (nrm t) * dot v (nrm t)

end SymGrad

/-! ### demo/bertoluzza_stokes.py and demo/free_slip_stokes_iter.py on the square

demo/free_slip_stokes_iter_cylinder.py has the data and rows of the latter, without the penalization
of jumps. -/

namespace Stokes

/-- Velocity from a stream function, demo/bertoluzza_stokes.py:30, demo/free_slip_stokes_iter.py:36,
demo/dq_darcy_stokes.py:38, demo/isoP2_stokes.py:25. -/
def velocity (phi : A) : Vec A := (dy phi, - dx phi)

/-- `2*mu*sym(grad(u)) - p*Identity(2)`, demo/dq_darcy_stokes.py:45; with `mu` one in
demo/bertoluzza_stokes.py:33, demo/free_slip_stokes_iter.py:39 and demo/isoP2_stokes.py:28. -/
noncomputable def stress (mu : ℝ) (u : Vec A) (p : A) : Ten A :=
  let e := sym (gradV u)
  ((c (2 * mu) * e.1.1 - p, c (2 * mu) * e.1.2), (c (2 * mu) * e.2.1, c (2 * mu) * e.2.2 - p))

/-- `-div(sigma)`, demo/dq_darcy_stokes.py:46, demo/bertoluzza_stokes.py:34,
demo/free_slip_stokes_iter.py:40, demo/isoP2_stokes.py:30. -/
noncomputable def force (mu : ℝ) (u : Vec A) (p : A) : Vec A :=
  (- (divT (stress mu u p)).1, - (divT (stress mu u p)).2)

/-- `dot(sigma, n)` with the normals of the square, demo/bertoluzza_stokes.py:112,
demo/free_slip_stokes_iter.py:118. -/
noncomputable def neumann (u : Vec A) (p : A) (t : ℕ) : Vec A := mul (stress 1 u p) (cvec (normals t))

/-- Forms of the blocks (0, 0) and (0, 1), demo/bertoluzza_stokes.py:165-166,
demo/free_slip_stokes_iter.py:183,188, demo/isoP2_stokes.py:79-80.  The penalization of jumps
(demo/free_slip_stokes_iter.py:186) vanishes for the functions of `A`, which do not jump. -/
noncomputable def bulk (vol : A →ₗ[ℝ] ℝ) (mu : ℝ) (u : Vec A) (p : A) (v : Vec A) : ℝ :=
  vol (c (2 * mu) * inner (sym (gradV u)) (sym (gradV v))) + vol (- (p * div v))

/-- The multiplier of demo/bertoluzza_stokes.py:120. -/
noncomputable def lmT (u : Vec A) (p : A) : A :=
  - dot (rotateB (cvec (normals 1))) (mul (stress 1 u p) (cvec (normals 1)))

/-- demo/bertoluzza_stokes.py:116 -/
noncomputable def lagrangeN (u : Vec A) (p : A) (t : ℕ) : A :=
  dot (mul (stress 1 u p) (cvec (normals t))) (cvec (normals t))

/-- First row, demo/bertoluzza_stokes.py:165-167. -/
noncomputable def rowB (D : Square A) (u : Vec A) (p l : A) (v : Vec A) : ℝ :=
  bulk D.vol 1 u p v + over D.side [1] fun t => l * dot v (rotateB (nrm t))

/-- demo/bertoluzza_stokes.py:173-177 -/
noncomputable def rhsB (D : Square A) (u : Vec A) (p : A) (v : Vec A) : ℝ :=
  D.vol (dot (force 1 u p) v) + (over D.side [2] fun t => dot (neumann u p t) v)
    + over D.side [1] fun t => lagrangeN u p t * dot v (nrm t)

/-- The multiplier of demo/free_slip_stokes_iter.py:127. -/
noncomputable def lmN (u : Vec A) (p : A) : A :=
  - dot (cvec (normals 1)) (mul (stress 1 u p) (cvec (normals 1)))

/-- demo/free_slip_stokes_iter.py:24 -/
def tangent (f n : Vec A) : Vec A := (f.1 - dot f n * n.1, f.2 - dot f n * n.2)

/-- demo/free_slip_stokes_iter.py:123 -/
noncomputable def lagrangeT (u : Vec A) (p : A) (t : ℕ) : Vec A :=
  tangent (mul (stress 1 u p) (cvec (normals t))) (cvec (normals t))

/-- First row, demo/free_slip_stokes_iter.py:183,188-189. -/
noncomputable def rowF (D : Square A) (u : Vec A) (p l : A) (v : Vec A) : ℝ :=
  bulk D.vol 1 u p v + over D.side [1] fun t => l * dot v (nrm t)

/-- demo/free_slip_stokes_iter.py:195-199 -/
noncomputable def rhsF (D : Square A) (u : Vec A) (p : A) (v : Vec A) : ℝ :=
  D.vol (dot (force 1 u p) v) + (over D.side [2] fun t => dot (neumann u p t) v)
    + over D.side [1] fun t => dot (lagrangeT u p t) (tangent v (nrm t))

/-- demo/isoP2_stokes.py:87 -/
noncomputable def rhsIso (D : Square A) (u : Vec A) (p : A) (v : Vec A) : ℝ :=
  D.vol (dot (force 1 u p) v)

/-- Second row, demo/bertoluzza_stokes.py:168, demo/free_slip_stokes_iter.py:190,
demo/isoP2_stokes.py:81 (there the multiplier of the mean value is zero). -/
def rowDiv (vol : A →ₗ[ℝ] ℝ) (u : Vec A) (q : A) : ℝ := vol (- (div u * q))

end Stokes

/-! ### demo/emi_primal.py and demo/emi_primal_mortar.py -/

namespace Emi

/-- demo/emi_primal.py:31-32 -/
def flux (k : ℝ) (u : A) : Vec A := scale (c k) (grad u)

/-- demo/emi_primal.py:34-35 -/
def force (k : ℝ) (u : A) : A := - div (flux k u)

/-- demo/emi_primal.py:40 -/
def gN (k0 k1 : ℝ) (u0 u1 : A) (t : ℕ) : A :=
  dot (flux k0 u0) (cvec (normalsI t)) - dot (flux k1 u1) (cvec (normalsI t))

/-- demo/emi_primal.py:41 -/
def gR (k0 : ℝ) (u0 u1 : A) (t : ℕ) : A := u0 - u1 + dot (flux k0 u0) (cvec (normalsI t))

/-- demo/emi_primal.py:43 -/
def lms (k0 : ℝ) (u0 : A) (t : ℕ) : A := - dot (flux k0 u0) (cvec (normalsI t))

/-- First row, demo/emi_primal.py:109-110. -/
def row0 (D : Immersed A) (k0 : ℝ) (u0 u1 v : A) : ℝ :=
  D.outer (c k0 * dot (grad u0) (grad v)) + (over D.side [1, 2, 3, 4] fun _ => u0 * v)
    + over D.side [1, 2, 3, 4] fun _ => - (u1 * v)

/-- demo/emi_primal.py:117-119 -/
def rhs0 (D : Immersed A) (k0 : ℝ) (u0 u1 v : A) : ℝ :=
  D.outer (force k0 u0 * v) + over D.side [1, 2, 3, 4] fun t => gR k0 u0 u1 t * v

/-- Second row, demo/emi_primal.py:111-112. -/
def row1 (D : Immersed A) (k1 : ℝ) (u0 u1 v : A) : ℝ :=
  (over D.side [1, 2, 3, 4] fun _ => - (u0 * v)) + D.inner (c k1 * dot (grad u1) (grad v))
    + over D.side [1, 2, 3, 4] fun _ => u1 * v

/-- demo/emi_primal.py:121-126 -/
def rhs1 (D : Immersed A) (k0 k1 : ℝ) (u0 u1 v : A) : ℝ :=
  D.inner (force k1 u1 * v) - (over D.side [1, 2, 3, 4] fun t => gR k0 u0 u1 t * v)
    + over D.side [1, 2, 3, 4] fun t => gN k0 k1 u0 u1 t * v

/-- First row, demo/emi_primal_mortar.py:40-41. -/
def mortarRow0 (D : Immersed A) (k0 : ℝ) (u0 : A) (p : ℕ → A) (v : A) : ℝ :=
  D.outer (c k0 * dot (grad u0) (grad v)) + over D.side [1, 2, 3, 4] fun t => p t * v

/-- demo/emi_primal_mortar.py:51 -/
def mortarRhs0 (D : Immersed A) (k0 : ℝ) (u0 v : A) : ℝ := D.outer (force k0 u0 * v)

/-- Second row, demo/emi_primal_mortar.py:42-43. -/
def mortarRow1 (D : Immersed A) (k1 : ℝ) (u1 : A) (p : ℕ → A) (v : A) : ℝ :=
  D.inner (c k1 * dot (grad u1) (grad v)) + over D.side [1, 2, 3, 4] fun t => - (p t * v)

/-- demo/emi_primal_mortar.py:53-56 -/
def mortarRhs1 (D : Immersed A) (k0 k1 : ℝ) (u0 u1 v : A) : ℝ :=
  D.inner (force k1 u1 * v) + over D.side [1, 2, 3, 4] fun t => gN k0 k1 u0 u1 t * v

/-- Third row, demo/emi_primal_mortar.py:44-46.  The test function may be chosen on each edge. -/
def mortarRow2 (D : Immersed A) (u0 u1 : A) (p q : ℕ → A) : ℝ :=
  (over D.side [1, 2, 3, 4] fun t => q t * u0) + (over D.side [1, 2, 3, 4] fun t => - (q t * u1))
    + over D.side [1, 2, 3, 4] fun t => - (p t * q t)

/-- demo/emi_primal_mortar.py:59 -/
def mortarRhs2 (D : Immersed A) (k0 : ℝ) (u0 u1 : A) (q : ℕ → A) : ℝ :=
  over D.side [1, 2, 3, 4] fun t => gR k0 u0 u1 t * q t

end Emi

/-! ### demo/dq_darcy_stokes.py and demo/layton_darcy_stokes.py -/

namespace DarcyStokes
open Stokes

/-- Normal of the outer (Stokes) domain on the interface, `nS_` of demo/dq_darcy_stokes.py:121 and
`nS` of demo/dq_darcy_stokes.py:116 on the tags 1 to 4. -/
def nS (t : ℕ) : Vec A := (- (cvec (outward t) : Vec A).1, - (cvec (outward t) : Vec A).2)

/-- demo/dq_darcy_stokes.py:42 -/
def velocityD (K : ℝ) (pD : A) : Vec A := (- (c K * dx pD), - (c K * dy pD))

/-- demo/dq_darcy_stokes.py:53 -/
def forceD (K : ℝ) (pD : A) : A := div (velocityD K pD)

/-- demo/dq_darcy_stokes.py:50 -/
noncomputable def traction (mu : ℝ) (u : Vec A) (p : A) (t : ℕ) : Vec A :=
  mul (stress mu u p) (cvec (normalsS t))

/-- demo/dq_darcy_stokes.py:60 -/
def gU (uS uD : Vec A) (t : ℕ) : A := dot uS (cvec (normalsI t)) - dot uD (cvec (normalsI t))

/-- demo/dq_darcy_stokes.py:61 -/
noncomputable def gN (mu : ℝ) (uS : Vec A) (pS pD : A) (t : ℕ) : A :=
  - dot (cvec (normalsI t)) (mul (stress mu uS pS) (cvec (normalsI t))) - pD

/-- demo/dq_darcy_stokes.py:62 -/
noncomputable def gT (mu alpha : ℝ) (uS : Vec A) (pS : A) (t : ℕ) : A :=
  - dot (rotate (cvec (normalsI t))) (mul (stress mu uS pS) (cvec (normalsI t)))
    - c alpha * dot (rotate (cvec (normalsI t))) uS

/-- demo/dq_darcy_stokes.py:65 -/
noncomputable def lms (mu : ℝ) (uS : Vec A) (pS : A) (t : ℕ) : A :=
  - dot (cvec (normalsI t)) (mul (stress mu uS pS) (cvec (normalsI t)))

/-- Forms of the Stokes velocity and pressure, demo/dq_darcy_stokes.py:141-143,
demo/layton_darcy_stokes.py:53-54,60. -/
noncomputable def stokesPart (D : Immersed A) (mu alpha : ℝ) (u : Vec A) (p : A) (v : Vec A) : ℝ :=
  bulk D.outer mu u p v + over D.side [1, 2, 3, 4] fun t =>
    c alpha * (dot u (rotate (nS t)) * dot v (rotate (nS t)))

/-- First row, demo/dq_darcy_stokes.py:141-144. -/
noncomputable def row0 (D : Immersed A) (mu alpha : ℝ) (u : Vec A) (p pD : A) (v : Vec A) : ℝ :=
  stokesPart D mu alpha u p v + over D.side [1, 2, 3, 4] fun t => pD * dot v (nS t)

/-- demo/dq_darcy_stokes.py:154-160 -/
noncomputable def rhs0 (D : Immersed A) (mu alpha : ℝ) (u : Vec A) (p pD : A) (v : Vec A) : ℝ :=
  D.outer (dot (force mu u p) v) + (over D.side [7, 8] fun t => dot (traction mu u p t) v)
    - (over D.side [1, 2, 3, 4] fun t => gN mu u p pD t * dot v (nS t))
    - over D.side [1, 2, 3, 4] fun t => gT mu alpha u p t * dot v (rotate (nS t))

/-- Third row, demo/dq_darcy_stokes.py:147-148. -/
def row2 (D : Immersed A) (K : ℝ) (u : Vec A) (pD q : A) : ℝ :=
  (over D.side [1, 2, 3, 4] fun t => q * dot u (nS t))
    + D.inner (- dot (scale (c K) (grad pD)) (grad q))

/-- demo/dq_darcy_stokes.py:162-164 -/
def rhs2 (D : Immersed A) (K : ℝ) (u : Vec A) (pD q : A) : ℝ :=
  D.inner (- (forceD K pD * q)) + over D.side [1, 2, 3, 4] fun t => gU u (velocityD K pD) t * q

/-- First row, demo/layton_darcy_stokes.py:53-54,60-61. -/
noncomputable def laytonRow0 (D : Immersed A) (mu alpha : ℝ) (u : Vec A) (p : A) (l : ℕ → A)
    (v : Vec A) : ℝ :=
  stokesPart D mu alpha u p v + over D.side [1, 2, 3, 4] fun t => l t * dot v (nS t)

/-- demo/layton_darcy_stokes.py:77-81 -/
noncomputable def laytonRhs0 (D : Immersed A) (mu alpha : ℝ) (u : Vec A) (p : A) (v : Vec A) : ℝ :=
  D.outer (dot (force mu u p) v) + (over D.side [7, 8] fun t => dot (traction mu u p t) v)
    - over D.side [1, 2, 3, 4] fun t => gT mu alpha u p t * dot v (rotate (nS t))

/-- Second row, demo/layton_darcy_stokes.py:63-65. -/
noncomputable def laytonRow1 (D : Immersed A) (K : ℝ) (uD : Vec A) (pD : A) (l : ℕ → A)
    (v : Vec A) : ℝ :=
  D.inner (c (1 / K) * dot uD v) + D.inner (- (pD * div v))
    + over D.side [1, 2, 3, 4] fun t => l t * dot v (nrm t)

/-- demo/layton_darcy_stokes.py:83 -/
noncomputable def laytonRhs1 (D : Immersed A) (mu : ℝ) (uS : Vec A) (pS pD : A) (v : Vec A) : ℝ :=
  over D.side [1, 2, 3, 4] fun t => gN mu uS pS pD t * dot v (nrm t)

/-- Fourth row, demo/layton_darcy_stokes.py:68. -/
def laytonRow3 (D : Immersed A) (uD : Vec A) (q : A) : ℝ := D.inner (- (q * div uD))

/-- demo/layton_darcy_stokes.py:85 -/
def laytonRhs3 (D : Immersed A) (K : ℝ) (pD q : A) : ℝ := D.inner (- (forceD K pD * q))

/-- Fifth row, demo/layton_darcy_stokes.py:70-71. -/
def laytonRow4 (D : Immersed A) (uS uD : Vec A) (m : ℕ → A) : ℝ :=
  (over D.side [1, 2, 3, 4] fun t => m t * dot uS (nS t))
    + over D.side [1, 2, 3, 4] fun t => m t * dot uD (nrm t)

/-- demo/layton_darcy_stokes.py:87 -/
def laytonRhs4 (D : Immersed A) (uS uD : Vec A) (m : ℕ → A) : ℝ :=
  over D.side [1, 2, 3, 4] fun t => gU uS uD t * m t

end DarcyStokes

/-! ### demo/twoDoneDoneD.py -/

namespace TwoOneOne

/-- demo/twoDoneDoneD.py:57-58 -/
def force (k : ℝ) (u : A) : A := - div (scale (c k) (grad u))

/-- demo/twoDoneDoneD.py:60-61 -/
def lm (k : ℝ) (u0 u1 : A) : A :=
  - (c k * dot (grad u0) (cvec (1, 0)) - c k * dot (grad u1) (cvec (1, 0)))

/-- demo/twoDoneDoneD.py:67 -/
def forceGamma (k k1 : ℝ) (u0 u1 u : A) : A := - (c k1 * dy (dy u)) - lm k u0 u1

/-- First row, demo/twoDoneDoneD.py:120-121; the solution is `u0` on the left and `u1` on the right
(demo/twoDoneDoneD.py:84). -/
def row0 (D : Halved A) (k : ℝ) (u0 u1 p v : A) : ℝ :=
  D.left (c k * dot (grad u0) (grad v)) + D.right (c k * dot (grad u1) (grad v))
    + over D.side [7] fun _ => p * v

/-- demo/twoDoneDoneD.py:128 -/
def rhs0 (D : Halved A) (k : ℝ) (u0 u1 v : A) : ℝ :=
  D.left (force k u0 * v) + D.right (force k u1 * v)

/-- Second row, demo/twoDoneDoneD.py:122-123; the gradient on the segment is the derivative along
it. -/
def row1 (D : Halved A) (k1 : ℝ) (u p v : A) : ℝ :=
  (over D.side [7] fun _ => c k1 * (dy u * dy v)) + over D.side [7] fun _ => - (p * v)

/-- demo/twoDoneDoneD.py:129 -/
def rhs1 (D : Halved A) (k k1 : ℝ) (u0 u1 u v : A) : ℝ :=
  over D.side [7] fun _ => forceGamma k k1 u0 u1 u * v

/-- Third row, demo/twoDoneDoneD.py:124-125, with the solution of the left part on the segment. -/
def row2 (D : Halved A) (u0 u q : A) : ℝ :=
  (over D.side [7] fun _ => q * u0) + over D.side [7] fun _ => - (q * u)

/-- demo/twoDoneDoneD.py:130 and the data of line 91 -/
def rhs2 (D : Halved A) (u0 u q : A) : ℝ := over D.side [7] fun _ => (u0 - u) * q

end TwoOneOne

/-! ### demo/isect_mortar_2d.py -/

namespace Isect

/-- demo/isect_mortar_2d.py:162 -/
def force1 (eps : ℝ) (u1 : A) : A := c eps * (- dx (dx u1) - dy (dy u1)) + u1

/-- demo/isect_mortar_2d.py:163 -/
def force2 (u2 : A) : A := - dx (dx u2) - dy (dy u2)

/-- First row, demo/isect_mortar_2d.py:84-88. -/
def row0 (D : Immersed A) (eps : ℝ) (u1 p v : A) : ℝ :=
  D.inner (c eps * dot (grad u1) (grad v) + u1 * v) + (over D.side [1, 2, 3, 4] fun _ => u1 * v)
    + over D.side [1, 2, 3, 4] fun _ => - (p * v)

/-- demo/isect_mortar_2d.py:98 -/
def rhs0 (D : Immersed A) (eps : ℝ) (u1 v : A) : ℝ := D.inner (force1 eps u1 * v)

/-- Second row, demo/isect_mortar_2d.py:91-92. -/
def row1 (D : Immersed A) (u2 p v : A) : ℝ :=
  D.outer (dot (grad u2) (grad v)) + (over D.side [1, 2, 3, 4] fun _ => u2 * v)
    + over D.side [1, 2, 3, 4] fun _ => p * v

/-- demo/isect_mortar_2d.py:99, with `h2` and `h` of lines 167 and 169; the tag 1 of the outer
boundary there is the edges 5 to 8 here. -/
def rhs1 (D : Immersed A) (u1 u2 v : A) : ℝ :=
  D.outer (force2 u2 * v)
    + (over D.side [5, 6, 7, 8] fun t => dot (grad u2) (cvec (outward (t - 4))) * v)
    + over D.side [1, 2, 3, 4] fun _ => (u1 + u2) * v

end Isect

/-! ### demo/elasticity_2d.py and demo/elasticity_mixed_2d.py -/

namespace Elasticity

/-- `sigma`, demo/elasticity_2d.py:36,122, demo/elasticity_mixed_2d.py:124. -/
noncomputable def stress (mu lmbda : ℝ) (u : Vec A) : Ten A :=
  let e := sym (gradV u)
  ((c (2 * mu) * e.1.1 + c lmbda * div u, c (2 * mu) * e.1.2),
    (c (2 * mu) * e.2.1, c (2 * mu) * e.2.2 + c lmbda * div u))

/-- demo/elasticity_2d.py:125, demo/elasticity_mixed_2d.py:127 -/
noncomputable def force (mu lmbda : ℝ) (u : Vec A) : Vec A :=
  (- (divT (stress mu lmbda u)).1, - (divT (stress mu lmbda u)).2)

/-- First row, demo/elasticity_2d.py:38-39. -/
noncomputable def row0 (D : Square A) (mu lmbda : ℝ) (u p v : Vec A) : ℝ :=
  D.vol (inner (stress mu lmbda u) (sym (gradV v))) + over D.side [1, 2, 3, 4] fun _ => dot v p

/-- demo/elasticity_2d.py:42, demo/elasticity_mixed_2d.py:54 -/
noncomputable def rhs0 (D : Square A) (mu lmbda : ℝ) (u v : Vec A) : ℝ :=
  D.vol (dot (force mu lmbda u) v)

/-- `p` of the solution, demo/elasticity_mixed_2d.py:128. -/
def pressure (lmbda : ℝ) (u : Vec A) : A := c lmbda * div u

/-- First row, demo/elasticity_mixed_2d.py:46-48. -/
noncomputable def mixedRow0 (D : Square A) (mu : ℝ) (u : Vec A) (p : A) (x v : Vec A) : ℝ :=
  D.vol (c (2 * mu) * inner (sym (gradV u)) (sym (gradV v))) + D.vol (div v * p)
    + over D.side [1, 2, 3, 4] fun _ => dot v x

/-- Second row, demo/elasticity_mixed_2d.py:50-51; its right hand side is zero. -/
noncomputable def mixedRow1 (D : Square A) (lmbda : ℝ) (u : Vec A) (p q : A) : ℝ :=
  D.vol (div u * q) + D.vol (- (c (1 / lmbda) * (p * q)))

end Elasticity

/-! ### demo/dirac_2d.py -/

namespace Dirac

/-- demo/dirac_2d.py:64 -/
def force (u : A) : A := - dx (dx u) - dy (dy u) + u

/-- First row, demo/dirac_2d.py:22,25.  `pt` are the components of the value of the test function in
the point, constants. -/
def row0 (vol : A →ₗ[ℝ] ℝ) (pt : Vec A → ℝ × ℝ) (u p v : Vec A) : ℝ :=
  vol (inner (gradV u) (gradV v)) + vol (dot u v) + vol (dot (cvec (pt v)) p)

/-- demo/dirac_2d.py:28 with `(f, f)` of line 72 -/
def rhs0 (vol : A →ₗ[ℝ] ℝ) (u : A) (v : Vec A) : ℝ := vol (dot (force u, force u) v)

end Dirac

/-! ### demo/time_dep.py -/

namespace TimeDep

/-- demo/time_dep.py:74; `ut` is the derivative in time. -/
def force (u ut : A) : A := ut - (dx (dx u) + dy (dy u))

/-- First row, demo/time_dep.py:29-30 with the tags of line 14. -/
noncomputable def row0 (D : Square A) (dt : ℝ) (u : A) (p : ℕ → A) (v : A) : ℝ :=
  D.vol (dot (grad u) (grad v)) + D.vol (c (1 / dt) * (u * v))
    + over D.side [1, 2, 3] fun t => p t * v

/-- demo/time_dep.py:36, with the solution `u0` of the step before. -/
noncomputable def rhs0 (D : Square A) (dt : ℝ) (u0 f v : A) : ℝ :=
  D.vol (c (1 / dt) * (u0 * v)) + D.vol (f * v)

end TimeDep

/-! ### demo/daq_3d1d.py -/

namespace Daq

/-- The forms of demo/daq_3d1d.py:46-49 for given trial and test functions, the second of the pair
being a function on the curve. -/
structure Forms (V Q : Type) where
  a00 : V → V → ℝ
  a01 : Q → V → ℝ
  a10 : V → Q → ℝ
  a11 : Q → Q → ℝ

/-- The rows of `a = [[a00, a01], [a10, 0]]`, demo/daq_3d1d.py:54. -/
def row0 {V Q : Type} (F : Forms V Q) (u : V) (p : Q) (v : V) : ℝ := F.a00 u v + F.a01 p v

/-- The second row, demo/daq_3d1d.py:54: the form `a11` of line 49 is not used. -/
def row1 {V Q : Type} (F : Forms V Q) (u : V) (_p q : Q) : ℝ := F.a10 u q + 0

end Daq

end Verif.Mms
