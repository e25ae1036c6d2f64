import Verif.Model.ApplyBc
import Verif.Model.IIFunction
/-!
# Programs which solve a block system

The sequence of calls with which the demos of the repository solve a problem, and the loop of the time dependent
one.  Assembly and the linear solver are parameters.
-/
namespace Verif.Workflow
open Verif BlockOps Collapse ApplyBc IIFunction

variable {K : Type}

/-- A linear solver: the matrix and the right-hand side give the solution or an exception. -/
abbrev Solver (K : Type) [Zero K] := Mat K → List K → Py (List K)

/-- A solver writes its solution to the vector `wh.vector()`, demo/poisson_babuska_bc.py:151; the vector is nested,
so its parts are the vectors of the components, xii/linalg/function.py:10-16 and 49-63. -/
def writeNest (h : Heap K) : List Fn → List K → Heap K
  | [], _ => h
  | f :: fs, y =>
      writeNest (h.put f.addr (y.take (h.vec f.addr).length)) fs (y.drop (h.vec f.addr).length)

variable [CommRing K]

/-- `A, b = apply_bc(A, b, bcs)`, demo/poisson_babuska_bc.py:146, of a block system.  Other results of `apply_bc`
do not occur for block systems without `return_apply_b`. -/
def constrain (tiny : Tiny K) (fuel : Nat) (ns : List Nat) (A : List (List (Expr K))) (b : List (List K))
    (bcs : BcArg K) (diag : K) (sym : Bool) : Py (List (List (Expr K)) × List (List K)) :=
  match applyBc tiny fuel (.block ns ns A) (.block b) bcs diag sym false with
  | .ok .same => .ok (A, b)
  | .ok (.block A' b') => .ok (A'.map (·.map Expr.mat), b')
  | .ok _ => .error .typeError
  | .error e => .error e

/-- `A, b = list(map(ii_convert, (A, b)))`, `wh = ii_Function(W)` and `solver.solve(wh.vector(), b)`,
demo/poisson_babuska_bc.py:148-151.  Returns the components of `wh` and the heap of coefficient vectors. -/
def solveBlock (tiny : Tiny K) (fuel : Nat) (solve : Solver K) (ns : List Nat) (A : List (List (Expr K)))
    (b : List (List K)) (W : List Space) (h : Heap K) : Py (List Fn × Heap K) := do
  let M ← convertMat tiny fuel ns ns A
  let wh ← init h W none
  let y ← solve M (convertVec b)
  .ok (wh.1, writeNest wh.2 wh.1 y)

/-- The program from the assembled system to the solution, demo/poisson_babuska_bc.py:142-151. -/
def run (tiny : Tiny K) (fuel : Nat) (solve : Solver K) (ns : List Nat) (A : List (List (Expr K)))
    (b : List (List K)) (bcs : BcArg K) (diag : K) (sym : Bool) (W : List Space) (h : Heap K) :
    Py (List Fn × Heap K) := do
  let s ← constrain tiny fuel ns A b bcs diag sym
  solveBlock tiny fuel solve ns s.1 s.2 W h

/-- The body of the loop of demo/time_dep.py:52-61: assembly of the right-hand side, which reads the coefficients
of `u0`, update of the boundary values by `apply_b`, solution and `u0.assign(wh[0])`.  `bb` is changed in place
by `apply_b`, so it is the value which `apply_b` returns. -/
def step (solve : Solver K) (u : Updater K) (M : Mat K) (wh : List Fn) (u0 : Nat)
    (rhs : List K → List (List K)) (now : List (BcArg K)) (h : Heap K) : Py (Heap K) := do
  let bb ← u.apply now (rhs (h.vec u0))
  let y ← solve M (convertVec bb)
  let w ← getInt wh 0
  let h' := writeNest h wh y
  .ok (h'.put u0 (h'.vec w.addr))

/-- The first `n` passes of the loop of demo/time_dep.py:52-61.  `rhs k` and `now k` are the assembly of the
right-hand side and the boundary conditions at the time of pass `k`.  Returns the coefficients of the components
of `wh` after each pass. -/
def loop (solve : Solver K) (u : Updater K) (M : Mat K) (wh : List Fn) (u0 : Nat)
    (rhs : Nat → List K → List (List K)) (now : Nat → List (BcArg K)) :
    (n k : Nat) → Heap K → Py (List (List (List K)))
  | 0, _, _ => .ok []
  | n + 1, k, h => do
      let h' ← step solve u M wh u0 (rhs k) (now k) h
      let rest ← loop solve u M wh u0 rhs now n (k + 1) h'
      .ok (vectors h' wh :: rest)

/-- demo/time_dep.py:42-61: the system `A, b` is assembled at the initial time, boundary conditions are applied with
`return_apply_b=True`, the matrix is converted once.  `u0` is the address of the coefficients of the function
interpolated in line 33. -/
def timeDep (tiny : Tiny K) (fuel : Nat) (solve : Solver K) (ns : List Nat) (A : List (List (Expr K)))
    (b : List (List K)) (bcs : BcArg K) (W : List Space) (u0 : Nat) (rhs : Nat → List K → List (List K))
    (now : Nat → List (BcArg K)) (n : Nat) (h : Heap K) : Py (List (List (List K))) :=
  match applyBc tiny fuel (.block ns ns A) (.block b) bcs 1 true true with
  | .ok (.triple A' _ u) => do
      let wh ← init h W none
      let M ← convertMat tiny fuel ns ns (A'.map (·.map .mat))
      loop solve u M wh.1 u0 rhs now n 0 wh.2
  | .ok _ => .error .valueError
  | .error e => .error e

end Verif.Workflow
