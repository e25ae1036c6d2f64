import Verif.Model.Program
/-!
# Time stepping from forms: demo/time_dep.py:28-61

The coefficients of the forms are expressions which change with time (`f.t = t`, `gD.t = t`) and the function `u0`, whose
vector is replaced by the first component of the solution after each pass.
-/
namespace Verif.TimeDep
open Verif Ufl BlockOps BlockForm Collapse ApplyBc IIFunction Workflow Reduced ListUtils Program

variable {S K D : Type} [DecidableEq S] [Field K] [AddCommGroup D] [Module K D]

/-- `f.t = t`, demo/time_dep.py:54-55: the values of the expressions at a time; all else is as before. -/
def atTime (sem : Sem S K D) (c : Nat → D) : Sem S K D := { sem with const := c }

/-- The functions in the forms; the one with the identity `i`, from `V`, has the coefficients `u`. -/
def withFn (env : Env S K) (i : Nat) (V : S) (u : List K) : Env S K := setEnv env i (V, fun d => u.getD d 0)

/-- `ii_assemble(L)`, demo/time_dep.py:57 and xii/assembler/xii_assembly.py:62-67. -/
def assembleRhs (sem : Sem S K D) (order : List (Term S) → List (Term S)) (mods : List (Assembler S K)) (fuel : Nat)
    (env : Env S K) (L : List (Entry S)) : Py (List (List K)) := do
  let b ← NL.assembleNested (L.length + 1) (assembleItem sem order mods fuel env) (nested1 L)
  blockVec b

/-- `n` passes of the loop of demo/time_dep.py:52-61 from pass `k` on: `bb = ii_assemble(L)`, which is `rhs k` of the
    coefficients of `u0`, and then the rest of the body (`Workflow.step`).  Returns the coefficients of the components
    of `wh` after each pass. -/
def passes (solve : Solver K) (u : Updater K) (M : Mat K) (wh : List Fn) (u0 : Nat)
    (rhs : Nat → List K → Py (List (List K))) (now : Nat → List (BcArg K)) :
    (n k : Nat) → Heap K → Py (List (List (List K)))
  | 0, _, _ => .ok []
  | n + 1, k, h => do
      let bb ← rhs k (h.vec u0)
      let h' ← step solve u M wh u0 (fun _ => bb) (now k) h
      let rest ← passes solve u M wh u0 rhs now n (k + 1) h'
      .ok (vectors h' wh :: rest)

/-- demo/time_dep.py:43-61: boundary conditions with `return_apply_b=True`, `ii_Function(W)`, `ii_convert(AA)`, the loop. -/
def marching (tiny : Tiny K) (g : Nat) (solve : Solver K) (ns : List Nat) (A : List (List (Expr K)))
    (b : List (List K)) (bcs : BcArg K) (W : List IIFunction.Space) (u0 : Nat)
    (rhs : Nat → List K → Py (List (List K))) (now : Nat → List (BcArg K)) (n : Nat) (h : Heap K) :
    Py (List (List (List K))) :=
  match applyBc tiny g (.block ns ns A) (.block b) bcs 1 true true with
  | .ok (.triple A' _ u) => do
      let wh ← init h W none
      let M ← convertMat tiny g ns ns (A'.map (·.map .mat))
      passes solve u M wh.1 u0 rhs now n 0 wh.2
  | .ok _ => .error .valueError
  | .error e => .error e

/-- demo/time_dep.py:42-61: the block forms `a` and `L` are assembled at the initial time, `c 0` are the values of the
    expressions and `bcs 0` the boundary conditions then; in pass `k` they are `c (k + 1)` and `bcs (k + 1)`.  The function
    `u0` has the identity `i` in the forms, it is from `V`, and `u0` is the address of its vector. -/
def timeProgram (sem : Sem S K D) (order : List (Term S) → List (Term S)) (mods : List (Assembler S K)) (fuel : Nat)
    (env : Env S K) (i : Nat) (V : S) (c : Nat → Nat → D) (a : List (List (Entry S))) (L : List (Entry S))
    (tiny : Tiny K) (g : Nat) (solve : Solver K) (ns : List Nat) (bcs : Nat → List (BcArg K))
    (W : List IIFunction.Space) (u0 : Nat) (n : Nat) (h : Heap K) : Py (List (List (List K))) := do
  let s ← assembleSystem (atTime sem (c 0)) order mods fuel (withFn env i V (h.vec u0)) a L
  marching tiny g solve ns s.1 s.2 (.list (bcs 0)) W u0
    (fun k u => assembleRhs (atTime sem (c (k + 1))) order mods fuel (withFn env i V u) L) (fun k => bcs (k + 1)) n h

end Verif.TimeDep
