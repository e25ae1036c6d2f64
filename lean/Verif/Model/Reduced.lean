import Verif.Model.BlockForm
import Verif.Model.Mat
import Mathlib.Algebra.Module.Defs
import Mathlib.Data.List.Sort
/-!
# `xii/assembler/reduced_assembler.py` and the base case of `xii/assembler/xii_assembly.py`

Finite element functions are elements of a module `D`; a space has basis functions.  What dolfin does with a form without
annotated terminals (`df.assemble`) is modelled by its defining property: the entries are the integrals with basis
functions put for the arguments.  The assemblers of the individual reductions (trace, average, ...) are
records of the functions which they override.
-/
namespace Verif.Reduced
open Verif Ufl BlockOps BlockForm Finset

variable {S K D : Type} [DecidableEq S] [CommRing K] [AddCommGroup D] [Module K D]

/-- Spaces, operators of UFL, other coefficients and integration.  The `rest` of an integral (domain, type,
subdomain data) is a number. -/
structure Sem (S K D : Type) where
  dim : S → Nat
  basis : S → Nat → D
  op : Nat → List D → D
  const : Nat → D
  integral : Nat → D → K

/-- The `Function`s: space and coefficient vector of a terminal, `none` for other coefficients. -/
abbrev Env (S K : Type) := Nat → Option (S × (Nat → K))

/-- Assembled objects. -/
inductive Tensor (K : Type) [Zero K] where
  | num (c : K)
  | vec (n : Nat) (b : Nat → K)
  | mat (A : Mat K)

mutual
/-- Value of an integrand for given values of terminals. -/
def den (sem : Sem S K D) (val : Term S → D) : UExpr S → D
  | .term t => val t
  | .node k ops => sem.op k (denAll sem val ops)
/-- Operands. -/
def denAll (sem : Sem S K D) (val : Term S → D) : List (UExpr S) → List D
  | [] => []
  | e :: es => den sem val e :: denAll sem val es
end

/-- The function with coefficients `x` in a space. -/
def fn (sem : Sem S K D) (V : S) (x : Nat → K) : D := ∑ i ∈ range (sem.dim V), x i • sem.basis V i

/-- `form.arguments()`: numbers and spaces; UFL raises if a number occurs with two spaces. -/
def argPairs : List (Term S) → List (Nat × S)
  | [] => []
  | ⟨.argument n V, _⟩ :: ts => (n, V) :: argPairs ts
  | _ :: ts => argPairs ts

/-- `form.arguments()`, ordered by number; `arity = form_arity(form)`, xii/assembler/xii_assembly.py:47 and
ufl_utils.py:121-123. -/
def arguments (F : List (Integral S)) : Py (List (Nat × S)) :=
  let ps := (F.flatMap (fun I => argPairs (terms I.integrand))).dedup
  if ps.all (fun p => ps.all (fun q => p.1 ≠ q.1 || p = q)) then
    .ok (ps.insertionSort (fun p q => p.1 ≤ q.1))
  else .error .valueError
where
  /-- Terminals of an integrand. -/
  terms (e : UExpr S) : List (Term S) := argsOf (traverseTerminals e)

/-- Values of the terminals when `x0`, `x1` are put for test and trial functions; annotations are not looked at. -/
def plainVal (sem : Sem S K D) (env : Env S K) (x0 x1 : D) (t : Term S) : D :=
  match t.base with
  | .argument 0 _ => x0
  | .argument _ _ => x1
  | .other id => match env id with
      | some (V, c) => fn sem V c
      | none => sem.const id

/-- Sum of the integrals. -/
def total (sem : Sem S K D) (F : List (Integral S)) (val : Integral S → Term S → D) : K :=
  (F.map (fun I => sem.integral I.rest (den sem (val I) I.integrand))).sum

/-- `df.assemble(form)`, xii/assembler/xii_assembly.py:56-57. -/
def dfAssemble (sem : Sem S K D) (env : Env S K) (F : List (Integral S)) : List (Nat × S) → Py (Tensor K)
  | [] => .ok (.num (total sem F (fun _ => plainVal sem env 0 0)))
  | [(0, V)] => .ok (.vec (sem.dim V) (fun i => total sem F (fun _ => plainVal sem env (sem.basis V i) 0)))
  | [(0, V), (1, Q)] => .ok (.mat (Mat.of (sem.dim V) (sem.dim Q)
      (fun i j => total sem F (fun _ => plainVal sem env (sem.basis V i) (sem.basis Q j)))))
  | _ => .error .runtimeError

/-- What an assembler class overrides, xii/assembler/reduced_assembler.py:21-54: `selects` is membership in
`select_integrals`, `needs` in `restriction_filter`; the matrix and the space depend on the attributes of the terminal. -/
structure Assembler (S K : Type) [Zero K] where
  attr : String
  selects : Nat → UExpr S → Bool
  needs : Nat → Term S → Bool
  compatible : Nat → Term S → Py Bool
  domain : List (String × Nat) → S → S
  space : List (String × Nat) → S → Nat → Py S
  matrix : List (String × Nat) → S → S → Nat → Py (Mat K)

mutual
/-- Equality of integrands for UFL: annotations are not compared. -/
def sameExpr : UExpr S → UExpr S → Bool
  | .term s, .term t => s.base = t.base
  | .node k xs, .node l ys => k == l && sameAll xs ys
  | _, _ => false
/-- Operands. -/
def sameAll : List (UExpr S) → List (UExpr S) → Bool
  | [], [] => true
  | x :: xs, y :: ys => sameExpr x y && sameAll xs ys
  | _, _ => false
end

/-- `integral in reduced_integrals`, xii/assembler/reduced_assembler.py:65. -/
def inReduced (m : Assembler S K) (F : List (Integral S)) (I : Integral S) : Bool :=
  (F.filter (fun J => m.selects J.rest J.integrand)).any (fun J => J.rest = I.rest && sameExpr J.integrand I.integrand)

/-- The set of terminals, xii/assembler/reduced_assembler.py:74. -/
def uniqueTerms (e : UExpr S) : List (Term S) :=
  firstOnly [] ((traverseTerminals e).filterMap (fun x => match x with | .term t => some t | .node _ _ => none))

/-- `sorted(..., key=is_compatible)`, then `pop()`, the assertion on the candidate,
xii/assembler/reduced_assembler.py:77-85. -/
def pick (m : Assembler S K) (rest : Nat) (ts : List (Term S)) : Py (Term S) := do
  let keys ← pyMap (fun t => do
    let b ← m.compatible rest t
    .ok (t, b)) ts
  let sorted := keys.filter (fun p => !p.2) ++ keys.filter (fun p => p.2)
  match sorted.getLast? with
  | none => .error .assertion
  | some (t, true) => .ok t
  | some (_, false) => .error .assertion

/-- Space of a terminal, `terminal.function_space()`. -/
def functionSpace (env : Env S K) (t : Term S) : Py S :=
  match t.base with
  | .argument _ V => .ok V
  | .other id => match env id with
      | some (V, _) => .ok V
      | none => .error .attributeError

/-- `block_transpose(T)*A` and `T.transpmult(b, Tb)`, xii/assembler/reduced_assembler.py:109-117.  Sizes are checked
when the product is used; here at once. -/
def transposeApply (arity : Nat) (T : Mat K) (r : Tensor K) : Py (Tensor K) :=
  if arity = 2 then
    match r with
    | .mat A => if T.rows = A.rows then .ok (.mat (T.tr.mul A)) else .error .valueError
    | _ => .error .typeError
  else
    match r with
    | .vec n b => if T.rows = n then .ok (.vec T.cols (fun j => ∑ i ∈ range T.rows, T.e i j * b i)) else .error .runtimeError
    | _ => .error .typeError

/-- `A*T`, xii/assembler/reduced_assembler.py:126-127. -/
def rightApply (T : Mat K) : Tensor K → Py (Tensor K)
  | .mat A => if A.cols = T.rows then .ok (.mat (A.mul T)) else .error .valueError
  | _ => .error .typeError

/-- `operator.add`. -/
def addTensor : Tensor K → Tensor K → Py (Tensor K)
  | .num a, .num b => .ok (.num (a + b))
  | .vec n a, .vec m b => if n = m then .ok (.vec n (fun i => a i + b i)) else .error .runtimeError
  | .mat A, .mat B => if A.rows = B.rows ∧ A.cols = B.cols then .ok (.mat (Mat.axpy 1 A B)) else .error .valueError
  | _, _ => .error .typeError

/-- `reduce(operator.add, components)`, xii/assembler/reduced_assembler.py:140. -/
def reduceAdd : List (Tensor K) → Py (Tensor K)
  | [] => .error .typeError
  | t :: ts => ts.foldlM addTensor t

/-- An identity for the function `df.Function(TV)`: not one of the terminals of the integrand, and odd, so that even numbers
can be kept for the functions of the form.  (In the code: globally new.) -/
def freshId (e : UExpr S) : Nat :=
  2 * ((uniqueTerms e).map (fun t => match t.base with | .other id => id + 1 | _ => 0)).foldl max 0 + 1

/-- The environment with one more function. -/
def setEnv (env : Env S K) (id : Nat) (f : S × (Nat → K)) : Env S K := fun k => if k = id then some f else env k

/-- The body of the loop for one integral, xii/assembler/reduced_assembler.py:63-137: the components appended.
`asm` is the recursive call of `xii_assembly.assemble`. -/
def component (sem : Sem S K D) (order : List (Term S) → List (Term S))
    (asm : Env S K → List (Integral S) → Py (Tensor K)) (m : Assembler S K) (env : Env S K) (arity : Nat)
    (F : List (Integral S)) (I : Integral S) : Py (List (Tensor K)) :=
  if inReduced m F I then do
    let t ← pick m I.rest ((order (uniqueTerms I.integrand)).filter (m.needs I.rest))
    let V0 ← functionSpace env t
    let V := m.domain t.attrs V0
    let TV ← m.space t.attrs V I.rest
    let T ← m.matrix t.attrs V TV I.rest
    match t.base with
    | .argument 0 _ => do
        let e := replace (.term t) (.term ⟨.argument 0 TV, []⟩) (some [m.attr]) I.integrand
        let r ← asm env [⟨e, I.rest⟩]
        let c ← transposeApply arity T r
        .ok [c]
    | .argument 1 _ => do
        pyAssert (arity = 2)
        let e := replace (.term t) (.term ⟨.argument 1 TV, []⟩) (some [m.attr]) I.integrand
        let r ← asm env [⟨e, I.rest⟩]
        let c ← rightApply T r
        .ok [c]
    | .argument _ _ => .ok []
    | .other id =>
        match env id with
        | none => .ok []
        | some (W, c) => do
            if T.cols ≠ sem.dim W ∨ T.rows ≠ sem.dim TV then .error .runtimeError
            else do
              let new := freshId I.integrand
              let e := replace (.term t) (.term ⟨.other new, []⟩) (some [m.attr]) I.integrand
              let r ← asm (setEnv env new (TV, fun i => ∑ j ∈ range T.cols, T.e i j * c j)) [⟨e, I.rest⟩]
              .ok [r]
  else do
    let r ← asm env [I]
    .ok [r]

/-- `ReducedFormAssembler.assemble` of a form with selected integrals. -/
def assembleWith (sem : Sem S K D) (order : List (Term S) → List (Term S))
    (asm : Env S K → List (Integral S) → Py (Tensor K)) (m : Assembler S K) (env : Env S K) (arity : Nat)
    (F : List (Integral S)) : Py (Tensor K) := do
  let cs ← pyMap (component sem order asm m env arity F) F
  reduceAdd cs.flatten

/-- The loop over the assemblers and the fallback, xii/assembler/xii_assembly.py:49-57. -/
def tryAll (sem : Sem S K D) (order : List (Term S) → List (Term S))
    (asm : Env S K → List (Integral S) → Py (Tensor K)) (env : Env S K) (args : List (Nat × S))
    (F : List (Integral S)) : List (Assembler S K) → Py (Tensor K)
  | [] => dfAssemble sem env F args
  | m :: ms =>
      if F.any (fun I => m.selects I.rest I.integrand) then assembleWith sem order asm m env args.length F
      else tryAll sem order asm env args F ms

/-- `assemble` of a form, xii/assembler/xii_assembly.py:46-57; the recursion is bounded by fuel. -/
def assemble (sem : Sem S K D) (order : List (Term S) → List (Term S)) (mods : List (Assembler S K)) :
    Nat → Env S K → List (Integral S) → Py (Tensor K)
  | 0, _, _ => .error .outOfFuel
  | fuel + 1, env, F => do
      let args ← arguments F
      tryAll sem order (assemble sem order mods fuel) env args F mods

end Verif.Reduced
