import Verif.Model.Jacobian
import Verif.Spec.Ufl
import Mathlib.Analysis.Calculus.Deriv.Basic
import Mathlib.Analysis.Normed.Group.Constructions
import Mathlib.Topology.Algebra.Module.Basic
/-!
# The meaning of forms

Integrands take values in a normed space `W` (functions on the domains of integration).  An operator of UFL is any
function of the values of its operands.  An annotation is a continuous linear operator.  A `CoefficientDerivative` is
the derivative of the value of the integrand along the argument.
-/
namespace Verif.Jacobian
open Verif Ufl BlockForm

variable {S : Type} [DecidableEq S] {W : Type} [NormedAddCommGroup W] [NormedSpace ℝ W]

/-- Values of terminals. -/
abbrev Env (S W : Type) := Term S → W

/-- Change the value of one terminal. -/
def setEnv (σ : Env S W) (c : Term S) (w : W) : Env S W := fun t => if t = c then w else σ t

/-- `CoefficientDerivative` of one coefficient and one argument, given the values of operands; with other operands (which
`df.derivative` of a function does not make) it has some value given by `other`. -/
noncomputable def derivNode (other : List W → W) (ops : List (UExpr S)) (vals : List (Env S W → W)) (σ : Env S W) : W :=
  match ops, vals with
  | [_, .node _ [.term c], .node _ [.term t], _], body :: _ =>
      deriv (fun ε : ℝ => body (setEnv σ c (σ c + ε • σ t))) 0
  | _, _ => other (vals.map (fun v => v σ))

mutual
/-- Value of an expression. -/
noncomputable def eval (op : Nat → List W → W) : UExpr S → Env S W → W
  | .term t => fun σ => σ t
  | .node k ops => fun σ =>
      if k = cdType then derivNode (op k) ops (evalAll op ops) σ else op k ((evalAll op ops).map (fun v => v σ))
/-- Values of operands. -/
noncomputable def evalAll (op : Nat → List W → W) : List (UExpr S) → List (Env S W → W)
  | [] => []
  | e :: es => eval op e :: evalAll op es
end

/-- What a form is about: the meaning of operators, annotations, integrals and of terminals which are neither arguments
nor functions with a vector. -/
structure World (S W : Type) [NormedAddCommGroup W] [NormedSpace ℝ W] where
  op : Nat → List W → W
  ann : List (String × Nat) → W →L[ℝ] W
  integrate : Nat → W →L[ℝ] ℝ
  other : Term S → W

/-- Values of terminals: `u a` is the function whose coefficients are in the vector `a`, `v` is the test function and `w`
the trial function; an annotated terminal is the operator of its annotation applied to it. -/
def World.env (M : World S W) (K : Kinds S) (u : Nat → W) (v w : W) : Env S W := fun t =>
  match t.base with
  | .argument 0 _ => M.ann t.attrs v
  | .argument _ _ => M.ann t.attrs w
  | .other i =>
      match K.vector i with
      | some a => M.ann t.attrs (u a)
      | none => M.other t

/-- Value of a form. -/
noncomputable def World.form (M : World S W) (σ : Env S W) (f : List (Integral S)) : ℝ :=
  (f.map (fun I => M.integrate I.rest (eval M.op I.integrand σ))).sum

/-- Value of a block. -/
noncomputable def World.entry (M : World S W) (σ : Env S W) : Entry S → ℝ
  | .num c => c
  | .form f => M.form σ f

/-- Terminals of a form. -/
def formTerms (f : List (Integral S)) : List (Term S) := f.flatMap (fun I => terms I.integrand)

/-- The function with vector `a`, possibly annotated. -/
def Shares (K : Kinds S) (a : Nat) (t : Term S) : Prop := ∃ i, t.base = .other i ∧ K.vector i = some a

open Classical in
/-- All copies of the function with vector `a` in a form. -/
noncomputable def copies (K : Kinds S) (a : Nat) (f : List (Integral S)) : Finset (Term S) :=
  (formTerms f).toFinset.filter (Shares K a)

open Classical in
/-- Values of some terminals replaced. -/
noncomputable def over (σ : Env S W) (s : Finset (Term S)) (z : s → W) : Env S W :=
  fun t => if h : t ∈ s then z ⟨t, h⟩ else σ t

/-- The value of the integrand is a differentiable function of the values of the terminals in `s`. -/
def Smooth (M : World S W) (e : UExpr S) (σ : Env S W) (s : Finset (Term S)) : Prop :=
  DifferentiableAt ℝ (fun z : s → W => eval M.op e (over σ s z)) (fun c => σ c)

/-- Only functions have vectors: not constants, not terminals which are no coefficients. -/
def Kinds.Ok (K : Kinds S) : Prop := ∀ i a, K.vector i = some a → K.coefficient i = true ∧ K.constant i = false

/-- Residuals for which the derivative with respect to the function with vector `a` is supported:

* every coefficient other than constants has a vector;
* coefficients which are equal for UFL are the same object, new functions have new counts;
* copies of the function are plain or annotated once, as trace, average or restriction. -/
structure Supported (K : Kinds S) (fresh : Nat → Nat) (f : List (Integral S)) (a : Nat) : Prop where
  vec : ∀ c ∈ formTerms f, ∀ j, c.base = .other j → K.coefficient j = true → K.constant j = false → K.vector j ≠ none
  obj : ∀ t ∈ formTerms f, ∀ t' ∈ formTerms f, isCoefficient K t = true → t.base = t'.base → t = t'
  fresh : ∀ n, ∀ t ∈ formTerms f, t.base ≠ .other (fresh n)
  ann : ∀ c ∈ copies K a f, c.attrs = [] ∨ ∃ r ∈ ["trace_", "average_", "restriction_"], ∃ d, c.attrs = [(r, d)]

/-- The space of a test function or of a coefficient. -/
def SpaceIs (K : Kinds S) (t : Term S) (V : S) : Prop :=
  (∃ n, t.base = .argument n V) ∨ ∃ i, t.base = .other i ∧ K.space i = V

/-- A function which is not restricted, with vector `a`. -/
def Plain (K : Kinds S) (x : Term S) (a : Nat) : Prop :=
  (∃ i, x.base = .other i ∧ K.vector i = some a) ∧ ∀ r ∈ ["trace_", "average_", "restriction_"], x.attr r = none

/-- Moving the function with vector `a` by `ε w`. -/
def move (u : Nat → W) (a : Nat) (w : W) (ε : ℝ) : Nat → W := fun b => if b = a then u a + ε • w else u b

end Verif.Jacobian
