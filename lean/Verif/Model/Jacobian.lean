import Verif.Model.BlockForm
import Mathlib.Data.List.Sort
/-!
# `xii/nonlin/jacobian.py`

`df.derivative` does not differentiate: it wraps the integrand in a `CoefficientDerivative` node, which is expanded
when the form is assembled.  This is how it is modelled; the meaning of the node is in `Verif.Spec.Jacobian`.
-/
namespace Verif.Jacobian
open Verif Ufl BlockForm BlockOps

variable {S : Type} [DecidableEq S]

/-- What is known of terminals which are not arguments, by their `id` (UFL's `count`). -/
structure Kinds (S : Type) where
  /-- `isinstance(t, ufl.Coefficient)` -/
  coefficient : Nat → Bool
  /-- `isinstance(t, df.Constant)` -/
  constant : Nat → Bool
  /-- `t.function_space()` -/
  space : Nat → S
  /-- `t.vector().id()`; `none` for coefficients without the method `vector`, such as `df.Expression`. -/
  vector : Nat → Option Nat

/-- Type of the UFL node `CoefficientDerivative(integrand, coefficients, arguments, coefficient_derivatives)`. -/
def cdType : Nat := 0
/-- Type of the UFL node `ExprList`. -/
def listType : Nat := 1
/-- Type of the UFL node `ExprMapping`. -/
def mapType : Nat := 2

mutual
/-- UFL's `==` of expressions: the same tree, annotations are not compared. -/
def uflEq : UExpr S → UExpr S → Bool
  | .term a, .term b => a.base = b.base
  | .node k xs, .node l ys => k == l && uflEqAll xs ys
  | .term _, .node _ _ => false
  | .node _ _, .term _ => false
/-- The operands. -/
def uflEqAll : List (UExpr S) → List (UExpr S) → Bool
  | [], [] => true
  | x :: xs, y :: ys => uflEq x y && uflEqAll xs ys
  | [], _ :: _ => false
  | _ :: _, [] => false
end

/-- Terminals of a form. -/
def formTerminals (f : List (Integral S)) : List (UExpr S) := f.flatMap (fun I => traverseTerminals I.integrand)

/-- `L.arguments()`: arguments without repetition (for UFL's `==`). -/
def arguments (f : List (Integral S)) : List (Term S) := firstOnly [] (argsOf (formTerminals f))

/-- Coefficients among terminals. -/
def coefsOf (K : Kinds S) : List (UExpr S) → List (Term S)
  | [] => []
  | .term ⟨.other i, as⟩ :: es => if K.coefficient i then ⟨.other i, as⟩ :: coefsOf K es else coefsOf K es
  | _ :: es => coefsOf K es

/-- The count of a coefficient. -/
def coefId : Term S → Nat
  | ⟨.other i, _⟩ => i
  | _ => 0

/-- `f.coefficients()`: coefficients without repetition (for UFL's `==`), sorted by their count. -/
def coefficients (K : Kinds S) (f : List (Integral S)) : List (Term S) :=
  (firstOnly [] (coefsOf K (formTerminals f))).insertionSort (fun a b => coefId a ≤ coefId b)

/-- `is_okay_functional`, xii/nonlin/jacobian.py:7-14. -/
def isOkayFunctional (f : List (Integral S)) : Py (Term S) :=
  match arguments f with
  | [a] =>
      match a.base with
      | .argument n _ => if n = 1 then .error .assertion else .ok a
      | .other _ => .error .attributeError
  | _ => .error .assertion

/-- The annotations which are supported, xii/nonlin/jacobian.py:39 and 50. -/
def rtypes : List String := ["trace_", "average_", "restriction_"]

/-- `is_restricted`, xii/nonlin/jacobian.py:37-43. -/
def isRestricted (x : Term S) : Bool := rtypes.any (fun r => (x.attr r).isSome)

/-- `restriction_type` and the value of the annotation, xii/nonlin/jacobian.py:46-52; `none` if it is not restricted. -/
def restriction (x : Term S) : Option (String × Nat) :=
  (rtypes.find? (fun r => (x.attr r).isSome)).bind (fun r => (x.attr r).map (fun v => (r, v)))

/-- `isinstance(x, ufl.Coefficient)`. -/
def isCoefficient (K : Kinds S) : Term S → Bool
  | ⟨.other i, _⟩ => K.coefficient i
  | _ => false

/-- `x.vector().id()`. -/
def vectorId (K : Kinds S) : Term S → Py Nat
  | ⟨.other i, _⟩ => match K.vector i with
      | some a => .ok a
      | none => .error .attributeError
  | _ => .error .attributeError

/-- `(fi == x) or fi.vector().id() == x.vector().id()`, xii/nonlin/jacobian.py:77. -/
def sameVector (K : Kinds S) (fi x : Term S) : Py Bool :=
  if fi.base = x.base then .ok true
  else do
    let a ← vectorId K fi
    let b ← vectorId K x
    .ok (decide (a = b))

/-- `isinstance(c, df.Constant)`. -/
def isConstant (K : Kinds S) : Term S → Bool
  | ⟨.other i, _⟩ => K.constant i
  | _ => false

/-- `df.derivative` of an integrand with respect to a function: the trial function is made by it. -/
def derivative (c trial : Term S) (e : UExpr S) : UExpr S :=
  .node cdType [e, .node listType [.term c], .node listType [.term trial], .node mapType []]

/-- Attributes given to the integrals' replacement, xii/nonlin/jacobian.py:79-84. -/
def attributesOf (fi : Term S) : Option (List String) := (restriction fi).map (fun r => [r.1])

/-- Substitution of `fi` in the integrals of the form; integrals which do not change are left out,
xii/nonlin/jacobian.py:88-95. -/
def subIntegrals (fi sub : Term S) (f : List (Integral S)) : List (Integral S) :=
  f.filterMap (fun I =>
    let e := replace (.term fi) (.term sub) (attributesOf fi) I.integrand
    if uflEq e I.integrand then none else some ⟨e, I.rest⟩)

/-- Substituting back in one integral, xii/nonlin/jacobian.py:103-105. -/
def backOne (fi sub : Term S) (I : Integral S) : Py (Integral S) := do
  let e := replace (.term sub) (.term fi) none I.integrand
  pyAssert (!uflEq e I.integrand)
  .ok ⟨e, I.rest⟩

/-- `setattr` on a trial function. -/
def annotate (r : String × Nat) (t : Term S) : Term S :=
  match t.base with
  | .argument 1 _ => { t with attrs := r :: t.attrs.filter (fun p => p.1 ≠ r.1) }
  | _ => t

mutual
/-- The tree whose terminals have been changed in place. -/
def mapTerms (g : Term S → Term S) : UExpr S → UExpr S
  | .term t => .term (g t)
  | .node k ops => .node k (mapTermsAll g ops)
/-- Operands. -/
def mapTermsAll (g : Term S → Term S) : List (UExpr S) → List (UExpr S)
  | [] => []
  | e :: es => mapTerms g e :: mapTermsAll g es
end

/-- Annotating the trial function, xii/nonlin/jacobian.py:109-111.  All occurrences are the one object made by
`df.derivative`, so the attribute shows on every one of them; no trial function gives `StopIteration`. -/
def restrictTrial (r : Option (String × Nat)) (d : List (Integral S)) : Py (List (Integral S)) :=
  match r with
  | none => .ok d
  | some r =>
      if (arguments d).any (fun t => match t.base with | .argument 1 _ => true | _ => false) then
        .ok (d.map (fun I => ⟨mapTerms (annotate r) I.integrand, I.rest⟩))
      else .error .stopIteration

/-- The partial derivative with respect to the coefficient `fi`, xii/nonlin/jacobian.py:79-111; `sub` is the count of the
new function. -/
def partialDerivative (K : Kinds S) (sub : Nat) (f : List (Integral S)) (fi : Term S) : Py (List (Integral S)) := do
  let fiSub : Term S := ⟨.other sub, []⟩
  let trial : Term S := ⟨.argument 1 (K.space (coefId fi)), []⟩
  let d := (subIntegrals fi fiSub f).map (fun I => (⟨derivative fiSub trial I.integrand, I.rest⟩ : Integral S))
  let d ← pyMap (backOne fi fiSub) d
  restrictTrial (restriction fi) d

/-- The loop, xii/nonlin/jacobian.py:75-115; `fresh` gives the counts of new functions. -/
def derivativeLoop (K : Kinds S) (fresh : Nat → Nat) (f : List (Integral S)) (x : Term S) :
    Nat → List (Term S) → Entry S → Py (Entry S)
  | _, [], J => .ok J
  | n, fi :: cs, J => do
      let same ← sameVector K fi x
      if same then do
        let d ← partialDerivative K (fresh n) f fi
        let J ← addEntry J (.form d)
        derivativeLoop K fresh f x (n + 1) cs J
      else derivativeLoop K fresh f x n cs J

/-- `ii_derivative`, xii/nonlin/jacobian.py:60-117. -/
def iiDerivative (K : Kinds S) (fresh : Nat → Nat) (f : List (Integral S)) (x : Term S) : Py (Entry S) := do
  let _ ← isOkayFunctional f
  pyAssert (isCoefficient K x && !isRestricted x)
  derivativeLoop K fresh f x 0 ((coefficients K f).filter (fun c => !isConstant K c)) (.num 0)

/-- The space of an argument or coefficient. -/
def spaceOf (K : Kinds S) (t : Term S) : S :=
  match t.base with
  | .argument _ V => V
  | .other i => K.space i

/-- `block_jacobian`, xii/nonlin/jacobian.py:17-34, for lists of forms.  New functions have counts from `fresh i j`. -/
def blockJacobian (K : Kinds S) (fresh : Nat → Nat → Nat → Nat) (bf : List (List (Integral S))) (foos : List (Term S)) :
    Py (List (List (Entry S))) := do
  pyAssert (decide (bf.length = foos.length))
  pyAssert (foos.all (isCoefficient K))
  let tests ← pyMap isOkayFunctional bf
  pyAssert ((tests.zip foos).all (fun p => decide (spaceOf K p.1 = spaceOf K p.2)))
  pyMap (fun p : List (Integral S) × Nat =>
    pyMap (fun q : Term S × Nat => iiDerivative K (fresh p.2 q.2) p.1 q.1) foos.zipIdx) bf.zipIdx

end Verif.Jacobian
