import Verif.Model.Ufl
/-! # Substitution in trees -/
namespace Verif.Ufl
open Verif

variable {S : Type} [DecidableEq S]

mutual
/-- Replace every terminal `t` by `f t`. -/
def subst (f : Term S → UExpr S) : UExpr S → UExpr S
  | .term t => f t
  | .node k ops => .node k (substAll f ops)
/-- Operands. -/
def substAll (f : Term S → UExpr S) : List (UExpr S) → List (UExpr S)
  | [] => []
  | e :: es => subst f e :: substAll f es
end

mutual
/-- The terminals of a tree, left to right. -/
def terms : UExpr S → List (Term S)
  | .term t => [t]
  | .node _ ops => termsAll ops
/-- Operands. -/
def termsAll : List (UExpr S) → List (Term S)
  | [] => []
  | e :: es => terms e ++ termsAll es
end

/-- Equal for UFL and, if attributes are given, carrying all of them with equal values. -/
def Same (attributes : Option (List String)) (s t : Term S) : Prop :=
  s.base = t.base ∧ ∀ as, attributes = some as → ∀ a ∈ as, ∃ v, s.attr a = some v ∧ t.attr a = some v

mutual
/-- The expression without annotations. -/
def erase : UExpr S → UExpr S
  | .term t => .term ⟨t.base, []⟩
  | .node k ops => .node k (eraseAll ops)
/-- Operands. -/
def eraseAll : List (UExpr S) → List (UExpr S)
  | [] => []
  | e :: es => erase e :: eraseAll es
end

mutual
/-- The type of an operator determines the number of its operands. -/
def Arities (arity : Nat → Nat) : UExpr S → Prop
  | .term _ => True
  | .node k ops => ops.length = arity k ∧ AritiesAll arity ops
/-- Operands. -/
def AritiesAll (arity : Nat → Nat) : List (UExpr S) → Prop
  | [] => True
  | e :: es => Arities arity e ∧ AritiesAll arity es
end

open Classical in
mutual
/-- Replace the outermost subexpressions with the property `P` by `r`. -/
noncomputable def substTop (P : UExpr S → Prop) (r : UExpr S) : UExpr S → UExpr S
  | .term t => if P (.term t) then r else .term t
  | .node k ops => if P (.node k ops) then r else .node k (substTopAll P r ops)
/-- Operands. -/
noncomputable def substTopAll (P : UExpr S → Prop) (r : UExpr S) : List (UExpr S) → List (UExpr S)
  | [] => []
  | e :: es => substTop P r e :: substTopAll P r es
end

/-- Test functions become trial functions and trial functions become test functions; spaces and annotations
are kept. -/
def swapTerm : Term S → Term S
  | ⟨.argument 0 V, as⟩ => ⟨.argument 1 V, as⟩
  | ⟨.argument 1 V, as⟩ => ⟨.argument 0 V, as⟩
  | t => t

/-- The adjoint of an integrand. -/
def swap (e : UExpr S) : UExpr S := subst (fun t => .term (swapTerm t)) e

/-- All arguments of the integrand are the given test and trial functions (annotations included). -/
def HasArgs (v u : Term S) (e : UExpr S) : Prop :=
  (∀ t ∈ terms e, ∀ n V, t.base = .argument n V → t = v ∨ t = u) ∧ v ∈ terms e ∧ u ∈ terms e

/-- Annotated only by traces, restrictions and averages, each set once and listed in this order. -/
def PlainAttrs (t : Term S) : Prop :=
  t.attrs = (["trace_", "restriction_", "average_"].filterMap (fun a => (t.attr a).map (fun v => (a, v))))

end Verif.Ufl
