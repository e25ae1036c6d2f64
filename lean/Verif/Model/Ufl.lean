import Verif.Model.Py
/-!
# `xii/assembler/ufl_utils.py`: expression trees

UFL expressions are trees.  UFL constructors which simplify or sort their operands are not modelled:
`type(expr)(*operands)` is the node with these operands.
-/
namespace Verif.Ufl
open Verif

/-- What UFL's `==` compares: arguments (number and space) and all other terminals. -/
inductive Base (S : Type) where
  | argument (number : Nat) (space : S)
  | other (id : Nat)
  deriving DecidableEq

/-- A terminal object with the attributes set on it by annotations (`trace_`, `average_`, ...). -/
structure Term (S : Type) where
  base : Base S
  attrs : List (String × Nat) := []
  deriving DecidableEq

/-- An expression: a terminal or an operator (given by its type) with operands. -/
inductive UExpr (S : Type) where
  | term (t : Term S)
  | node (type : Nat) (operands : List (UExpr S))

variable {S : Type} [DecidableEq S]

/-- `getattr(t, a, None)`. -/
def Term.attr (t : Term S) (a : String) : Option Nat := t.attrs.lookup a

/-- `is_terminal`, xii/assembler/ufl_utils.py:19-21. -/
def isTerminal : UExpr S → Bool
  | .term _ => true
  | .node _ _ => false

mutual
/-- `traverse`, xii/assembler/ufl_utils.py:24-30: operands first. -/
def traverse : UExpr S → List (UExpr S)
  | .term t => [.term t]
  | .node k ops => traverseAll ops ++ [.node k ops]
/-- The loop over operands. -/
def traverseAll : List (UExpr S) → List (UExpr S)
  | [] => []
  | e :: es => traverse e ++ traverseAll es
end

/-- `traverse_terminals`, xii/assembler/ufl_utils.py:33-37. -/
def traverseTerminals (e : UExpr S) : List (UExpr S) := (traverse e).filter isTerminal

/-- `traverse_subexpr`, xii/assembler/ufl_utils.py:40-42. -/
def traverseSubexpr (e : UExpr S) : List (UExpr S) := (traverse e).filter (fun x => !isTerminal x)

/-- `is_equal_terminal` of two terminals, xii/assembler/ufl_utils.py:45-61. -/
def equalTerm (this that : Term S) (attributes : Option (List String)) : Bool :=
  if this.base ≠ that.base then false
  else
    match attributes with
    | none => true
    | some as =>
        if as.all (fun a => (this.attr a).isSome) && as.all (fun a => (that.attr a).isSome) then
          as.all (fun a => this.attr a = that.attr a)
        else false

/-- `is_equal_terminal`, xii/assembler/ufl_utils.py:45-61. -/
def isEqualTerminal (this that : UExpr S) (attributes : Option (List String)) : Bool :=
  match this, that with
  | .term a, .term b => equalTerm a b attributes
  | _, _ => false

mutual
/-- `matches`, xii/assembler/ufl_utils.py:64-75.  `isinstance(expr, type(target))` is equality of types. -/
def pyMatches : UExpr S → UExpr S → Option (List String) → Bool
  | .term a, .term b, attributes => isEqualTerminal (.term a) (.term b) attributes
  | .node k xs, .node l ys, _ => k == l && matchesAll xs ys
  | .term _, .node _ _, _ => false
  | .node _ _, .term _, _ => false
/-- The comprehension over `zip`, with `attributes=None`, xii/assembler/ufl_utils.py:73-74. -/
def matchesAll : List (UExpr S) → List (UExpr S) → Bool
  | [], _ => true
  | _ :: _, [] => true
  | x :: xs, y :: ys => pyMatches x y none && matchesAll xs ys
end

/-- `contains`, xii/assembler/ufl_utils.py:78-95. -/
def contains (expr target : UExpr S) (attributes : Option (List String)) : Bool :=
  if isTerminal target then
    if isTerminal expr then isEqualTerminal expr target attributes
    else (traverseTerminals expr).any (fun t => pyMatches target t attributes)
  else if isTerminal expr then false
  else (traverseSubexpr expr).any (fun s => pyMatches s target attributes)

mutual
/-- `replace`, xii/assembler/ufl_utils.py:98-108. -/
def replace (arg replacement : UExpr S) (attributes : Option (List String)) : UExpr S → UExpr S
  | .term t =>
      if !contains (.term t) arg attributes then .term t
      else if pyMatches (.term t) arg attributes then replacement
      else .term t
  | .node k ops =>
      if !contains (.node k ops) arg attributes then .node k ops
      else if pyMatches (.node k ops) arg attributes then replacement
      else .node k (replaceAll arg replacement attributes ops)
/-- The comprehension over operands, xii/assembler/ufl_utils.py:108. -/
def replaceAll (arg replacement : UExpr S) (attributes : Option (List String)) : List (UExpr S) → List (UExpr S)
  | [] => []
  | e :: es => replace arg replacement attributes e :: replaceAll arg replacement attributes es
end

/-! ## `form_adjoint` of an integrand, xii/assembler/block_form.py:179-208 -/

/-- Attributes which are carried over, xii/assembler/block_form.py:194. -/
def iiAttrs : List String := ["trace_", "restriction_", "average_"]

/-- Arguments among terminals. -/
def argsOf : List (UExpr S) → List (Term S)
  | [] => []
  | .term ⟨.argument n V, as⟩ :: es => ⟨.argument n V, as⟩ :: argsOf es
  | _ :: es => argsOf es

/-- Building a set: of equal (for UFL) arguments the first one stays. -/
def firstOnly : List (Term S) → List (Term S) → List (Term S)
  | _, [] => []
  | seen, t :: ts =>
      if seen.any (fun s => s.base = t.base) then firstOnly seen ts else t :: firstOnly (t :: seen) ts

/-- The set of arguments of line 192, listed in order of first occurrence. -/
def argumentSet (e : UExpr S) : List (Term S) := firstOnly [] (argsOf (traverseTerminals e))

/-- One round of the loop, xii/assembler/block_form.py:197-206: `KeyError` for arguments which are neither test
nor trial functions. -/
def adjointStep (arg : Term S) (e : UExpr S) : Py (UExpr S) :=
  match arg.base with
  | .argument n V =>
      if n ≤ 1 then
        let attrs := iiAttrs.filter (fun a => (arg.attr a).isSome)
        let adj : Term S := ⟨.argument (1 - n) V, attrs.filterMap (fun a => (arg.attr a).map (fun v => (a, v)))⟩
        .ok (replace (.term arg) (.term adj) (some attrs) e)
      else .error .keyError
  | .other _ => .error .attributeError

/-- The loop over arguments; the order of a Python set is not determined, so the order is an argument. -/
def adjointLoop : List (Term S) → UExpr S → Py (UExpr S)
  | [], e => .ok e
  | a :: as, e => do
      let e ← adjointStep a e
      adjointLoop as e

/-- `form_adjoint` of an integrand.  `order` lists the set of its arguments in the order of iteration. -/
def adjointExpr (order : List (Term S) → List (Term S)) (e : UExpr S) : Py (UExpr S) :=
  adjointLoop (order (argumentSet e)) e

end Verif.Ufl
