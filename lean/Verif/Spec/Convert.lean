import Verif.Model.Convert
import Verif.Spec.Collapse
/-! # What converting block objects means -/
namespace Verif.Collapse
open Verif

variable {K : Type} [CommRing K]

/-- A list as a vector. -/
def fnOf (l : List K) : Nat → K := fun i => l.getD i 0

/-- One block of `A*x`: `sum_j A[i][j]*x[j]` (cbc.block). -/
def rowAct (row : List (Expr K)) (xs : List (List K)) (i : Nat) : K :=
  ((row.zip xs).map (fun p => p.1.act (fnOf p.2) i)).sum

/-- `A*x` of a block matrix with block rows of sizes `rs`. -/
def blockAct (rs : List Nat) (blocks : List (List (Expr K))) (xs : List (List K)) : List (List K) :=
  (rs.zip blocks).map (fun p => (List.range p.1).map (rowAct p.2 xs))

/-- A block at position `i, j` of size `r × c`: a conforming expression, zero, or a
number on the diagonal of equal sizes. -/
def BlockOk (i j r c : Nat) (e : Expr K) : Prop :=
  HasDims e (some (r, c)) ∨ e = .num 0 ∨ (∃ a, e = .num a) ∧ i = j ∧ r = c

/-- A block matrix with row sizes `rs` and column sizes `cs`. -/
def Conforming (rs cs : List Nat) (blocks : List (List (Expr K))) : Prop :=
  blocks.length = rs.length ∧
  ∀ i row r, blocks[i]? = some row → rs[i]? = some r →
    row.length = cs.length ∧
    ∀ j e c, row[j]? = some e → cs[j]? = some c → BlockOk i j r c e

/-- Matrices as expressions. -/
def matBlocks (blocks : List (List (Mat K))) : List (List (Expr K)) := blocks.map (·.map .mat)

/-- A block matrix of matrices with sizes `ns`. -/
def MatLayout (ns : List Nat) (blocks : List (List (Mat K))) : Prop :=
  blocks.length = ns.length ∧
  ∀ (i : Nat) (row : List (Mat K)) (r : Nat), blocks[i]? = some row → ns[i]? = some r →
    (∀ M ∈ row, M.rows = r) ∧ row.map Mat.cols = ns

/-- After the first number come only numbers. -/
def OpsThenNums : List (Expr K) → Prop
  | [] => True
  | .num _ :: rest => ∀ e ∈ rest, ∃ c, e = .num c
  | _ :: rest => OpsThenNums rest

mutual
/-- In every product the numbers come last, or the product is a number times one operator.
Factors of a product are not products (cbc.block flattens them). -/
inductive NumsLast : Expr K → Prop
  | num (c : K) : NumsLast (.num c)
  | mat (M : Mat K) : NumsLast (.mat M)
  | op (r : Py (Mat K)) : NumsLast (.op r)
  | tr {a} : NumsLast a → NumsLast (.tr a)
  | add {a b} : NumsLast a → NumsLast b → NumsLast (.add a b)
  | sub {a b} : NumsLast a → NumsLast b → NumsLast (.sub a b)
  | mul {chain} : NumsLastAll chain → OpsThenNums chain → (∀ a ∈ chain, ∀ c, a ≠ .mul c) →
      NumsLast (.mul chain)
  | scale {c a} : NumsLast a → NumsLast (.mul [.num c, a])
/-- All members. -/
inductive NumsLastAll : List (Expr K) → Prop
  | nil : NumsLastAll []
  | cons {a as} : NumsLast a → NumsLastAll as → NumsLastAll (a :: as)
end

end Verif.Collapse
