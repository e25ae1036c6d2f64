import Verif.Model.Collapse
/-!
# What a composite expression denotes

The action of cbc.block expressions on vectors, as defined by cbc.block's `matvec` and
`transpmult`; nothing here refers to the conversion algorithms.
-/
namespace Verif.Collapse
open Verif

variable {K : Type} [CommRing K]

mutual
/-- `e * x`. A number scales, a product applies the last factor first, a transpose acts
by the transposed action. -/
def Expr.act : Expr K → (Nat → K) → (Nat → K)
  | .num c, x => fun i => c * x i
  | .mat M, x => M.act x
  | .op (.ok M), x => M.act x
  | .op (.error _), _ => fun _ => 0
  | .mul chain, x => actChain chain x
  | .add a b, x => fun i => a.act x i + b.act x i
  | .sub a b, x => fun i => a.act x i - b.act x i
  | .tr a, x => a.actT x

/-- `A0 * (A1 * (... * x))`. -/
def actChain : List (Expr K) → (Nat → K) → (Nat → K)
  | [], x => x
  | a :: as, x => a.act (actChain as x)

/-- `e.T * x`. -/
def Expr.actT : Expr K → (Nat → K) → (Nat → K)
  | .num c, x => fun i => c * x i
  | .mat M, x => M.tr.act x
  | .op (.ok M), x => M.tr.act x
  | .op (.error _), _ => fun _ => 0
  | .mul chain, x => actTChain chain x
  | .add a b, x => fun i => a.actT x i + b.actT x i
  | .sub a b, x => fun i => a.actT x i - b.actT x i
  | .tr a, x => a.act x

/-- `... (A1.T * (A0.T * x))`. -/
def actTChain : List (Expr K) → (Nat → K) → (Nat → K)
  | [], x => x
  | a :: as, x => actTChain as (a.actT x)
end

/-- A value returned by a conversion acts as the expression does. -/
def Val.ActsAs (v : Val K) (e : Expr K) : Prop :=
  match v with
  | .mat M => ∀ x i, M.act x i = e.act x i
  | .num c => ∀ x i, c * x i = e.act x i

mutual
/-- All numbers written in the expression belong to `S`. -/
def Expr.NumsIn (S : K → Prop) : Expr K → Prop
  | .num c => S c
  | .mat _ => True
  | .op _ => True
  | .mul chain => numsInChain S chain
  | .add a b => a.NumsIn S ∧ b.NumsIn S
  | .sub a b => a.NumsIn S ∧ b.NumsIn S
  | .tr a => a.NumsIn S
def numsInChain (S : K → Prop) : List (Expr K) → Prop
  | [] => True
  | a :: as => a.NumsIn S ∧ numsInChain S as
end

/-- Sizes `m × n` of an operator, `none` for a number. -/
abbrev Dims := Option (Nat × Nat)

/-- Sizes of a product: numbers do not matter, inner sizes must agree. -/
def Dims.comb : Dims → Dims → Option Dims
  | none, t => some t
  | t, none => some t
  | some (m, k), some (k', n) => if k = k' then some (some (m, n)) else none

mutual
/-- Conforming expressions and their size.  Numbers occur only as factors, transposes
only of matrices: the expressions for which conversion is claimed to succeed. -/
inductive HasDims : Expr K → Dims → Prop
  | num (c : K) : HasDims (.num c) none
  | mat (M : Mat K) : HasDims (.mat M) (some (M.rows, M.cols))
  | op (M : Mat K) : HasDims (.op (.ok M)) (some (M.rows, M.cols))
  | trmat (M : Mat K) : HasDims (.tr (.mat M)) (some (M.cols, M.rows))
  | add {a b m n} : HasDims a (some (m, n)) → HasDims b (some (m, n)) →
      HasDims (.add a b) (some (m, n))
  | sub {a b m n} : HasDims a (some (m, n)) → HasDims b (some (m, n)) →
      HasDims (.sub a b) (some (m, n))
  | mul {a b rest d m n} : ChainDims (a :: b :: rest) d → d = some (m, n) →
      HasDims (.mul (a :: b :: rest)) d
/-- Sizes of a chain of factors. -/
inductive ChainDims : List (Expr K) → Dims → Prop
  | single {a d} : HasDims a d → ChainDims [a] d
  | cons {a as d ds r} : HasDims a d → ChainDims as ds → Dims.comb d ds = some r →
      ChainDims (a :: as) r
end

end Verif.Collapse
