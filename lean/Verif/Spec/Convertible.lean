import Verif.Spec.Collapse
/-!
# Which composite expressions can be converted

`Built` are the expressions which cbc.block builds, `Conv tiny` those among them for which
`ii_convert` gives a matrix (or is handed a number).  Neither refers to the conversion.
-/
namespace Verif.Collapse
open Verif

variable {K : Type} [CommRing K]

/-- A number. -/
def Expr.IsNum : Expr K → Prop
  | .num _ => True
  | _ => False

/-- A product. -/
def Expr.IsMul : Expr K → Prop
  | .mul _ => True
  | _ => False

mutual
/-- Expressions built by the operators of cbc.block: a product is a flat list of two or more
factors which are not all numbers. -/
def Expr.Built : Expr K → Prop
  | .num _ => True
  | .mat _ => True
  | .op _ => True
  | .mul chain => 2 ≤ chain.length ∧ (∃ a ∈ chain, ¬ a.IsNum) ∧ builtChain chain
  | .add a b => a.Built ∧ b.Built
  | .sub a b => a.Built ∧ b.Built
  | .tr a => a.Built
/-- The factors of a product are built and are not products themselves. -/
def builtChain : List (Expr K) → Prop
  | [] => True
  | a :: as => (¬ a.IsMul ∧ a.Built) ∧ builtChain as
end

mutual
/-- Expressions which can be converted, with their size (`none` for a number): sizes agree,
transposes are of matrices, numbers are factors or, if they are tiny, summands. -/
inductive Conv (tiny : Tiny K) : Expr K → Dims → Prop
  | num (c : K) : Conv tiny (.num c) none
  | mat (M : Mat K) : Conv tiny (.mat M) (some (M.rows, M.cols))
  | op (M : Mat K) : Conv tiny (.op (.ok M)) (some (M.rows, M.cols))
  | trmat (M : Mat K) : Conv tiny (.tr (.mat M)) (some (M.cols, M.rows))
  | add {a b m n} : Conv tiny a (some (m, n)) → Conv tiny b (some (m, n)) →
      Conv tiny (.add a b) (some (m, n))
  | addNum {a c m n} : Conv tiny a (some (m, n)) → tiny c = true →
      Conv tiny (.add a (.num c)) (some (m, n))
  | numAdd {a c m n} : Conv tiny a (some (m, n)) → tiny c = true →
      Conv tiny (.add (.num c) a) (some (m, n))
  | sub {a b m n} : Conv tiny a (some (m, n)) → Conv tiny b (some (m, n)) →
      Conv tiny (.sub a b) (some (m, n))
  | mul {a b rest d m n} : ConvChain tiny (a :: b :: rest) d → d = some (m, n) →
      Conv tiny (.mul (a :: b :: rest)) d
/-- Sizes of a chain of factors. -/
inductive ConvChain (tiny : Tiny K) : List (Expr K) → Dims → Prop
  | single {a d} : Conv tiny a d → ConvChain tiny [a] d
  | cons {a as d ds r} : Conv tiny a d → ConvChain tiny as ds → Dims.comb d ds = some r →
      ConvChain tiny (a :: as) r
end

/-- A tiny number as a summand counts as zero. -/
def summand (tiny : Tiny K) : Expr K → Expr K
  | .num c => if tiny c then .num 0 else .num c
  | e => e

mutual
/-- The expression with zeros for tiny numbers which are summands of a sum (not of a
difference). -/
def Expr.dropTiny (tiny : Tiny K) : Expr K → Expr K
  | .num c => .num c
  | .mat M => .mat M
  | .op r => .op r
  | .mul chain => .mul (dropTinyAll tiny chain)
  | .add a b => .add (summand tiny (a.dropTiny tiny)) (summand tiny (b.dropTiny tiny))
  | .sub a b => .sub (a.dropTiny tiny) (b.dropTiny tiny)
  | .tr a => .tr (a.dropTiny tiny)
/-- The same for factors. -/
def dropTinyAll (tiny : Tiny K) : List (Expr K) → List (Expr K)
  | [] => []
  | a :: as => a.dropTiny tiny :: dropTinyAll tiny as
end

end Verif.Collapse
