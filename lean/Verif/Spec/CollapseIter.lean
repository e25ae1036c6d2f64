import Verif.Model.CollapseIter
import Verif.Spec.Collapse
/-!
# Specification for the collapse of matrix expressions by iteration
-/
namespace Verif.CollapseIter
open Verif Collapse

variable {K : Type} [CommRing K]

/-- Trees may be visited in any order. -/
def AnyOrder (sched : Nat → List (Tree K) → List (Tree K)) : Prop := ∀ k ts, (sched k ts).Perm ts

/-- What the code needs of `str(mat)`, `name k v` being the string in step `k`: strings of two steps are the same only for
the same value. -/
def GoodNames (name : Nat → Val K → Nat) : Prop := ∀ k k' v v', name k v = name k' v' → k = k' ∨ v = v'

/-- Strings of different steps differ. -/
def FreshNames (name : Nat → Val K → Nat) : Prop := ∀ k k' v v', name k v = name k' v' → k = k'

/-- Factors of a product are not products. -/
def NotProduct : OExpr K → Prop
  | .mul _ _ => False
  | _ => True

/-- Size of a transpose, numbers have none. -/
def dimsTr : Dims → Dims
  | none => none
  | some (m, n) => some (n, m)

mutual
/-- Conforming expressions and their sizes: matrices of equal sizes are added and subtracted, a number below the tolerance may
be added to a matrix, anything is transposed, and products are `Factors`. -/
inductive Conforms (tiny : Tiny K) : OExpr K → Dims → Prop
  | num (c : K) : Conforms tiny (.num c) none
  | mat (M : Mat K) : Conforms tiny (.mat M) (some (M.rows, M.cols))
  | tr (i : Nat) {a : OExpr K} {d : Dims} : Conforms tiny a d → Conforms tiny (.tr i a) (dimsTr d)
  | add (i : Nat) {a b : OExpr K} {m n : Nat} : Conforms tiny a (some (m, n)) → Conforms tiny b (some (m, n)) →
      Conforms tiny (.add i a b) (some (m, n))
  | addNum (i : Nat) {a : OExpr K} {c : K} {m n : Nat} : Conforms tiny a (some (m, n)) → tiny c = true →
      Conforms tiny (.add i a (.num c)) (some (m, n))
  | numAdd (i : Nat) {a : OExpr K} {c : K} {m n : Nat} : Conforms tiny a (some (m, n)) → tiny c = true →
      Conforms tiny (.add i (.num c) a) (some (m, n))
  | sub (i : Nat) {a b : OExpr K} {m n : Nat} : Conforms tiny a (some (m, n)) → Conforms tiny b (some (m, n)) →
      Conforms tiny (.sub i a b) (some (m, n))
  | mul (i : Nat) {a b : OExpr K} {rest : List (OExpr K)} {d : Dims} : Factors tiny (a :: b :: rest) d →
      Conforms tiny (.mul i (a :: b :: rest)) d
/-- Factors of a product, none of them a product: inner sizes agree, and at most one factor is a
number when read from the right before the first matrix. -/
inductive Factors (tiny : Tiny K) : List (OExpr K) → Dims → Prop
  | single {a : OExpr K} {d : Dims} : Conforms tiny a d → NotProduct a → Factors tiny [a] d
  | scale {a : OExpr K} {as : List (OExpr K)} {m n : Nat} : Conforms tiny a none → NotProduct a →
      Factors tiny as (some (m, n)) → Factors tiny (a :: as) (some (m, n))
  | scaled {a : OExpr K} {as : List (OExpr K)} {m n : Nat} : Conforms tiny a (some (m, n)) → NotProduct a →
      Factors tiny as none → Factors tiny (a :: as) (some (m, n))
  | times {a : OExpr K} {as : List (OExpr K)} {m k n : Nat} : Conforms tiny a (some (m, k)) → NotProduct a →
      Factors tiny as (some (k, n)) → Factors tiny (a :: as) (some (m, n))
end

end Verif.CollapseIter
