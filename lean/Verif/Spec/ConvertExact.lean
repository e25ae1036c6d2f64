import Verif.Spec.Convert
/-! # Block matrices with numbers as blocks -/
namespace Verif.Collapse
open Verif

variable {K : Type} [CommRing K]

/-- A block matrix with row sizes `rs` and column sizes `cs`: blocks are conforming expressions or numbers. -/
def WithNumbers (rs cs : List Nat) (blocks : List (List (Expr K))) : Prop :=
  blocks.length = rs.length ∧
  ∀ (i : Nat) row r, blocks[i]? = some row → rs[i]? = some r → row.length = cs.length ∧
    ∀ (j : Nat) e c, row[j]? = some e → cs[j]? = some c → HasDims e (some (r, c)) ∨ ∃ a, e = .num a

/-- Numbers count as multiples of the identity in square blocks on the diagonal and as zero elsewhere. -/
def keep (i j : Nat) (r c : Option Nat) : Expr K → Expr K
  | .num a => if i = j ∧ r = c then .num a else .num 0
  | e => e

/-- The block matrix without the numbers which do not count. -/
def kept (rs cs : List Nat) (blocks : List (List (Expr K))) : List (List (Expr K)) :=
  blocks.mapIdx (fun i row => row.mapIdx (fun j e => keep i j rs[i]? cs[j]? e))

/-- All numbers in nonempty blocks other than square blocks on the diagonal are zero. -/
def OnlyDiagonal (rs cs : List Nat) (blocks : List (List (Expr K))) : Prop :=
  ∀ (i j : Nat) row r c a, blocks[i]? = some row → rs[i]? = some r → cs[j]? = some c → row[j]? = some (.num a) →
    0 < r → 0 < c → (i = j ∧ r = c) ∨ a = 0

end Verif.Collapse
