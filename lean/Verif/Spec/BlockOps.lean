import Mathlib.Algebra.Ring.Defs
import Mathlib.Algebra.BigOperators.Group.List.Basic
import Verif.Model.BlockOps
/-!
# Specification for block operators
-/
namespace Verif.BlockOps

variable {K : Type}

/-- A block vector; a single block is passed around as a bare vector. -/
def pack (ys : List (List K)) : BVal K :=
  match ys with
  | [v] => .vec v
  | ys => .blk (ys.map .vec)

/-- A flat block vector. -/
def bvec (ys : List (List K)) : BVal K := .blk (ys.map .vec)

/-- Inner product of coefficient vectors. -/
def dot [Semiring K] (x y : List K) : K := (List.zipWith (· * ·) x y).sum

/-- Inner product of block vectors. -/
def bdot [Semiring K] (x y : List (List K)) : K := (List.zipWith dot x y).sum

/-- The blocks of `xs` listed in `is`. -/
def select (xs : List (List K)) (is : List Nat) : List (List K) := is.map (fun i => xs.getD i [])

/-- `xs` has blocks of the given sizes. -/
def HasDims (dims : List Nat) (xs : List (List K)) : Prop := xs.map List.length = dims

/-- `mapping` lists each of the `n` blocks exactly once, in nonempty groups. -/
def IsPartition (mapping : List (List Nat)) (n : Nat) : Prop :=
  mapping.flatten.Perm (List.range n) ∧ (∀ g ∈ mapping, g ≠ []) ∧ mapping ≠ []

/-- The groups of blocks between consecutive offsets, the first one starting at block 0; single blocks not wrapped. -/
def groups (offsets : List Nat) (xs : List (List K)) : List (BVal K) :=
  List.zipWith (fun f l => pack ((xs.drop f).take (l - f))) (0 :: offsets) offsets

end Verif.BlockOps
