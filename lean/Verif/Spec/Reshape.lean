import Verif.Model.Reshape
import Mathlib.Algebra.BigOperators.Fin
import Mathlib.Algebra.BigOperators.Pi
/-!
# What grouped and special matrices mean
-/
namespace Verif.Reshape

/-! ### Groups -/

/-- Offsets of groups of `n` items: each group has an item and the last one ends with `n`. -/
def Offsets (offsets : List Nat) (n : Nat) : Prop := (0 :: offsets).Pairwise (· < ·) ∧ offsets.getLast? = some n

/-- Group `k` are the items from `a` up to `b`, without `b`. -/
def Group (offsets : List Nat) (k a b : Nat) : Prop := (0 :: offsets)[k]? = some a ∧ offsets[k]? = some b

/-- A square block matrix. -/
def Square {α : Type} (A : List (List α)) : Prop := ∀ r ∈ A, r.length = A.length

/-- Items of a block. -/
def Entry.at {α : Type} : Entry α → Nat → Nat → Option α
  | .one a, i, j => if i = 0 ∧ j = 0 then some a else none
  | .blk rows, i, j => rows[i]?.bind (·[j]?)

/-- A part of a grouped vector: a group of one is a vector, other groups are block vectors. -/
inductive Part (V : Type) where
  | one (v : V)
  | many (vs : List V)

/-- The grouped vector. -/
def Regrouped {V : Type} (offsets : List Nat) (x : List V) (y : List (Part V)) : Prop :=
  y.length = offsets.length ∧ ∀ k a b, Group offsets k a b →
    (b = a + 1 → ∃ v, x[a]? = some v ∧ y[k]? = some (.one v)) ∧
    (b ≠ a + 1 → ∃ vs, y[k]? = some (.many vs) ∧ vs.length = b - a ∧ ∀ i < b - a, vs[i]? = x[a + i]?)

section
variable {α V : Type} [AddCommMonoid V] (act : α → V → V)

/-- A row times a vector. -/
def rowApply (row : List α) (x : List V) : V := (List.zipWith act row x).sum

/-- A block matrix times a block vector. -/
def apply (A : List (List α)) (x : List V) : List V := A.map (fun row => rowApply act row x)

/-- A block times a part: vectors are for blocks, block vectors for block matrices. -/
def Entry.apply : Entry α → Part V → Option (Part V)
  | .one a, .one v => some (.one (act a v))
  | .blk rows, .many vs => some (.many (Reshape.apply act rows vs))
  | _, _ => none

/-- Sums of parts of the same kind. -/
def Part.add : Part V → Part V → Option (Part V)
  | .one v, .one w => some (.one (v + w))
  | .many v, .many w => if v.length = w.length then some (.many (List.zipWith (· + ·) v w)) else none
  | _, _ => none

/-- A row of blocks times a grouped vector, from the last to the first. -/
def rowApplyParts : List (Entry α) → List (Part V) → Option (Part V)
  | [e], [p] => e.apply act p
  | e :: es, p :: ps => (e.apply act p).bind fun a => (rowApplyParts es ps).bind fun b => a.add b
  | _, _ => none

/-- The grouped matrix times a grouped vector. -/
def applyParts (M : List (List (Entry α))) (y : List (Part V)) : Option (List (Part V)) := M.mapM (fun row => rowApplyParts act row y)

/-- A block of a diagonal matrix times a vector. -/
def Block.apply : Block α → V → V
  | .zero, _ => 0
  | .op a, v => act a v
end

/-! ### Nested spaces -/

/-- Vectors of a space. -/
def Space.Vec (K : Type) : Space → Type
  | .dim n => Fin n → K
  | .list n V => ∀ i : Fin n, (V i).Vec K

/-- They can be added. -/
@[reducible] def Space.addCommMonoid (K : Type) [AddCommMonoid K] : (V : Space) → AddCommMonoid (V.Vec K)
  | .dim n => inferInstanceAs (AddCommMonoid (Fin n → K))
  | .list n V =>
    letI : ∀ i, AddCommMonoid ((V i).Vec K) := fun i => Space.addCommMonoid K (V i)
    inferInstanceAs (AddCommMonoid (∀ i : Fin n, (V i).Vec K))

instance (K : Type) [AddCommMonoid K] (V : Space) : AddCommMonoid (V.Vec K) := Space.addCommMonoid K V

/-- The action of operators between nested spaces. -/
def Op.apply {K : Type} [Semiring K] : {s t : Space} → Op K s t → t.Vec K → s.Vec K
  | _, _, .zero, _ => 0
  | _, _, .mat A, x => A.mulVec x
  | _, _, .blk A, x => fun i => ∑ j, (A i j).apply (x j)

/-! ### Sparse matrices -/

/-- An entry of a matrix in compressed form: row `i` has the data from `indptr[i]` up to `indptr[i + 1]`. -/
def Csr.entry {K : Type} [AddCommMonoid K] (A : Csr K) (i j : Nat) : K :=
  ∑ k ∈ (Finset.Ico (A.indptr.getD i 0) (A.indptr.getD (i + 1) 0)).filter (fun k => A.indices.getD k 0 = j), A.data.getD k 0

/-- The arrays of a matrix in compressed form fit together. -/
def Csr.Valid {K : Type} (A : Csr K) : Prop :=
  A.indptr.length = A.rows + 1 ∧ A.indptr.getD 0 0 = 0 ∧ A.indptr.getD A.rows 0 = A.data.length ∧ A.indptr.Pairwise (· ≤ ·) ∧
    A.indices.length = A.data.length ∧ ∀ j ∈ A.indices, j < A.cols

/-- An entry of a matrix given by triples, which are added. -/
def tripleEntry {K : Type} [AddCommMonoid K] (T : List (K × Nat × Nat)) (i j : Nat) : K :=
  ((T.filter (fun t => t.2.1 = i ∧ t.2.2 = j)).map (·.1)).sum

end Verif.Reshape
