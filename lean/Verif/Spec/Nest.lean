import Verif.Model.Nest
/-!
# What nested matrices and field splits should be
-/
namespace Verif.Nest

section
variable {p q : Nat} {rows : Fin p → Nat} {cols : Fin q → Nat}

/-- The product of a block of a `block_mat` with a vector. -/
def blockAct {m n : Nat} : Block m n → (Fin n → ℝ) → (Fin m → ℝ)
  | .num c, x => fun k => if h : k.val < n then c * x ⟨k, h⟩ else 0
  | .mat M, x => fun k => ∑ l, M k l * x l
  | .pre, _ => 0

/-- The product of a `block_mat` with a `block_vec`. -/
def blockApply (A : ∀ i j, Block (rows i) (cols j)) (x : ∀ j, Fin (cols j) → ℝ) (i : Fin p) : Fin (rows i) → ℝ :=
  fun k => ∑ j, blockAct (A i j) (x j) k

/-- The blocks are matrices and zeros. -/
def Plain (A : ∀ i j, Block (rows i) (cols j)) : Prop := ∀ i j, A i j = .num 0 ∨ ∃ M, A i j = .mat M

end

section
variable {M : Type}

/-- What solvers of PETSc and the preconditioners of cbc.block do, as maps of `V` for each matrix. -/
structure Solvers (M V : Type) where
  petsc : String → Option String → M → V → V
  cbc : Kind → M → V → V

/-- The solvers of PETSc which the classes of cbc.block stand for. -/
structure Solvers.Agree {V : Type} (S : Solvers M V) : Prop where
  lu : ∀ A, S.petsc "lu" none A = S.cbc .LU A
  superlu : ∀ A, S.petsc "lu" (some "superlu") A = S.cbc .SUPERLU_LU A
  amg : ∀ A, S.petsc "hypre" none A = S.cbc .AMG A
  gamg : ∀ A, S.petsc "gamg" none A = S.cbc .Elasticity A

/-- The action of a `PC` with these settings and this operator. -/
def Setting.action {V : Type} [Add V] [Zero V] (S : Solvers M V) : Setting M → OpMat M → Option (V → V)
  | .simple t, .given A => some (S.petsc t.type t.solver A)
  | .simple _, .identity _ => none
  | .composite parts, _ => some (fun v => (parts.map (fun c => S.petsc c.1.type c.1.solver c.2 v)).sum)

/-- The action of a block of a preconditioner. -/
def PcBlock.action {V : Type} [Add V] (S : Solvers M V) : PcBlock M → Option (V → V)
  | .pre k A => some (S.cbc k A)
  | .add a b =>
      match a.action S, b.action S with
      | some f, some g => some (fun v => f v + g v)
      | _, _ => none
  | _ => none

/-- Blocks which are supported: a known preconditioner or the sum of two. -/
def Supported : PcBlock M → Prop
  | .pre k _ => k ≠ .other
  | .add (.pre k _) (.pre l _) => k ≠ .other ∧ l ≠ .other
  | _ => False

/-- Zero outside of the diagonal. -/
def Diagonal (blocks : List (List (PcBlock M))) : Prop :=
  ∀ (i j : Nat) r b, blocks[i]? = some r → r[j]? = some b → i ≠ j → b = .number 0

/-- As many rows and columns. -/
def Square (n : Nat) (blocks : List (List (PcBlock M))) : Prop := blocks.length = n ∧ ∀ r ∈ blocks, r.length = n

/-- What is assumed of unions of index sets. -/
def Union (union : List Nat → List Nat → List Nat) : Prop := ∀ s t a, a ∈ union s t ↔ a ∈ s ∨ a ∈ t

end
end Verif.Nest
