import Verif.Model.ApplyBc
import Verif.Spec.Convert
import Verif.Spec.BlockOps
/-! # What boundary conditions mean -/
namespace Verif.ApplyBc
open Verif BlockOps Collapse

variable {K : Type}

/-- Component `d` of block `k` of a block vector. -/
def entry (xs : List (List K)) (k d : Nat) : Option K := (xs[k]?).bind (fun x => x[d]?)

/-- The value given to dof `d` by a list of (dof, value): the last one. -/
def lastVal (l : List (Nat × K)) (d : Nat) : Option K :=
  ((l.filter (fun p => p.1 = d)).getLast?).map Prod.snd

/-- The value prescribed for dof `d` of block `k`; `data[k]` are all (dof, value) of block `k` in
the order of the boundary conditions. -/
def prescribed (data : List (List (Nat × K))) (k d : Nat) : Option K := lastVal (data.getD k []) d

/-- A boundary condition: `DirichletBC` or dictionary. -/
inductive ItemIs : BcArg K → List (Nat × K) → Prop
  | dir (d) : ItemIs (.dir d) d
  | dict (d) : ItemIs (.dict d) d

/-- The boundary conditions of one block: a `DirichletBC` or a list. -/
inductive GroupIs : BcArg K → List (Nat × K) → Prop
  | dir (d) : GroupIs (.dir d) d
  | list {l ds} : List.Forall₂ ItemIs l ds → GroupIs (.list l) ds.flatten

/-- The argument `bcs` of `apply_bc` for a block system with `n` blocks: a list with one entry
for each block, or a dictionary with the lists of some blocks. -/
inductive BlockBcs (n : Nat) : BcArg K → List (List (Nat × K)) → Prop
  | list {gs data} : gs.length = n → List.Forall₂ GroupIs gs data → BlockBcs n (.list gs) data
  | map {m : List (Int × BcArg K)} {data : List (List (Nat × K))} :
      (∀ p ∈ m, 0 ≤ p.1 ∧ p.1 < n) →
      (∀ p ∈ m, ∃ l, p.2 = .list l) →
      (m.map Prod.fst).Nodup →
      data.length = n →
      (∀ k, k < n → (∀ g, ((k : Int), g) ∈ m → GroupIs g (data.getD k [])) ∧
        ((∀ g, ((k : Int), g) ∉ m) → data.getD k [] = [])) →
      BlockBcs n (.map m) data

/-- The argument `bcs` for a matrix which is not a block matrix. -/
inductive PlainBcs : BcArg K → List (Nat × K) → Prop
  | group {g d} : GroupIs g d → PlainBcs g d
  | map {g d} : (∃ l, g = .list l) → GroupIs g d → PlainBcs (.map [(0, g)]) d

/-- All dofs are dofs of their block. -/
def InRange (ns : List Nat) (data : List (List (Nat × K))) : Prop :=
  ∀ k d v n, (d, v) ∈ data.getD k [] → ns[k]? = some n → d < n

/-- Some dof is constrained. -/
def Constrains (data : List (List (Nat × K))) : Prop := ∃ l ∈ data, l ≠ []

/-- The block vector `b` of sizes `ns` meant by the argument. -/
inductive VecIs [Zero K] (ns : List Nat) : SysVec K → List (List K) → Prop
  | block {bs} : bs.map List.length = ns → VecIs ns (.block bs) bs
  | none : VecIs ns .none (ns.map (fun n => List.replicate n 0))

/-- The solutions a user expects of a constrained block system `A x = b`: prescribed values
and the equations of all other dofs. -/
def IsConstrainedSolution [CommRing K] (ns : List Nat) (A : List (List (Expr K))) (bs : List (List K))
    (data : List (List (Nat × K))) (xs : List (List K)) : Prop :=
  (∀ k d v, prescribed data k d = some v → entry xs k d = some v) ∧
  (∀ k d, prescribed data k d = none → entry (blockAct ns A xs) k d = entry bs k d)

/-- The block matrix `A` (with equal row and column sizes) is symmetric. -/
def SymmetricBlock {K : Type} [CommRing K] (ns : List Nat) (A : List (List (Expr K))) : Prop :=
  ∀ xs ys : List (List K), xs.map List.length = ns → ys.map List.length = ns →
    bdot xs (blockAct ns A ys) = bdot ys (blockAct ns A xs)

/-- The block matrix `A` is positive definite. -/
def PosDefBlock {K : Type} [CommRing K] [LinearOrder K] (ns : List Nat) (A : List (List (Expr K))) : Prop :=
  ∀ xs : List (List K), xs.map List.length = ns → (∃ x ∈ xs, ∃ a ∈ x, a ≠ 0) →
    0 < bdot xs (blockAct ns A xs)

/-- The boundary conditions have the same dofs (but maybe other values). -/
def SameDofs (bcs bcs' : List (List (List (Nat × K)))) : Prop :=
  bcs.map (·.map (·.map Prod.fst)) = bcs'.map (·.map (·.map Prod.fst))

/-- Boundary conditions given only by `DirichletBC`s: for each block the list of their
(dof, value) lists. -/
def dirichlet (bcs : List (List (List (Nat × K)))) : List (BcArg K) :=
  bcs.map (fun l => .list (l.map .dir))

end Verif.ApplyBc
