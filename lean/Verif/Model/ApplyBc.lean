import Verif.Model.AsBlock
/-!
# Boundary conditions: `apply_bc`, xii/linalg/bc_apply.py:14-145
-/
namespace Verif.ApplyBc
open Verif BlockOps Collapse

/-- Python values found in the argument `bcs`.
* `dir vals` - a `DirichletBC`, `vals` are the items of `get_boundary_values()`,
* `dict vals` - a dictionary dof -> value,
* `map m` - a dictionary block -> boundary conditions,
* `list l` - a list. -/
inductive BcArg (K : Type) where
  | none : BcArg K
  | dir : List (Nat × K) → BcArg K
  | dict : List (Nat × K) → BcArg K
  | map : List (Int × BcArg K) → BcArg K
  | list : List (BcArg K) → BcArg K

section
variable {K : Type}

/-- Python truth value. -/
def BcArg.truthy : BcArg K → Bool
  | .none => false
  | .dir _ => true
  | .dict d => !d.isEmpty
  | .map m => !m.isEmpty
  | .list l => !l.isEmpty

def BcArg.isList : BcArg K → Bool
  | .list _ => true
  | _ => false

/-- "Specs of do nothing", xii/linalg/bc_apply.py:19. -/
def nothing : BcArg K → Bool
  | .list l => !(l.any BcArg.truthy)
  | a => !a.truthy

/-- `bcs.get(i, [])`, xii/linalg/bc_apply.py:39. -/
def mapGet (m : List (Int × BcArg K)) (i : Nat) : BcArg K :=
  match m.find? (fun p => p.1 = (i : Int)) with
  | some p => p.2
  | Option.none => .list []

/-- One list of boundary conditions for each of the `n` blocks,
xii/linalg/bc_apply.py:36-42. -/
def groupsOf (n : Nat) (wrapped : Bool) : BcArg K → Py (List (BcArg K))
  | .map m => do
      pyAssert (m.all (fun p => decide (0 ≤ p.1 ∧ p.1 < (n : Int))))
      pyAssert (m.all (fun p => p.2.isList))
      .ok ((List.range n).map (mapGet m))
  | .dict _ => .error .assertion   -- its values are not lists, line 38
  | a =>
      if wrapped then .ok [a]
      else
        match a with
        | .list l => .ok l
        | _ => .error .typeError   -- `len` of a DirichletBC, line 45

/-- The type check of lines 47-54; a lone `DirichletBC` becomes a list. -/
def normGroup : BcArg K → Py (BcArg K)
  | .dir d => .ok (.list [.dir d])
  | .none => .error .assertion
  | a => .ok a

/-- Items of a `DirichletBC` or dictionary, xii/linalg/bc_apply.py:82-85.  Anything else has
no (usable) `keys`. -/
def itemData : BcArg K → Py (List (Nat × K))
  | .dir d => .ok d
  | .dict d => .ok d
  | _ => .error .attributeError

/-- The loop over the boundary conditions of one block, xii/linalg/bc_apply.py:79-85.  A
dictionary is iterated by its keys, which are numbers. -/
def groupData : BcArg K → Py (List (Nat × K))
  | .list l => do
      let ds ← pyMap itemData l
      .ok ds.flatten
  | .dict [] => .ok []
  | .map [] => .ok []
  | _ => .error .attributeError

/-- Global dofs and values, xii/linalg/bc_apply.py:74-85; `shift` is the offset of the block. -/
def globalData : Nat → List Nat → List (BcArg K) → Py (List (Nat × K))
  | shift, n :: ns, g :: gs => do
      let d ← groupData g
      let rest ← globalData (shift + n) ns gs
      .ok (d.map (fun p => (shift + p.1, p.2)) ++ rest)
  | _, _, _ => .ok []

/-- PETSc `setValues(rows, values)`: one write after the other, `RuntimeError` for rows out
of range. -/
def setValues : List K → List (Nat × K) → Py (List K)
  | x, [] => .ok x
  | x, (i, v) :: rest =>
      if i < x.length then setValues (x.set i v) rest else .error .runtimeError
end

section
variable {K : Type} [CommRing K]

/-- PETSc `zeroRowsColumns(rows, diag, x, b)`: the matrix. -/
def zeroRowsColumnsMat (rows : List Nat) (diag : K) (A : Mat K) : Mat K :=
  Mat.of A.rows A.cols (fun i j =>
    if i ∈ rows ∨ j ∈ rows then (if i = j then diag else 0) else A.e i j)

/-- PETSc `zeroRowsColumns(rows, diag, x, b)`: the right-hand side. -/
def zeroRowsColumnsVec (rows : List Nat) (diag : K) (A : Mat K) (x b : List K) : List K :=
  (List.range b.length).map (fun i =>
    if i ∈ rows then diag * x.getD i 0
    else b.getD i 0 - ∑ j ∈ Finset.range A.cols, if j ∈ rows then A.e i j * x.getD j 0 else 0)

/-- PETSc `zeroRows(rows, diag, x, b)`: the matrix. -/
def zeroRowsMat (rows : List Nat) (diag : K) (A : Mat K) : Mat K :=
  Mat.of A.rows A.cols (fun i j => if i ∈ rows then (if i = j then diag else 0) else A.e i j)

/-- PETSc `zeroRows(rows, diag, x, b)`: the right-hand side. -/
def zeroRowsVec (rows : List Nat) (diag : K) (x b : List K) : List K :=
  (List.range b.length).map (fun i => if i ∈ rows then diag * x.getD i 0 else b.getD i 0)

/-- The argument `A`: a matrix, or a block matrix with the sizes given by `create_vec`. -/
inductive SysMat (K : Type) [Zero K] where
  | plain : Mat K → SysMat K
  | block : (rs cs : List Nat) → List (List (Expr K)) → SysMat K

/-- The argument `b`. -/
inductive SysVec (K : Type) where
  | none : SysVec K
  | plain : List K → SysVec K
  | block : List (List K) → SysVec K

/-- What the returned function `apply_b` closes over, xii/linalg/bc_apply.py:106. -/
structure Updater (K : Type) [Zero K] where
  A : Mat K
  dofs : List Nat
  bcs : List (BcArg K)
  sizes : List Nat

/-- What `apply_bc` returns. -/
inductive Ret (K : Type) [Zero K] where
  /-- the arguments `A, b` as they were -/
  | same : Ret K
  /-- `A, b` wrapped as block objects, otherwise as they were (line 56) -/
  | wrapped : Ret K
  | plain : Mat K → List K → Ret K
  | block : List (List (Mat K)) → List (List K) → Ret K
  | triple : List (List (Mat K)) → List (List K) → Updater K → Ret K

/-- Sizes, blocks and kind of `A` after wrapping, xii/linalg/bc_apply.py:24-27. -/
def SysMat.wrap : SysMat K → Bool × List Nat × List Nat × List (List (Expr K))
  | .plain M => (true, [M.rows], [M.cols], [[.mat M]])
  | .block rs cs blocks => (false, rs, cs, blocks)

/-- `b` after wrapping, xii/linalg/bc_apply.py:29-34.  `create_vec` gives zeros. -/
def SysVec.wrap (wrapped : Bool) (cs : List Nat) : SysVec K → Py (List (List K))
  | .none => .ok (cs.map (fun n => List.replicate n 0))
  | .plain b => if wrapped then .ok [b] else .error .assertion
  | .block bs => .ok bs

/-- `A[0][0], b[0]`, xii/linalg/bc_apply.py:140. -/
def firstBlock : List (List (Mat K)) → List (List K) → Py (Ret K)
  | (M :: _) :: _, v :: _ => .ok (.plain M v)
  | _, _ => .error .indexError

/-- The elimination, xii/linalg/bc_apply.py:131-135. -/
def eliminate (symmetric : Bool) (rows : List Nat) (diag : K) (AA : Mat K) (x bb : List K) :
    Mat K × List K :=
  if symmetric then (zeroRowsColumnsMat rows diag AA, zeroRowsColumnsVec rows diag AA x bb)
  else (zeroRowsMat rows diag AA, zeroRowsVec rows diag x bb)

/-- The return statements, xii/linalg/bc_apply.py:140-145.  `apply_b` is defined only in the
symmetric mode (line 100). -/
def finish (wrapped symmetric returnApplyB : Bool) (A : List (List (Mat K))) (b : List (List K))
    (upd : Updater K) : Py (Ret K) :=
  if wrapped then firstBlock A b
  else if returnApplyB then
    if symmetric then .ok (.triple A b upd) else .error .unboundLocal
  else .ok (.block A b)

/-- `apply_bc` once `A` and `b` are block objects and `bcs` are groups, lines 58-145. -/
def applyGroups (tiny : Tiny K) (fuel : Nat) (wrapped : Bool) (rs cs : List Nat)
    (blocks : List (List (Expr K))) (bs : List (List K)) (groups : List (BcArg K))
    (diag : K) (symmetric returnApplyB : Bool) : Py (Ret K) := do
  let AA ← convertMat tiny fuel rs cs blocks
  let sizes := bs.map List.length
  pyAssert (decide (AA.rows = AA.cols ∧ AA.cols = sizes.sum))
  let data ← globalData 0 sizes groups
  pyAssertValue (!data.isEmpty)   -- np.hstack([]) raises ValueError, line 87
  let x ← setValues (List.replicate sizes.sum 0) data
  let r := eliminate symmetric (data.map Prod.fst) diag AA x (convertVec bs)
  let b' ← asBlockVec r.2 (strides 0 sizes)
  let A' ← asBlockMat r.1 (strides 0 sizes)
  finish wrapped symmetric returnApplyB A' b' ⟨AA, data.map Prod.fst, groups, sizes⟩
where
  pyAssertValue (b : Bool) : Py Unit := if b then .ok () else .error .valueError

/-- `apply_bc`, xii/linalg/bc_apply.py:14-145. -/
def applyBc (tiny : Tiny K) (fuel : Nat) (A : SysMat K) (b : SysVec K) (bcs : BcArg K)
    (diag : K) (symmetric returnApplyB : Bool) : Py (Ret K) :=
  if nothing bcs then .ok .same
  else do
    let (wrapped, rs, cs, blocks) := A.wrap
    let bs ← b.wrap wrapped cs
    let groups ← groupsOf blocks.length wrapped bcs
    pyAssert (decide (blocks.length = bs.length ∧ bs.length = groups.length))
    let groups ← pyMap normGroup groups
    if !(groups.any BcArg.truthy) then .ok .wrapped
    else applyGroups tiny fuel wrapped rs cs blocks bs groups diag symmetric returnApplyB

/-- Values picked up by `apply_b`: those of `DirichletBC`s only, xii/linalg/bc_apply.py:108-110.
`now` are the current boundary values. -/
def updatedValues (now : List (BcArg K)) : List K :=
  (now.map (fun g =>
    match g with
    | .list l => (l.map (fun bc => match bc with
        | .dir d => d.map Prod.snd
        | _ => [])).flatten
    | _ => [])).flatten

/-- The function `apply_b`, xii/linalg/bc_apply.py:106-129.  `now` are the boundary conditions
with their current values.  `setValues` raises for arrays of different lengths. -/
def Updater.apply (u : Updater K) (now : List (BcArg K)) (bs : List (List K)) : Py (List (List K)) :=
  let values := updatedValues now
  if values.length = u.dofs.length then do
    let c ← setValues (List.replicate u.A.cols 0) (u.dofs.zip values)
    let b := (convertVec bs)
    let b := (List.range b.length).map (fun i => b.getD i 0 - u.A.act (fun j => c.getD j 0) i)
    let b ← setValues b (u.dofs.zip values)
    asBlockVec b (strides 0 u.sizes)
  else .error .valueError

end
end Verif.ApplyBc
