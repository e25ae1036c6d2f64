import Verif.Model.Py
/-!
# Block operators: `xii/linalg/block_utils.py`

Coefficient vectors are lists of numbers, a `block_vec` is a list of them.  A PETSc
nest vector is modelled by the concatenation of its blocks.
-/
namespace Verif.BlockOps
open Verif

/-- A vector as seen by the block operators: `vec` is a dolfin vector, `blk` a
`block_vec` (possibly of `block_vec`s, see `RegroupOperator`). -/
inductive BVal (K : Type) where
  | vec : List K → BVal K
  | blk : List (BVal K) → BVal K

/-- `lst[i]` with `IndexError`.  Negative indices are not modelled. -/
def pyGet {α : Type} (l : List α) (i : Nat) : Py α :=
  match l[i]? with
  | some a => .ok a
  | none => .error .indexError

/-- Entry of a PETSc vector; PETSc raises for an index out of range. -/
def petscGet {K : Type} (v : List K) (i : Nat) : Py K :=
  match v[i]? with
  | some a => .ok a
  | none => .error .runtimeError

/-- Entries `v[i]` for `i` in an index set (`getSubVector`, `getValues`). -/
def gather {K : Type} (v : List K) : List Nat → Py (List K)
  | [] => .ok []
  | i :: is => do
      let a ← petscGet v i
      let r ← gather v is
      return a :: r

/-- List comprehension `[f(x) for x in xs]` where `f` may raise. -/
def pyMap {α β : Type} (f : α → Py β) : List α → Py (List β)
  | [] => .ok []
  | x :: xs => do
      let y ← f x
      let ys ← pyMap f xs
      return y :: ys

/-- `is_increasing`, xii/linalg/block_utils.py:248-253. -/
def isIncreasing : List Nat → Bool
  | [] => false
  | [_] => true
  | a :: b :: rest => decide (a < b) && isIncreasing (b :: rest)

section
variable {K : Type}

/-! ### SubSelectOperator, xii/linalg/block_utils.py:256-289 -/

/-- `SubSelectOperator.matvec`, xii/linalg/block_utils.py:271-276.  For several
indices and a bare dolfin vector Python would pick numbers out of the vector; this
misuse is reported as `TypeError`. -/
def subSelect (indices : List Nat) (b : BVal K) : Py (BVal K) :=
  match b with
  | .vec _ => if indices.length = 1 then .error .assertion else .error .typeError
  | .blk xs =>
    match indices with
    | [i] => pyGet xs i
    | _ => do
        let ys ← pyMap (pyGet xs) indices
        return .blk ys

/-- The loop `for source, dest in enumerate(indices): ans[dest] = b[source]`,
xii/linalg/block_utils.py:286-287. -/
def scatterLoop (b : List (BVal K)) : Nat → List Nat → List (BVal K) → Py (List (BVal K))
  | _, [], ans => .ok ans
  | source, dest :: rest, ans => do
      let v ← pyGet b source
      if dest < ans.length then scatterLoop b (source + 1) rest (ans.set dest v)
      else .error .indexError

/-- The argument of `SubSelectOperator.transpmult` as a list of blocks,
xii/linalg/block_utils.py:282-284. -/
def subSelectArg (indices : List Nat) (b : BVal K) : Py (List (BVal K)) :=
  match b with
  | .vec v => if indices.length = 1 then .ok [.vec v] else .error .typeError
  | .blk xs => if indices.length = 1 then .error .assertion else .ok xs

/-- `SubSelectOperator.transpmult`, xii/linalg/block_utils.py:278-289. `dims` are
the dimensions of the spaces `W`; `create_vec` gives zero vectors. -/
def subSelectT [Zero K] (indices : List Nat) (dims : List Nat) (b : BVal K) : Py (BVal K) := do
  let ans := dims.map (fun n => BVal.vec (List.replicate n (0 : K)))
  let bs ← subSelectArg indices b
  let r ← scatterLoop bs 0 indices ans
  return .blk r

/-! ### RearangeOperator and ReductionOperator, xii/linalg/block_utils.py:291-384 -/

/-- `offset + dofs`. -/
def shiftDofs (offset : Nat) (dofs : List Nat) : List Nat := dofs.map (offset + ·)

/-- Index sets of one group, xii/linalg/block_utils.py:301-304: the offsets are the
running sums of the number of dofs. -/
def groupSets (dofs : List (List Nat)) : Nat → List Nat → Py (List (List Nat))
  | _, [] => .ok []
  | offset, i :: is => do
      let d ← pyGet dofs i
      let r ← groupSets dofs (offset + d.length) is
      return shiftDofs offset d :: r

/-- `index_sets`, xii/linalg/block_utils.py:299-305. -/
def indexSets (mapping : List (List Nat)) (dofs : List (List Nat)) : Py (List (List (List Nat))) :=
  pyMap (groupSets dofs 0) mapping

/-- `petsc_index_sets`, xii/linalg/block_utils.py:307-312. -/
def monoSets : List (List Nat) → Nat → List (List Nat)
  | [], _ => []
  | d :: ds, shift => shiftDofs shift d :: monoSets ds (shift + d.length)

/-- `as_petsc_nest(block_vec([...]))`: the concatenation; PETSc cannot build an
empty nest. xii/linalg/function.py:10-16. -/
def nestVec (vs : List (List K)) : Py (List K) :=
  if vs.isEmpty then .error .runtimeError else .ok vs.flatten

/-- One entry of `reshaped`, xii/linalg/block_utils.py:341-344. -/
def mergeGroup (bs : List (List K)) (indices : List Nat) : Py (List K) :=
  match indices with
  | [i] => pyGet bs i
  | _ => do
      let vs ← pyMap (pyGet bs) indices
      nestVec vs

/-- `block_vec(reshaped) if len(reshaped) > 1 else reshaped[0]`. -/
def bareIfOne (l : List (List K)) : Py (BVal K) :=
  match l with
  | [] => .error .indexError
  | [v] => .ok (.vec v)
  | l => .ok (.blk (l.map .vec))

/-- The blocks of a flat block vector. -/
def flatBlocks : List (BVal K) → Py (List (List K))
  | [] => .ok []
  | .vec v :: r => do
      let vs ← flatBlocks r
      return v :: vs
  | .blk _ :: _ => .error .typeError

/-- The blocks of the argument of `RearangeOperator.matvec`,
xii/linalg/block_utils.py:328-337: a bare vector of the total size is broken up,
`b.blocks` of any other bare vector raises `AttributeError`. -/
def rearrangeArg (dofs : List (List Nat)) (b : BVal K) : Py (List (List K)) :=
  match b with
  | .vec v =>
      if v.length = (dofs.map List.length).sum then pyMap (gather v) (monoSets dofs 0)
      else .error .attributeError
  | .blk xs => flatBlocks xs

/-- `RearangeOperator.matvec`, xii/linalg/block_utils.py:326-346. -/
def rearrange (mapping : List (List Nat)) (dofs : List (List Nat)) (b : BVal K) :
    Py (BVal K) := do
  let bs ← rearrangeArg dofs b
  let reshaped ← pyMap (mergeGroup bs) mapping
  bareIfOne reshaped

/-- Writes `unpacked[j] = subvec` made for one group,
xii/linalg/block_utils.py:358-364. -/
def groupWrites (v : List K) (sets : List (List Nat)) (blocks : List Nat) :
    Py (List (Nat × List K)) :=
  match blocks with
  | [i] => .ok [(i, v)]
  | _ => do
      let subvecs ← pyMap (gather v) sets
      return blocks.zip subvecs

/-- Loop over `zip(b, index_sets, mapping)`, xii/linalg/block_utils.py:357. -/
def allWrites : List (List K) → List (List (List Nat)) → List (List Nat) →
    Py (List (Nat × List K))
  | v :: vs, s :: ss, g :: gs => do
      let w ← groupWrites v s g
      let ws ← allWrites vs ss gs
      return w ++ ws
  | _, _, _ => .ok []

/-- Carry out the writes into `unpacked`. -/
def applyWrites : List (Nat × List K) → List (Option (List K)) → Py (List (Option (List K)))
  | [], u => .ok u
  | (j, v) :: ws, u =>
      if j < u.length then applyWrites ws (u.set j (some v)) else .error .indexError

/-- The argument of `RearangeOperator.transpmult` as a list,
xii/linalg/block_utils.py:350-353. -/
def rearrangeTArg (b : BVal K) : Py (List (List K)) :=
  match b with
  | .vec v => .ok [v]
  | .blk xs => flatBlocks xs

/-- `RearangeOperator.transpmult`, xii/linalg/block_utils.py:348-366.  An entry
`none` of the result is the number `0` that is left in places never written to. -/
def rearrangeT (mapping : List (List Nat)) (dofs : List (List Nat)) (b : BVal K) :
    Py (List (Option (List K))) := do
  let bs ← rearrangeTArg b
  let sets ← indexSets mapping dofs
  let n := (sets.map List.length).sum
  let ws ← allWrites bs sets mapping
  applyWrites ws (List.replicate n none)

/-- `zip(offsets[:-1], offsets[1:])` of the offsets with `0` put in front. -/
def offsetPairs : Nat → List Nat → List (Nat × Nat)
  | _, [] => []
  | f, l :: rest => (f, l) :: offsetPairs l rest

/-- The checks of `ReductionOperator`/`RegroupOperator`,
xii/linalg/block_utils.py:378-379 and 389-390. -/
def checkOffsets (offsets : List Nat) (nspaces : Nat) : Py Unit :=
  match offsets.getLast? with
  | none => .error .indexError
  | some l => do
      pyAssert (nspaces == l)
      pyAssert (isIncreasing offsets)

/-- The mapping of `ReductionOperator`, xii/linalg/block_utils.py:381-382. -/
def reductionMapping (offsets : List Nat) : List (List Nat) :=
  (offsetPairs 0 offsets).map (fun fl => List.range' fl.1 (fl.2 - fl.1))

/-! ### RegroupOperator, xii/linalg/block_utils.py:386-413 -/

/-- One group of `RegroupOperator.matvec`, xii/linalg/block_utils.py:397-401. -/
def regroupOne (xs : List (List K)) (fl : Nat × Nat) : Py (BVal K) :=
  if fl.2 - fl.1 = 1 then do
    let v ← pyGet xs fl.1
    return .vec v
  else .ok (.blk (((xs.drop fl.1).take (fl.2 - fl.1)).map .vec))

/-- `RegroupOperator.matvec`, xii/linalg/block_utils.py:393-402 for accepted
offsets. -/
def regroup (offsets : List Nat) (xs : List (List K)) : Py (BVal K) := do
  let reduced ← pyMap (regroupOne xs) (offsetPairs 0 offsets)
  match reduced with
  | [] => .error .indexError
  | [v] => return v
  | l => return .blk l

/-- Blocks of one item in `RegroupOperator.transpmult`. -/
def ungroupOne : BVal K → Py (List (List K))
  | .vec v => .ok [v]
  | .blk ys => flatBlocks ys

/-- `RegroupOperator.transpmult`, xii/linalg/block_utils.py:404-413.  Iterating over
a bare dolfin vector yields numbers, which have no `blocks`. -/
def regroupT (b : BVal K) : Py (List (List K)) :=
  match b with
  | .vec _ => .error .attributeError
  | .blk ys => do
      let l ← pyMap ungroupOne ys
      return l.flatten

/-! ### VectorizedOperator, xii/linalg/block_utils.py:184-245 -/

/-- `VectorizedOperator.__init__` for a list of spaces,
xii/linalg/block_utils.py:195-207: after the dimension check `assert n == m == size`
refers to the undefined name `m` (`n, n = get_dims(bmat)`). -/
def vectorizedInitList (dims : List Nat) : Py Unit :=
  match dims with
  | [] => .error .valueError
  | d :: ds => if ds.all (· == d) then .error .nameError else .error .valueError

/-- Checks of `VectorizedOperator.__init__` for a mixed space,
xii/linalg/block_utils.py:210-218. `elms` identifies the elements of the sub-spaces,
`n, m` the dimensions of the operator, `dim` that of the space. -/
def vectorizedInit (elms : List Nat) (n m dim : Nat) : Py Unit := do
  pyAssert (decide (0 < elms.length))
  match elms with
  | [] => .error .assertion
  | e :: es => if es.all (· == e) then pure () else .error .valueError
  pyAssert (decide (n = m ∧ n * elms.length = dim))

/-- `work[index] = values` with equal lengths (numpy raises `ValueError` for
different lengths and `IndexError` for indices out of range). -/
def assignAt : List K → List Nat → List K → Py (List K)
  | work, [], [] => .ok work
  | work, i :: is, v :: vs =>
      if i < work.length then assignAt (work.set i v) is vs else .error .indexError
  | _, _, _ => .error .valueError

/-- The loop of the `__matvec__` closure, xii/linalg/block_utils.py:226-235.  `A` is
the action of the wrapped operator. The result is the new content of the shared
work array, which is also what is returned. -/
def vectorizedLoop (A : List K → Py (List K)) (b : List K) :
    List (List Nat) → List K → Py (List K)
  | [], work => .ok work
  | index :: rest, work => do
      let bj ← gather b index
      let xj ← A bj
      let work' ← assignAt work index xj
      vectorizedLoop A b rest work'

/-- A sequence of applications of one `VectorizedOperator`; the work array survives
from one call to the next.  Returns the result of every call. -/
def vectorizedCalls (A : List K → Py (List K)) (indices : List (List Nat)) :
    List (List K) → List K → Py (List (List K))
  | [], _ => .ok []
  | b :: bs, work => do
      let w ← vectorizedLoop A b indices work
      let rs ← vectorizedCalls A indices bs w
      return w :: rs

end
end Verif.BlockOps
