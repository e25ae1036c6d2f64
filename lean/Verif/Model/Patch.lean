import Verif.Model.Trace
import Mathlib.Algebra.Field.Defs
import Mathlib.Algebra.Order.Group.Abs
import Mathlib.Data.List.Sort
import Mathlib.Data.List.Dedup
/-!
# Patch averages (xii/assembler/patch_average_matrix.py)

Arithmetic is exact.  Integrals of basis functions over cells and cell volumes are what dolfin computes.
-/
namespace Verif.Patch
open Verif Verif.BlockOps Verif.Trace Verif.DofMat
variable {K G : Type}

/-- What the code asks of the space `V`: `V.dim()`, the number of cells, `cell_dofs(c)`, `Cell.volume()` and
    the integrals `loc c l` of the local basis functions over the cells (the element vectors of
    `v*dx`). -/
structure Space (K : Type) where
  dim : Nat
  numCells : Nat
  cellDofs : Nat → List Nat
  vol : Nat → K
  loc : Nat → Nat → K

/-- Sum of the element vectors of the cell `c` which goes to the dof `j`. -/
def elementVec [AddCommMonoid K] (V : Space K) (c j : Nat) : K :=
  (((V.cellDofs c).zipIdx.filter (fun q => q.1 = j)).map (fun q => V.loc c q.2)).sum

/-- `df.assemble(v*dx(1), tensor=v_dofs)` with the subdomain data `chi`. -/
def assemble [AddCommMonoid K] (V : Space K) (chi : Nat → Nat) (j : Nat) : K :=
  (((List.range V.numCells).filter (fun c => chi c = 1)).map (fun c => elementVec V c j)).sum

/-- `np.where(patch_f == color)`, patch_average_matrix.py:81, 160. -/
def patchCells [DecidableEq K] [NatCast K] (V : Space K) (pf : Nat → Nat) (color : K) : List Nat :=
  (List.range V.numCells).filter (fun c => (pf c : K) = color)

/-- `chi_array[patch_cells] = 1`, patch_average_matrix.py:84, 163. -/
def mark (cs : List Nat) (chi : Nat → Nat) : Nat → Nat := fun c => if c ∈ cs then 1 else chi c

/-- `np.unique(np.hstack([Vdm.cell_dofs(cell) for cell in patch_cells]))`, patch_average_matrix.py:89, 165:
    `np.hstack` of an empty list raises. -/
def patchDofs (V : Space K) (cs : List Nat) : Py (List Nat) :=
  if cs = [] then .error .valueError
  else .ok ((cs.flatMap V.cellDofs).dedup.insertionSort (· ≤ ·))

/-- `abs(color) < 1E-10`, patch_average_matrix.py:79. -/
def noColor [Field K] [LinearOrder K] (color : K) : Bool := decide (|color| < 1 / 10 ^ 10)

/-- The lists `ii`, `jj`, `values`. -/
abbrev Triples (K : Type) := List Nat × List Nat × List K

/-- `ii.extend(row*np.ones_like(columns)); jj.extend(columns); values.extend(patch_values)`. -/
def extend (acc : Triples K) (row : Nat) (cols : List Nat) (vals : List K) : Triples K :=
  (acc.1 ++ List.replicate cols.length row, acc.2.1 ++ cols, acc.2.2 ++ vals)

/-- Loop over the dofs of TV, patch_average_matrix.py:76-97, with the state of `chi`. -/
def rowLoop [Field K] [LinearOrder K] (V : Space K) (pf : Nat → Nat) (colorIds : List K) :
    List Nat → (Nat → Nat) → Triples K → Py (Triples K)
  | [], _, acc => .ok acc
  | row :: rows, chi, acc => do
      let color ← pyGet colorIds row
      if noColor color then rowLoop V pf colorIds rows chi acc
      else do
        let cs := patchCells V pf color
        let volume := (cs.map V.vol).sum
        let chi := mark cs chi
        let vDofs := fun j => 1 / volume * assemble V chi j
        let columns ← patchDofs V cs
        rowLoop V pf colorIds rows (fun _ => 0) (extend acc row columns (columns.map vDofs))

/-- `patch_avg_mat` without patch colouring, patch_average_matrix.py:43-104.  The asserts in lines 45-55 on
    the spaces and meshes are `checks`; `dimTV` is `TV.dim()`. -/
def patchAvg [Field K] [LinearOrder K] (V : Space K) (dimTV : Nat) (checks : Bool) (pf : Nat → Nat)
    (colorIds : List K) : Py (Mat K) := do
  pyAssert checks
  let (I, J, VS) ← rowLoop V pf colorIds (List.range dimTV) (fun _ => 0) ([], [], [])
  csr dimTV V.dim I J VS

/-! ## With colouring of the patches -/

/-- `groups[group].append(color)` for a `defaultdict(list)`. -/
def addGroup [DecidableEq G] (groups : List (G × List Nat)) (g : G) (color : Nat) : List (G × List Nat) :=
  if groups.any (fun p => p.1 = g) then groups.map (fun p => if p.1 = g then (p.1, p.2 ++ [color]) else p)
  else groups ++ [(g, [color])]

/-- Lines 131-136: `for color in np.asarray(color_ids, dtype='uintp')`. -/
def makeGroups [DecidableEq G] (coloring : List (Nat × G)) : List Nat → List (G × List Nat) → List (G × List Nat)
  | [], groups => groups
  | color :: cs, groups =>
      match coloring.lookup color with
      | none => makeGroups coloring cs groups
      | some g => makeGroups coloring cs (addGroup groups g color)

/-- First index of the smallest element. -/
def argminFrom [LinearOrder K] : Nat → Nat → K → List K → Nat
  | _, best, _, [] => best
  | i, best, v, x :: xs => if x < v then argminFrom (i + 1) i x xs else argminFrom (i + 1) best v xs

/-- `np.argmin`, an empty array raises. -/
def argmin [LinearOrder K] : List K → Py Nat
  | [] => .error .valueError
  | x :: xs => .ok (argminFrom 1 0 x xs)

/-- Volume, dofs and row of a colour: the dicts `volumes`, `columns`, `rows`. -/
structure Info (K : Type) where
  volume : K
  columns : List Nat
  row : Nat

/-- Loop in patch_average_matrix.py:158-174; later entries of a dict replace earlier ones. -/
def collect [Field K] [LinearOrder K] (V : Space K) (pf : Nat → Nat) (colorIds : List K) :
    List Nat → (Nat → Nat) → List (Nat × Info K) → Py ((Nat → Nat) × List (Nat × Info K))
  | [], chi, info => .ok (chi, info)
  | color :: cs, chi, info => do
      let cells := patchCells V pf (color : K)
      let volume := (cells.map V.vol).sum
      let chi := mark cells chi
      let columns ← patchDofs V cells
      let d := colorIds.map (fun x => |x - (color : K)|)
      let index ← argmin d
      let v ← pyGet d index
      pyAssert (decide (v < 1 / 10 ^ 13))
      collect V pf colorIds cs chi ((color, ⟨volume, columns, index⟩) :: info)

/-- `volumes[color]`, `columns[color]`, `rows[color]`. -/
def infoGet (info : List (Nat × Info K)) (color : Nat) : Py (Info K) :=
  match info.lookup color with
  | some i => .ok i
  | none => .error .keyError

/-- Loop in patch_average_matrix.py:179-184. -/
def extract [Field K] (vDofs : Nat → K) (info : List (Nat × Info K)) : List Nat → Triples K → Py (Triples K)
  | [], acc => .ok acc
  | color :: cs, acc => do
      let i ← infoGet info color
      extract vDofs info cs (extend acc i.row i.columns (i.columns.map (fun j => vDofs j / i.volume)))

/-- Loop over the groups, patch_average_matrix.py:155-187. -/
def groupLoop [Field K] [LinearOrder K] (V : Space K) (pf : Nat → Nat) (colorIds : List K) :
    List (G × List Nat) → (Nat → Nat) → Triples K → Py (Triples K)
  | [], _, acc => .ok acc
  | (_, colors) :: gs, chi, acc => do
      let (chi, info) ← collect V pf colorIds colors chi []
      let acc ← extract (assemble V chi) info colors acc
      groupLoop V pf colorIds gs (fun _ => 0) acc

/-- `patch_avg_mat_coloring`, patch_average_matrix.py:107-196; `toUint` is the cast to `uintp`. -/
def patchAvgColoring [Field K] [LinearOrder K] [DecidableEq G] (V : Space K) (dimTV : Nat) (checks : Bool)
    (pf : Nat → Nat) (colorIds : List K) (toUint : K → Nat) (coloring : List (Nat × G)) : Py (Mat K) := do
  pyAssert checks
  let groups := makeGroups coloring (colorIds.map toUint) []
  let (I, J, VS) ← groupLoop V pf colorIds groups (fun _ => 0) ([], [], [])
  csr dimTV V.dim I J VS

/-- Loop of `dirac_avg_mat`, patch_average_matrix.py:224-234; `dists row` are the distances from the dof of TV
    to the dofs of V. -/
def diracLoop [Field K] [LinearOrder K] (dists : Nat → List K) : List Nat → Triples K → Py (Triples K)
  | [], acc => .ok acc
  | row :: rows, acc => do
      let col ← argmin (dists row)
      let v ← pyGet (dists row) col
      pyAssert (decide (v < 1 / 10 ^ 10))
      diracLoop dists rows (acc.1 ++ [row], acc.2.1 ++ [col], acc.2.2 ++ [1])

/-- `dirac_avg_mat`, patch_average_matrix.py:199-241. -/
def diracAvg [Field K] [LinearOrder K] (dimV dimTV : Nat) (checks : Bool) (dists : Nat → List K) : Py (Mat K) := do
  pyAssert checks
  let (I, J, VS) ← diracLoop dists (List.range dimTV) ([], [], [])
  csr dimTV dimV I J VS

/-- The choice in `patch_avg_mat`, patch_average_matrix.py:35-41. -/
def patchAvgMat [Field K] [LinearOrder K] [DecidableEq G] (V : Space K) (dimTV : Nat) (checks : Bool)
    (dists : Nat → List K) (colorIds : List K) (toUint : K → Nat)
    (pf : Option (Nat → Nat)) (coloring : Option (List (Nat × G))) : Py (Mat K) :=
  match pf with
  | none => diracAvg V.dim dimTV checks dists
  | some pf =>
      match coloring with
      | some coloring => patchAvgColoring V dimTV checks pf colorIds toUint coloring
      | none => patchAvg V dimTV checks pf colorIds

end Verif.Patch
