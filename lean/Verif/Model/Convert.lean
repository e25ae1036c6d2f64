import Verif.Model.Collapse
/-!
# Sizes and block matrices: `xii/linalg/convert.py`
-/
namespace Verif.Collapse
open Verif

variable {K : Type} [CommRing K]

/-- The consistency checks of products in `get_dims`, xii/linalg/convert.py:318-327.
`len(None)` is a `TypeError`. -/
def dimsMul : Option (Nat × Nat) → Option (Nat × Nat) → Py (Option (Nat × Nat))
  | some (m, k), some (k', n) => if k = k' then .ok (some (m, n)) else .error .assertion
  | _, _ => .error .typeError

/-- `get_dims`, xii/linalg/convert.py:294-356.  `none` is Python's `None` (a number).
An operator (`op`) has the size of its matrix (lines 346-354: `.A`, `__sizes__` or
`create_vec`).  Vectors (line 300) are not modelled. -/
def getDims : Nat → Expr K → Py (Option (Nat × Nat))
  | 0, _ => .error .outOfFuel
  | _ + 1, .mat M => .ok (some (M.rows, M.cols))
  | _ + 1, .num _ => .ok none
  | _ + 1, .op r =>
      match r with
      | .ok M => .ok (some (M.rows, M.cols))
      | .error e => .error e
  | _ + 1, .mul [] => .error .indexError
  | fuel + 1, .mul [A] => do
      let _ ← getDims fuel A
      .error .indexError
  | fuel + 1, .mul (A :: B :: rest) => do
      let dA ← getDims fuel A
      let dB ← getDims fuel B
      match dA, dB, rest with
      | none, dB, _ => .ok dB
      | dA, none, _ => .ok dA
      | dA, dB, [] => dimsMul dA dB
      | dA, _, rest => do
          let r ← reduceMul (B :: rest)
          let dB ← getDims fuel r
          dimsMul dA dB
  | fuel + 1, .add A B => getDimsSum (getDims fuel A) (getDims fuel B) A B
  | fuel + 1, .sub A B => getDimsSum (getDims fuel A) (getDims fuel B) A B
  | fuel + 1, .tr A => do
      let d ← getDims fuel A
      match d with
      | some (m, n) => .ok (some (n, m))
      | none => .error .typeError
where
  /-- Lines 329-339. -/
  getDimsSum (dA dB : Py (Option (Nat × Nat))) : Expr K → Expr K → Py (Option (Nat × Nat))
    | .num _, _ => dB
    | _, .num _ => dA
    | _, _ => do
        let a ← dA
        let b ← dB
        if a = b then .ok a else .error .assertion

/-- The matrix put in place of a block, xii/linalg/convert.py:43-57. -/
def blockMatrix (i j r c : Nat) : Val K → Mat K
  | .mat M => M
  | .num a => if i = j ∧ r = c then Mat.diag r a else Mat.zero r c

/-- Matrices side by side (scipy `bmat`, one row of blocks of height `m`).  The entries
of the later blocks are shifted by the widths of the former ones. -/
def hcat (m : Nat) : List (Mat K) → Mat K
  | [] => Mat.zero m 0
  | A :: As =>
      Mat.of m (A.cols + (hcat m As).cols)
        (fun i j => if j < A.cols then A.e i j else (hcat m As).e i (j - A.cols))

/-- Matrices on top of each other (scipy `bmat`), width `n`. -/
def vcat (n : Nat) : List (Mat K) → Mat K
  | [] => Mat.zero 0 n
  | A :: As =>
      Mat.of (A.rows + (vcat n As).rows) n
        (fun i j => if i < A.rows then A.e i j else (vcat n As).e (i - A.rows) j)

/-- scipy `bmat` of one row of blocks: all heights and the widths must agree,
`ValueError` otherwise. -/
def bmatRow (r : Nat) (cs : List Nat) (row : List (Mat K)) : Py (Mat K) :=
  if row.all (fun M => M.rows = r) ∧ row.map Mat.cols = cs then .ok (hcat r row)
  else .error .valueError

/-- The blocks of row `i` from column `j` on, xii/linalg/convert.py:43-60. -/
def convertRow (tiny : Tiny K) (fuel i r : Nat) : Nat → List Nat → List (Expr K) → Py (List (Mat K))
  | _, _, [] => .ok []
  | _, [], _ :: _ => .error .indexError
  | j, c :: cs, e :: es => do
      let v ← collapse tiny fuel e
      let rest ← convertRow tiny fuel i r (j + 1) cs es
      .ok (blockMatrix i j r c v :: rest)

/-- The rows from row `i` on; `rs`, `cs` are the sizes given by `bmat_sizes`. -/
def convertRows (tiny : Tiny K) (fuel : Nat) (cs : List Nat) :
    Nat → List Nat → List (List (Expr K)) → Py (List (Mat K))
  | _, _, [] => .ok []
  | _, [], _ :: _ => .error .indexError
  | i, r :: rs, row :: rows => do
      let ms ← convertRow tiny fuel i r 0 cs row
      let M ← bmatRow r cs ms
      let rest ← convertRows tiny fuel cs (i + 1) rs rows
      .ok (M :: rest)

/-- `convert` of a `block_mat`, xii/linalg/convert.py:34-75 (`algorithm='numpy'`).
`rs`, `cs` are `bmat_sizes(bmat)`.  Simplified: blocks of a row are stacked before the
next row is converted (the code converts all blocks first), so only the order of
exceptions differs. -/
def convertMat (tiny : Tiny K) (fuel : Nat) (rs cs : List Nat) (blocks : List (List (Expr K))) :
    Py (Mat K) := do
  let rows ← convertRows tiny fuel cs 0 rs blocks
  .ok (vcat cs.sum rows)

/-- `convert` of a `block_vec`, xii/linalg/convert.py:27-31 and 225-227. -/
def convertVec (xs : List (List K)) : List K := xs.flatten

end Verif.Collapse
