import Verif.Model.Py
import Mathlib.Analysis.Real.Sqrt
import Mathlib.Analysis.SpecialFunctions.Trigonometric.Basic
/-!
# Shapes of averaging (xii/assembler/average_shape.py)

Exact real arithmetic; arrays with three entries are `V3`.  Division of an array by a norm which is zero
gives nan in numpy: the cases in which this happens are branches of the model.
-/
namespace Verif.Shape
open Verif

/-- `np.array([x, y, z])`. -/
@[ext] structure V3 where
  x : ℝ
  y : ℝ
  z : ℝ

namespace V3
/-- Entrywise arithmetic of numpy arrays. -/
instance : Add V3 := ⟨fun a b => ⟨a.x + b.x, a.y + b.y, a.z + b.z⟩⟩
instance : Sub V3 := ⟨fun a b => ⟨a.x - b.x, a.y - b.y, a.z - b.z⟩⟩
noncomputable instance : SMul ℝ V3 := ⟨fun c a => ⟨c * a.x, c * a.y, c * a.z⟩⟩
/-- `np.dot`. -/
def dot (a b : V3) : ℝ := a.x * b.x + a.y * b.y + a.z * b.z
/-- `np.cross`. -/
def cross (a b : V3) : V3 :=
  ⟨a.y * b.z - a.z * b.y, a.z * b.x - a.x * b.z, a.x * b.y - a.y * b.x⟩
/-- `np.linalg.norm`. -/
noncomputable def norm (a : V3) : ℝ := √(dot a a)
/-- `ez = np.array([0., 0., 1.])`. -/
def ez : V3 := ⟨0, 0, 1⟩
end V3
open V3

/-! ## Circle and Disk -/

/-- Rows of the 3x3 array `Rot`, average_shape.py:176-178 and 252-254. -/
noncomputable def rotRows (axis : V3) (c s : ℝ) : V3 × V3 × V3 :=
  ((c • (⟨1, 0, 0⟩ : V3) + s • (⟨0, -axis.z, axis.y⟩ : V3) +
      (1 - c) • (⟨axis.x * axis.x, axis.x * axis.y, axis.x * axis.z⟩ : V3)),
   (c • (⟨0, 1, 0⟩ : V3) + s • (⟨axis.z, 0, -axis.x⟩ : V3) +
      (1 - c) • (⟨axis.y * axis.x, axis.y * axis.y, axis.y * axis.z⟩ : V3)),
   (c • (⟨0, 0, 1⟩ : V3) + s • (⟨-axis.y, axis.x, 0⟩ : V3) +
      (1 - c) • (⟨axis.z * axis.x, axis.z * axis.y, axis.z * axis.z⟩ : V3)))

/-- `Rot@x`. -/
noncomputable def rotApply (r : V3 × V3 × V3) (x : V3) : V3 := ⟨dot r.1 x, dot r.2.1 x, dot r.2.2 x⟩

/-- The axis of rotation, average_shape.py:167-171 and 243-247, for the normalised `n`. -/
noncomputable def rotAxis (n : V3) : V3 :=
  if norm (cross ez n) < 1e-13 then ez else (norm (cross ez n))⁻¹ • cross ez n

/-- `Circle.map_from_reference` and `Disk.map_from_reference` (the same code), average_shape.py:158-191
    and 235-267, applied to a point.  With `n = 0` the normalised normal is nan and the assertion in
    `transform` fails. -/
noncomputable def mapFromReference (x0 n : V3) (R : ℝ) (x : V3) : Py V3 :=
  if norm n = 0 then .error .assertion
  else
    let n := (norm n)⁻¹ • n
    let axis := rotAxis n
    let c := dot ez n
    let s := √(1 - c ^ 2)
    do
      pyAssert (decide (|norm n - 1| < 1e-13))
      .ok (x0 + R • rotApply (rotRows axis c s) x)

/-- `list(map(f, xs))`. -/
noncomputable def mapPts {α β : Type} (f : α → Py β) : List α → Py (List β)
  | [] => .ok []
  | x :: xs => do
      let y ← f x
      let ys ← mapPts f xs
      .ok (y :: ys)

/-- A number or a function of the point, as the argument `radius` of `Circle` and `Disk`. -/
inductive Radius where
  | number (r : ℝ)
  | function (f : V3 → ℝ)

/-- `Circle.__init__`, `Disk.__init__`: the function `self.radius`, average_shape.py:147-152, 223-228. -/
noncomputable def initRadius : Radius → Py (V3 → ℝ)
  | .number r => do
      pyAssert (decide (r > 0))
      .ok (fun _ => r)
  | .function f => .ok f

/-- `Circle.quadrature`, average_shape.py:193-204; `xq`, `wq` is the Gauss rule of the constructor. -/
noncomputable def circleQuadrature (radius : V3 → ℝ) (xq wq : List ℝ) (x0 n : V3) :
    Py (List V3 × List ℝ) := do
  let pts := xq.map (fun t => (⟨Real.cos (Real.pi * t), Real.sin (Real.pi * t), 0⟩ : V3))
  let R := radius x0
  let Txq ← mapPts (mapFromReference x0 n R) pts
  .ok (Txq, wq.map (fun w => w * R * Real.pi))

/-- `Circle.quadrature_normal`, average_shape.py:207-216: rows which are zero are divided by zero, this
    is excluded in the theorems. -/
noncomputable def circleQuadratureNormal (radius : V3 → ℝ) (xq wq : List ℝ) (x0 n : V3) :
    Py ((List V3 × List ℝ) × List V3) := do
  let quad ← circleQuadrature radius xq wq x0 n
  .ok (quad, quad.1.map (fun p => (norm (p - x0))⁻¹ • (p - x0)))

/-- `Disk.quadrature`, average_shape.py:269-281; `xq`, `wq` are the nodes and weights on the unit disk. -/
noncomputable def diskQuadratureAt (radius : V3 → ℝ) (xq : List (ℝ × ℝ)) (wq : List ℝ) (x0 n : V3) :
    Py (List V3 × List ℝ) := do
  let pts := xq.map (fun t => (⟨t.1, t.2, 0⟩ : V3))
  let R := radius x0
  let Txq ← mapPts (mapFromReference x0 n R) pts
  .ok (Txq, wq.map (fun w => w * R ^ 2))

/-! ## Square and SquareRim -/

/-- `x0 + vec*cos(a) + cross(n, vec)*sin(a) + n*(n.dot(vec))*(1-cos(a))`, average_shape.py:55-56, 115-117. -/
noncomputable def rotated (x0 n vec : V3) (a : ℝ) : V3 :=
  x0 + Real.cos a • vec + Real.sin a • cross n vec + (dot n vec * (1 - Real.cos a)) • n

/-- `Square.map_from_reference`, average_shape.py:45-63: the check and the two edges `u`, `v`.  With `n = 0`
    the normalised normal is nan and the assertion fails. -/
noncomputable def squareEdges (x0 n P : V3) : Py (V3 × V3) :=
  if norm n = 0 then .error .assertion
  else
    let n := (norm n)⁻¹ • n
    let vec := P - x0
    do
      pyAssert (decide (|dot vec n| < 1e-13))
      .ok (rotated x0 n vec (Real.pi / 2) - P, rotated x0 n vec (3 * Real.pi / 2) - P)

/-- `mapping` of `Square.map_from_reference`, average_shape.py:58-61. -/
noncomputable def squareMap (P u v : V3) (x : ℝ × ℝ) : Py V3 := do
  pyAssert (decide (|x.1| < 1 + 1e-13 ∧ |x.2| < 1 + 1e-13))
  .ok (P + (0.5 * (1 + x.1)) • u + (0.5 * (1 + x.2)) • v)

/-- `itertools.product(xs, xs)`. -/
def prod2 {α : Type} (xs : List α) : List (α × α) := xs.flatMap (fun a => xs.map (fun b => (a, b)))

/-- `Square.quadrature`, average_shape.py:65-82, with `P = self.P(x0)`. -/
noncomputable def squareQuadrature (P : V3 → V3) (xq wq : List ℝ) (x0 n : V3) :
    Py (List V3 × List ℝ) := do
  let (u, v) ← squareEdges x0 n (P x0)
  let A ← squareMap (P x0) u v (-1, -1)
  let B ← squareMap (P x0) u v (-1, 1)
  let size := 0.5 * norm (B - A)
  let wq := wq.map (fun w => w * size)
  let Txq ← mapPts (squareMap (P x0) u v) (prod2 xq)
  .ok (Txq, (prod2 wq).map (fun w => w.1 * w.2))

/-- `SquareRim.map_from_reference`, average_shape.py:101-117: the corners. -/
noncomputable def rimCorners (x0 n P : V3) : Py (List V3) :=
  if norm n = 0 then .error .assertion
  else
    let n := (norm n)⁻¹ • n
    let vec := P - x0
    do
      pyAssert (decide (|dot vec n| < 1e-13))
      .ok [P, rotated x0 n vec (Real.pi / 2), x0 - (P - x0), rotated x0 n vec (3 * Real.pi / 2)]

/-- `mapping` of `SquareRim.map_from_reference`, average_shape.py:119-121: one point on each side. -/
noncomputable def rimMap (pts : List V3) (x : ℝ) : Py (List V3) := do
  pyAssert (decide (|x| < 1 + 1e-13))
  .ok ((pts.zip (pts.drop 1 ++ pts.take 1)).map (fun q => (0.5 * (1 - x)) • q.1 + (0.5 * (1 + x)) • q.2))

/-- `SquareRim.quadrature`, average_shape.py:125-140. -/
noncomputable def rimQuadrature (P : V3 → V3) (xq wq : List ℝ) (x0 n : V3) :
    Py (List V3 × List ℝ) := do
  let pts ← rimCorners x0 n (P x0)
  let corners ← rimMap pts (-1)
  match corners with
  | A :: B :: _ => do
      let size := 0.5 * norm (B - A)
      let wq := wq.map (fun w => w * size)
      let Txq ← mapPts (rimMap pts) xq
      .ok (Txq.flatten, wq.flatMap (List.replicate 4))
  | _ => .error .valueError

/-- The argument `P` of `Square` and `SquareRim`, average_shape.py:35-39, 91-95: a tuple or list of numbers, an
    array, or a function of the point. -/
inductive Corner where
  | sequence (p : V3)
  | array (p : V3)
  | function (f : V3 → V3)

/-- The point `self.P(x0)` as an array. -/
def Corner.at (c : Corner) (x0 : V3) : V3 :=
  match c with
  | .sequence p => p
  | .array p => p
  | .function f => f x0

/-- `Square(P, degree).quadrature`, average_shape.py:34-42, 65-82: a tuple is only used in sums and differences
    with arrays. -/
noncomputable def squareOf (c : Corner) (xq wq : List ℝ) (x0 n : V3) : Py (List V3 × List ℝ) :=
  squareQuadrature c.at xq wq x0 n

/-- `SquareRim(P, degree).quadrature`, average_shape.py:90-98, 125-140: a tuple or list stays the first entry of
    `pts` (line 114), so `0.5*P` in line 121 raises `TypeError`. -/
noncomputable def rimOf (c : Corner) (xq wq : List ℝ) (x0 n : V3) : Py (List V3 × List ℝ) :=
  match c with
  | .sequence p => do
      let _ ← rimCorners x0 n p
      pyAssert (decide (|(-1 : ℝ)| < 1 + 1e-13))
      .error .typeError
  | c => rimQuadrature c.at xq wq x0 n

end Verif.Shape
