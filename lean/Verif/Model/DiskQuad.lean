import Verif.Model.Py
import Mathlib.Data.Rat.Defs
import Mathlib.Algebra.Order.Field.Rat
/-!
# Quadrature on the unit disk (xii/assembler/disk_quadrature.py)

The decimals in the source are rational numbers here (python rounds them to the nearest double).
-/
namespace Verif.DiskQuad
open Verif

/-- A row of the tables: weight, `x`, `y`, type of the orbit. -/
abbrev Row := ℚ × ℚ × ℚ × Nat

/-- disk_quadrature.py:19-19. -/
def data1 : List Row := [
  (3.141592653589793, 0.000000000000000, 0.000000000000000, 1)]

/-- disk_quadrature.py:21-21. -/
def data3 : List Row := [
  (0.785398163397448, 0.707106781186548, 0.000000000000000, 2)]

/-- disk_quadrature.py:23-24. -/
def data5 : List Row := [
  (0.732786462492640, 0.650115167343736, 0.000000000000000, 2),
  (0.052611700904808, 0.888073833977115, 0.888073833977115, 3)]

/-- disk_quadrature.py:26-28. -/
def data7 : List Row := [
  (0.232710566932577, 0.866025403784439, 0.000000000000000, 2),
  (0.387077796006226, 0.322914992067400, 0.322914992067400, 3),
  (0.165609800458645, 0.644171310389465, 0.644171310389465, 3)]

/-- disk_quadrature.py:30-33. -/
def data9 : List Row := [
  (0.071488826617391, 0.952458896434417, 0.000000000000000, 2),
  (0.327176874928167, 0.415187657878755, 0.000000000000000, 2),
  (0.005591341512851, 0.834794942216211, 0.834794942216211, 3),
  (0.190570560169519, 0.740334457173511, 0.379016937530835, 4)]

/-- disk_quadrature.py:35-40. -/
def data11 : List Row := [
  (-0.103220620849181, 0.000000000000000, 0.000000000000000, 1),
  (0.000561120485457, 10.081713912649978, 10.081713912649978, 3),
  (0.234185472691706, 0.329855087221954, 0.329855087221954, 3),
  (0.123731369524117, 0.163309595229403, 0.163309595229403, 3),
  (0.194337435615691, 0.582963679648472, 0.582963679648472, 3),
  (0.129193960146342, 0.862551409331466, 0.191706749096887, 4)]

/-- disk_quadrature.py:42-48. -/
def data13 : List Row := [
  (0.156239869837333, 0.283402832348825, 0.000000000000000, 2),
  (0.069447409266977, 0.920575474036251, 0.000000000000000, 2),
  (0.138145910534871, 0.649007230578002, 0.000000000000000, 2),
  (0.043376583887155, 0.677355106028069, 0.677355106028069, 3),
  (0.150228334140010, 0.412672216763289, 0.412672216763289, 3),
  (0.018199321926118, 0.938694583835123, 0.335767600829539, 4),
  (0.095780705939433, 0.752042776803954, 0.379717011170077, 4)]

/-- disk_quadrature.py:50-58. -/
def data15 : List Row := [
  (0.125290208564338, 0.252863797091293, 0.000000000000000, 2),
  (0.016712625496982, 0.989746802511614, 0.000000000000000, 2),
  (0.109500391126365, 0.577728928444958, 0.000000000000000, 2),
  (0.066237455796397, 0.873836956645035, 0.000000000000000, 2),
  (0.026102860184358, 0.689299380791136, 0.689299380791136, 3),
  (0.066000934661100, 0.597614304667208, 0.597614304667208, 3),
  (0.127428372681720, 0.375416824626170, 0.375416824626170, 3),
  (0.042523065826681, 0.883097111318591, 0.365790800400663, 4),
  (0.081539591616413, 0.707438744960070, 0.293030722710664, 4)]

/-- disk_quadrature.py:60-70. -/
def data17 : List Row := [
  (0.034218732123473, 0.000061843487605, 0.000000000000000, 2),
  (0.016529016194279, 0.980790725733799, 0.000000000000000, 2),
  (0.128441621643862, 0.536380801743208, 0.000000000000000, 2),
  (0.057523498415081, 0.859692027602019, 0.000000000000000, 2),
  (0.000019445945395, 0.890507932479849, 0.890507932479849, 3),
  (0.029882788585530, 0.597728327225623, 0.597728327225623, 3),
  (0.086625257876566, 0.472638508474430, 0.472638508474430, 3),
  (0.135289763196368, 0.256583368615187, 0.256583368615187, 3),
  (0.030442743336826, 0.915666628257231, 0.290750921163427, 4),
  (0.036355668706617, 0.775130682141990, 0.550400039905684, 4),
  (0.081635607665003, 0.722293685844502, 0.274942296086914, 4)]

/-- disk_quadrature.py:72-84. -/
def data19 : List Row := [
  (-0.336959088794964, 0.860125674956782, 0.000000000000000, 2),
  (-0.252102704609804, 0.860125119919931, 0.000000000000000, 2),
  (0.131164048626801, 0.547071550894734, 0.000000000000000, 2),
  (-0.010919895825604, 0.927565701076356, 0.927565701076356, 3),
  (0.010744805554708, 0.928162274936277, 0.928162274936277, 3),
  (0.004798012482265, 0.755935467576794, 0.755935467576794, 3),
  (0.072711702889623, 0.618205357502056, 0.618205357502056, 3),
  (0.115883691032049, 0.398705530364909, 0.398705530364909, 3),
  (0.123519504105529, 0.175541035301314, 0.175541035301314, 3),
  (0.022426281825809, 0.959568314399471, 0.155454100986327, 4),
  (0.033906878046312, 0.851375493057155, 0.435023471372536, 4),
  (0.332072154179621, 0.858667011279674, 0.030948726948493, 4),
  (0.074873729916680, 0.711569636216547, 0.300178547400372, 4)]

/-- The choice of the table, disk_quadrature.py:18-86. -/
def table : Int → Option (List Row)
  | 1 => some data1
  | 3 => some data3
  | 5 => some data5
  | 7 => some data7
  | 9 => some data9
  | 11 => some data11
  | 13 => some data13
  | 15 => some data15
  | 17 => some data17
  | 19 => some data19
  | _ => none

/-- Nodes and weights of one row, disk_quadrature.py:91-112.  Rows with another type are ignored. -/
def expand : Row → Py (List ((ℚ × ℚ) × ℚ))
  | (w, x, y, t) =>
      if t = 1 then .ok [((x, y), w)]
      else if t = 2 then do
        pyAssert (decide (|y| < 1e-10))
        .ok ([(x, 0), (-x, 0), (0, x), (0, -x)].map (fun p => (p, w)))
      else if t = 3 then do
        pyAssert (decide (|x - y| < 1e-10))
        .ok ([(x, x), (x, -x), (-x, x), (-x, -x)].map (fun p => (p, w)))
      else if t = 4 then
        .ok ([(x, y), (x, -y), (-x, y), (-x, -y), (y, x), (y, -x), (-y, x), (-y, -x)].map (fun p => (p, w)))
      else .ok []

/-- Loop over the rows, disk_quadrature.py:89-113. -/
def expandAll : List Row → Py (List ((ℚ × ℚ) × ℚ))
  | [] => .ok []
  | r :: rs => do
      let a ← expand r
      let b ← expandAll rs
      .ok (a ++ b)

/-- `disk_quadrature`, disk_quadrature.py:3-114.  Lines 13-15 only print (`degree == 19` is a comparison). -/
def diskQuadrature (degree : Int) : Py (List (ℚ × ℚ) × List ℚ) :=
  let degree := if degree % 2 = 0 then degree + 1 else degree
  match table degree with
  | none => .error .valueError
  | some data => do
      let ps ← expandAll data
      .ok (ps.map (fun p => p.1), ps.map (fun p => p.2))

end Verif.DiskQuad
