import Verif.Spec.Average
import Verif.Spec.Coupling
import Verif.Spec.Variational
/-!
# Integrals of averages

Integrals over a line mesh of expressions with averages of functions on the bulk mesh.  Points come with components: `(x, k)`
is the point `x` of the line and the component `k`.
-/
namespace Verif.AverageForm
open Verif Ufl BlockForm Reduced Dispatch DofMat Average Coupling Program Finset

variable {S K P : Type} [DecidableEq S] [Field K]

/-- The data of the averages: the space on the line for functions in `V` with annotations `attrs`, its dofs on the line, its
    number of components and the nodal functions of its element on the cells; the cell of the bulk mesh at a point; the points
    and weights of the shape at a point of the line with a direction. -/
structure Averages (S K P : Type) where
  target : List (String × Nat) → S → Nat → S
  line : S → Line P
  size : S → Nat
  nodal : S → Nat → Nat → P → K
  collide : S → P → Nat
  rule : List (String × Nat) → P → P → List P × List K

/-- Mean over the shape at the point `x` of the line, in the direction `n`, of component `k` of the function `u` in `V`, which
    is zero outside of the mesh. -/
def shapeMean (V : DofMat.Space K (P × Nat)) (collide : P → Nat) (rule : P → P → List P × List K) (n : P) (u : Nat → K)
    (k : Nat) (x : P) : K :=
  quadMean (zeroOutside V.numCells collide (valueAt V collide u k)) (rule x n).1 (rule x n).2

/-- The average of the function `u`: on each cell of the line, the function of the element which has the means as values at the
    points of the dofs. -/
def average (G : Averages S K P) (sp : S → DofMat.Space K (P × Nat)) (rest : Nat) (V : S) (attrs : List (String × Nat))
    (u : Nat → K) {dom : Nat → Prop} {On : Nat → P × Nat → Prop} : Pts dom On → K := fun p =>
  let L := G.line (G.target attrs V rest)
  ∑ i ∈ range (L.cellDofs p.1.1).length,
    shapeMean (sp V) (G.collide V) (G.rule attrs) (L.normal p.1.1) u p.1.2.2 (L.coords ((L.cellDofs p.1.1).getD i 0)) *
      G.nodal (G.target attrs V rest) p.1.1 i p.1.2.1

/-- Annotated functions stand for their averages. -/
def averaged (G : Averages S K P) {dom : Nat → Prop} {On : Nat → P × Nat → Prop} (sem : Sem S K (Pts dom On → K))
    (sp : S → DofMat.Space K (P × Nat)) : Standing S K (Pts dom On → K) := fun rest V attrs x =>
  if attrs = [] then Reduced.fn sem V x else average G sp rest V attrs x

/-- The space on the line: every component of a function on a cell is the sum of the nodal functions with the values at the
    dofs of this component. -/
structure LineElement (L : Line P) (size : Nat) (nodal : Nat → Nat → P → K) (sp : DofMat.Space K (P × Nat)) : Prop where
  wf : sp.WF
  dofs : L.WF size
  cells : L.numCells = sp.numCells
  fn : ∀ y t x k, t < L.numCells → k < size → fnOn sp y t (x, k) =
    ∑ i ∈ range (L.cellDofs t).length, y ((L.cellDofs t).getD i 0 + k) * nodal t i x

/-- The operators for the terminal with annotations `attrs` in the space `V`: the space on the line, and the matrix computed by
    `avg_mat` for a shape with quadratures `quad` which do not raise at the points of the dofs. -/
def IsAveraged (G : Averages S K P) (O : Ops S K) {dom : Nat → Prop} {On : Nat → P × Nat → Prop}
    (sem : Sem S K (Pts dom On → K)) (sp : S → DofMat.Space K (P × Nat)) (rest : Nat) (V : S)
    (attrs : List (String × Nat)) : Prop :=
  (attrs.lookup Kind.average.attr).isSome ∧
  ∃ TV, TV = G.target attrs V rest ∧ (sp V).WF ∧ 0 < G.size TV ∧
    LineElement (G.line TV) (G.size TV) (G.nodal TV) (sp TV) ∧ Piecewise sem TV (sp TV) ∧
    (∀ t, dom t → t < (G.line TV).numCells) ∧ (∀ t x k, On t (x, k) → k < G.size TV) ∧
    O.space .average attrs (O.domain .average attrs V) rest = .ok TV ∧
    ∃ (quad : Quad K P) (isCG isDG0 : Bool) (cell3d : Nat → Py (Option Nat)),
      (∀ t, t < (G.line TV).numCells → ∀ d ∈ (G.line TV).cellDofs t,
        quad ((G.line TV).coords d) ((G.line TV).normal t) =
            .ok (G.rule attrs ((G.line TV).coords d) ((G.line TV).normal t)) ∧
          (G.rule attrs ((G.line TV).coords d) ((G.line TV).normal t)).1.length =
            (G.rule attrs ((G.line TV).coords d) ((G.line TV).normal t)).2.length) ∧
      O.matrix .average attrs (O.domain .average attrs V) TV rest =
        avgMat (sp V) (G.line TV) (G.size TV) true true true true true isCG isDG0 cell3d (G.collide V) (some quad)

end Verif.AverageForm
