import Verif.Spec.TraceForm
import Verif.Spec.Trace
import Verif.Spec.Reduced
import Verif.Model.Dispatch
/-!
# Integrals of restrictions

Integrals over a mesh of facets (the trace mesh) of expressions with traces of functions on the bulk mesh.
-/
namespace Verif.Coupling
open Verif Ufl BlockForm Reduced Dispatch DofMat Trace Embedding TransposeTrace TraceForm Finset

variable {S K X : Type} [DecidableEq S] [CommRing K]

/-- Points (with components) of the cells over which the integrals are taken; `On c x`: the point `x` is on the cell
    `c` of the trace mesh. -/
abbrev Pts (dom : Nat → Prop) (On : Nat → X → Prop) := {p : Nat × X // dom p.1 ∧ On p.1 p.2}

/-- The cell `c` of the trace mesh is a facet of the cell `k` of the mesh `id`. -/
def FacetOf (C : Meshes) (id c k : Nat) : Prop := ∃ e, Lies C id c e ∧ k ∈ (C.topo id).e2c e

/-- The restriction of a function in `V` to the trace mesh; `side c` is a cell of the bulk mesh with the facet `c`. -/
def restriction (V : DofMat.Space K X) (side : Nat → Nat) (u : Nat → K) {dom : Nat → Prop} {On : Nat → X → Prop} :
    Pts dom On → K := fun p => fnOn V u (side p.1.1) p.1.2

/-- Functions in the space are the functions of its element on each cell. -/
structure Piecewise {dom : Nat → Prop} {On : Nat → X → Prop} (sem : Sem S K (Pts dom On → K)) (T : S)
    (sp : DofMat.Space K X) : Prop where
  dim : sem.dim T = sp.dim
  basis : ∀ i p, sem.basis T i p =
    ∑ l ∈ range sp.spaceDim, if (sp.cellDofs p.1.1).getD l 0 = i then sp.basis p.1.1 l p.1.2 else 0

/-- Continuous functions in `V`: their values on facets do not depend on the cell. -/
def ContinuousOn (C : Meshes) (id : Nat) (On : Nat → X → Prop) (V : DofMat.Space K X) : Prop :=
  ∀ u c c' k k' x, c < C.numCells → c' < C.numCells → FacetOf C id c k → FacetOf C id c' k' → On c x → On c' x →
    fnOn V u k x = fnOn V u k' x

/-- The element of the trace space: the degrees of freedom use values on the cell, those shared by two cells use
    values on both, the basis functions are dual to them, and restrictions of functions in `V` are in the span. -/
structure TraceElement (C : Meshes) (id : Nat) (On : Nat → X → Prop) (V TV : DofMat.Space K X) : Prop where
  local_ : ∀ c, c < C.numCells → ∀ l f f', (∀ x, On c x → f x = f' x) → TV.dofs c l f = TV.dofs c l f'
  shared : ∀ c c', c < C.numCells → c' < C.numCells → ∀ l l' d, (TV.cellDofs c)[l]? = some d →
    (TV.cellDofs c')[l']? = some d → ∀ f f', (∀ x, On c x → On c' x → f x = f' x) → TV.dofs c l f = TV.dofs c' l' f'
  nodal : ∀ c, c < C.numCells → ∀ l m, l < TV.spaceDim → m < TV.spaceDim →
    TV.dofs c l (TV.basis c m) = if l = m then 1 else 0
  spans : ∀ u c k, c < C.numCells → FacetOf C id c k →
    ∃ a : Nat → K, ∀ x, On c x → fnOn V u k x = ∑ l ∈ range TV.spaceDim, a l * TV.basis c l x

/-- A trace as users write it, of continuous functions, with tags which mark all cells of the integrals. -/
structure TraceOk {g : Nat} (C : Meshes) (marking : Option (List Nat)) (id : Nat) (dom : Nat → Prop)
    (On : Nat → X → Prop) (c : Call K X g) : Prop where
  isTerminal : c.args.isTerminal = true
  cellOk : c.args.cellOk = true
  compatible : c.compatible = true
  noSide : c.args.restriction = ""
  legal : c.args.tag.Legal marking
  tags : ∀ k, dom k → c.args.tag.Selects (marksOf marking C.numCells) k
  wfV : c.V.WF
  wfT : c.TV.WF
  linear : c.TV.LinearDofs
  noHdiv : c.D.hdivTrace = none
  dg : c.TV.isDG = true → Discontinuous c.TV
  cellsV : c.V.numCells = (C.topo id).numCells
  cellsT : c.TV.numCells = C.numCells
  continuous : ContinuousOn C id On c.V
  element : TraceElement C id On c.V c.TV

/-- The operators for the terminal with annotations `attrs` in the space `V`: the space of traces, and the matrix
    computed from the annotation after other traces onto the mesh, of which some may have raised. -/
def Traced (g : Nat) (O : Ops S K) (C : Meshes) (marking : Option (List Nat)) (id : Nat) {dom : Nat → Prop}
    {On : Nat → X → Prop} (sem : Sem S K (Pts dom On → K)) (sp : S → DofMat.Space K X) (rest : Nat) (V : S)
    (attrs : List (String × Nat)) : Prop :=
  (attrs.lookup Kind.trace.attr).isSome ∧
  ∃ (TV : S) (c : Call K X g) (before : List (Call K X g)) (t : TraceMesh), Prepared C id t ∧
    c.V = sp V ∧ c.TV = sp TV ∧ TraceOk C marking id dom On c ∧ Piecewise sem TV (sp TV) ∧
    O.space .trace attrs (O.domain .trace attrs V) rest = .ok TV ∧
    O.matrix .trace attrs (O.domain .trace attrs V) TV rest =
      (traceCall C marking id c (afterCalls C marking id before t)).1

/-- The function a terminal stands for, given test and trial function: annotated functions are replaced by their
    restrictions. -/
def meant {dom : Nat → Prop} {On : Nat → X → Prop} (sem : Sem S K (Pts dom On → K)) (sp : S → DofMat.Space K X)
    (side : Nat → Nat) (env : Env S K) (v u : Nat → K) (t : Term S) : Pts dom On → K :=
  match t.base with
  | .argument 0 V => value V v
  | .argument _ V => value V u
  | .other i => match env i with
      | some (V, c) => value V c
      | none => sem.const i
where
  /-- The function with coefficients `x`, or its restriction. -/
  value (V : S) (x : Nat → K) : Pts dom On → K :=
    if t.attrs = [] then Reduced.fn sem V x else restriction (sp V) side x

end Verif.Coupling
