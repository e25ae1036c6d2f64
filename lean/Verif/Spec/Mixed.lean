import Verif.Spec.AverageForm
import Verif.Spec.PointTrace
import Verif.Spec.Mean
import Verif.Spec.SurfaceMean
import Verif.Spec.Patch
import Verif.Model.SurfaceMean
/-!
# Forms with reductions of several kinds, over several meshes

Points carry the number of the mesh and the cell they are taken from, and a component: `(m, c, (x, k))`.
-/
namespace Verif.Mixed
open Verif Ufl BlockForm Reduced Dispatch DofMat Trace Embedding TransposeTrace TraceForm Average PointTrace Coupling
  AverageForm Finset

variable {S K P X : Type} [DecidableEq S] [Field K] [LinearOrder K]

/-- Points of all the meshes over which integrals are taken; `On m c x`: the point is on the cell `c` of the mesh `m`. -/
abbrev AllPts (dom : Nat → Nat → Prop) (On : Nat → Nat → X → Prop) :=
  {p : Nat × Nat × X // dom p.1 p.2.1 ∧ On p.1 p.2.1 p.2.2}

variable {dom : Nat → Nat → Prop} {On : Nat → Nat → P × Nat → Prop}

/-- A function on the mesh `m`; it is zero on the others. -/
def only (m : Nat) (f : Pts (dom m) (On m) → K) : AllPts dom On → K := fun p =>
  if h : p.1.1 = m then f ⟨p.1.2, by subst h; exact p.2⟩ else 0

/-- The functions of the spaces on the mesh `m`. -/
def onMesh (sem : Sem S K (AllPts dom On → K)) (m : Nat) : Sem S K (Pts (dom m) (On m) → K) where
  dim := sem.dim
  basis V i p := sem.basis V i ⟨(m, p.1), p.2⟩
  op _ _ := 0
  const _ := 0
  integral _ _ := 0

/-- A space of functions on the mesh `m`. -/
def Lives (sem : Sem S K (AllPts dom On → K)) (m : Nat) (TV : S) : Prop := ∀ i p, p.1.1 ≠ m → sem.basis TV i p = 0

/-- The space of constants on the mesh `m`. -/
structure Constants (sem : Sem S K (AllPts dom On → K)) (m : Nat) (TV : S) : Prop where
  dim : sem.dim TV = 1
  one : ∀ p : AllPts dom On, p.1.1 = m → sem.basis TV 0 p = 1

/-- The reduction of kind `k` for a function in `V` with annotations `attrs` has the space `TV`, on the mesh `m`, and the
    matrix which is returned by `M`. -/
structure Computes (O : Ops S K) (sem : Sem S K (AllPts dom On → K)) (rest : Nat) (V : S) (attrs : List (String × Nat))
    (m : Nat) (k : Kind) (TV : S) (M : Py (Mat K)) : Prop where
  attr : (attrs.lookup k.attr).isSome
  space : O.space k attrs (O.domain k attrs V) rest = .ok TV
  matrix : O.matrix k attrs (O.domain k attrs V) TV rest = M
  lives : Lives sem m TV

/-- The element of a space on a submesh: degrees of freedom use values on the cell, those of restrictions which are shared by
    cells agree, the basis functions are dual to them, and restrictions of functions in `V` are in their span. -/
structure SubmeshElement (On : Nat → P × Nat → Prop) (V TV : DofMat.Space K (P × Nat)) (parent : Nat → Nat) : Prop where
  wfV : V.WF
  wfT : TV.WF
  linear : TV.LinearDofs
  local_ : ∀ c, c < TV.numCells → ∀ l f f', (∀ x, On c x → f x = f' x) → TV.dofs c l f = TV.dofs c l f'
  shared : ∀ u, Unambiguous V TV (List.range TV.numCells) parent u
  nodal : ∀ c, c < TV.numCells → ∀ l n, l < TV.spaceDim → n < TV.spaceDim →
    TV.dofs c l (TV.basis c n) = if l = n then 1 else 0
  spans : ∀ u c, c < TV.numCells →
    ∃ a : Nat → K, ∀ x, On c x → fnOn V u (parent c) x = ∑ l ∈ range TV.spaceDim, a l * TV.basis c l x

/-- Mean, over the shape at `x` in the direction `n`, of the normal component of the function `u`, which is zero outside of
    the mesh.  A rule has points, weights and normals. -/
def fluxMean (V : DofMat.Space K (P × Nat)) (size : Nat) (collide : P → Nat)
    (rule : P → P → List P × List K × List (Nat → K)) (n : P) (u : Nat → K) (x : P) : K :=
  fluxSum (fun p ν => if collide p < V.numCells then normalAt V size collide u p ν else 0)
    (rule x n).1 (rule x n).2.2 (rule x n).2.1 / (rule x n).2.1.sum

/-- On each cell of the line, the function of the element which has the means of the normal components as values at the points
    of the dofs. -/
def fluxFunction (V : DofMat.Space K (P × Nat)) (size : Nat) (collide : P → Nat)
    (rule : P → P → List P × List K × List (Nat → K)) (L : Line P) (nodal : Nat → Nat → P → K) (u : Nat → K)
    {dom : Nat → Prop} {On : Nat → P × Nat → Prop} : Pts dom On → K := fun p =>
  ∑ i ∈ range (L.cellDofs p.1.1).length,
    fluxMean V size collide rule (L.normal p.1.1) u (L.coords ((L.cellDofs p.1.1).getD i 0)) * nodal p.1.1 i p.1.2.1

/-- The space `V` as the code of patch averages sees it; `int c` is the integral over the cell `c`. -/
def patchSpace (V : DofMat.Space K X) (int : Nat → (X → K) → K) (vol : Nat → K) : Patch.Space K where
  dim := V.dim
  numCells := V.numCells
  cellDofs := V.cellDofs
  vol := vol
  loc c l := int c (V.basis c l)

/-- The mean of the function `u` over the cells with the value `p` of the function `pf`. -/
def meanOver (V : DofMat.Space K X) (int : Nat → (X → K) → K) (vol : Nat → K) (pf : Nat → Nat) (p : Nat) (u : Nat → K) : K :=
  (∑ c ∈ (range V.numCells).filter (fun c => pf c = p), int c (fnOn V u c)) /
    ∑ c ∈ (range V.numCells).filter (fun c => pf c = p), vol c

/-- What a function in `V` with the annotations `attrs`, in the integral `rest` over the mesh `m`, stands for, if its
    coefficients are `u`. -/
inductive Means (O : Ops S K) (sem : Sem S K (AllPts dom On → K)) (sp : S → DofMat.Space K (P × Nat)) (rest : Nat) (V : S)
    (attrs : List (String × Nat)) (m : Nat) : ((Nat → K) → Pts (dom m) (On m) → K) → Prop
  /-- `Trace(u, mesh)`: the restriction to the facets. -/
  | trace {g : Nat} {C : Meshes} {marking : Option (List Nat)} {id : Nat} {side : Nat → Nat} (hC : TraceForm.Conforming C id)
      (hm : (marksOf marking C.numCells).length = C.numCells) (hside : ∀ k, dom m k → FacetOf C id k (side k))
      (h : Traced g O C marking id (onMesh sem m) sp rest V attrs)
      (lives : ∀ TV, O.space .trace attrs (O.domain .trace attrs V) rest = .ok TV → Lives sem m TV) :
      Means O sem sp rest V attrs m (fun u => restriction (sp V) side u)
  /-- `Restriction(u, mesh)`: the restriction to the cells of a submesh. -/
  | restriction {TV : S} {parent : Nat → Nat} {mapping : List (Nat × Nat)}
      (h : Computes O sem rest V attrs m .restriction TV (restrictionMatrix (sp V) (sp TV) mapping))
      (hmap : ∀ t, t < (sp TV).numCells → mapping.lookup t = some (parent t) ∧ parent t < (sp V).numCells)
      (element : SubmeshElement (On m) (sp V) (sp TV) parent) (cells : ∀ c, dom m c → c < (sp TV).numCells)
      (fn : Piecewise (onMesh sem m) TV (sp TV)) :
      Means O sem sp rest V attrs m (fun u p => fnOn (sp V) u (parent p.1.1) p.1.2)
  /-- `Average(u, mesh, shape)`: the means over the shapes. -/
  | average {G : Averages S K P} (h : IsAveraged G O (onMesh sem m) sp rest V attrs)
      (lives : ∀ TV, O.space .average attrs (O.domain .average attrs V) rest = .ok TV → Lives sem m TV) :
      Means O sem sp rest V attrs m (fun u => average G sp rest V attrs u)
  /-- `FluxAverage(u, mesh, shape)`: the means of the normal components over the shapes. -/
  | flux {TV : S} {size : Nat} {L : Line P} {nodal : Nat → Nat → P → K} {collide : P → Nat} {quad : QuadN K P}
      {rule : P → P → List P × List K × List (Nat → K)}
      (h : Computes O sem rest V attrs m .fluxAverage TV
        (fluxAvgMat (sp V) size 1 true true true true true L collide (some quad)))
      (wf : (sp V).WF) (element : LineElement L 1 nodal (sp TV)) (fn : Piecewise (onMesh sem m) TV (sp TV))
      (cells : ∀ t, dom m t → t < L.numCells) (scalar : ∀ t x k, On m t (x, k) → k = 0)
      (hq : ∀ t, t < L.numCells → ∀ d ∈ L.cellDofs t, quad (L.coords d) (L.normal t) = .ok (rule (L.coords d) (L.normal t)) ∧
        (rule (L.coords d) (L.normal t)).1.length = (rule (L.coords d) (L.normal t)).2.1.length ∧
        (rule (L.coords d) (L.normal t)).2.2.length = (rule (L.coords d) (L.normal t)).2.1.length) :
      Means O sem sp rest V attrs m (fun u => fluxFunction (sp V) size collide rule L nodal u)
  /-- `PatchAverage(u, mesh, patches)`: the mean over the patch whose number is the value of the patch function of the line,
      and zero where that is zero. -/
  | patch {TV : S} {int : Nat → (P × Nat → K) → K} {vol : Nat → K} {pf : Nat → Nat} {ids : List Nat} {dof : Nat → Nat}
      (h : Computes O sem rest V attrs m .patchAverage TV (Patch.patchAvg (patchSpace (sp V) int vol) ids.length true pf
        (ids.map (fun p : Nat => (p : K)))))
      (wf : (sp V).WF) (linear : SurfaceMean.LinearIntegral int)
      (patches : ∀ p ∈ ids, p ≠ 0 → ∃ c < (sp V).numCells, pf c = p)
      (dofs : ∀ c, dom m c → dof c < ids.length) (dim : sem.dim TV = ids.length)
      (fn : ∀ i p, sem.basis TV i p = if p.1.1 = m ∧ dof p.1.2.1 = i then 1 else 0) :
      Means O sem sp rest V attrs m (fun u p =>
        if ids.getD (dof p.1.1) 0 = 0 then 0 else meanOver (sp V) int vol pf (ids.getD (dof p.1.1) 0) u)
  /-- `Mean(u)`: the integral over the measure, with the weight. -/
  | mean {TV : S} {int : Nat → (P × Nat → K) → K} {weight : Option (P × Nat → K)} {measure : Option (Mean.Measure K (P × Nat))}
      (h : Computes O sem rest V attrs m .mean TV (Mean.meanMat (sp V) int 1 (weight, measure)))
      (constants : Constants sem m TV) (wf : (sp V).WF)
      (linear : Mean.IsMeasure (sp V).numCells (measure.getD (Mean.allCells (sp V) int))) :
      Means O sem sp rest V attrs m (fun u _ =>
        Mean.integral (measure.getD (Mean.allCells (sp V) int)) (fun c x => fnOn (sp V) u c x * weight.getD (fun _ => 1) x))
  /-- The value of a continuous function at a point given by coordinates (`PointTrace` itself accepts only indices, see
      `Accept.point_lagrange_raises`; the annotation has to be set by hand). -/
  | point {TV : S} {C : Checks} {compDofs : Nat → Nat → List Nat} {TR : PointTrace.Real} {collide : P → Nat}
      {collisions : P → List Nat} {verts : List P} {x : P} {cell : Option Nat}
      (h : Computes O sem rest V attrs m .pointTrace TV
        (pointTraceMat C .fills (sp V) compDofs TR collide collisions verts (.coords C.gdim x) cell))
      (checks : C.real = true ∧ C.sameShape = true ∧ C.sameMesh = true ∧ C.cg = true ∧ C.size = 1)
      (constants : Constants sem m TV) (real : TR.One) (wf : (sp V).WF) (inside : collide x < (sp V).numCells) :
      Means O sem sp rest V attrs m (fun u _ => fnOn (sp V) u (collide x) (x, 0))
  /-- `PointTrace(u, vertex, cell)` of a discontinuous function: the value at the vertex of the function on the cell. -/
  | vertex {TV : S} {C : Checks} {compDofs : Nat → Nat → List Nat} {TR : PointTrace.Real} {collide : P → Nat}
      {collisions : P → List Nat} {verts : List P} {i : Nat} {x : P} {cell : Nat}
      (h : Computes O sem rest V attrs m .pointTrace TV
        (pointTraceMat C .returns (sp V) compDofs TR collide collisions verts (.index i) (some cell)))
      (checks : C.real = true ∧ C.sameShape = true ∧ C.sameMesh = true ∧ C.cg = false ∧ C.dg = true ∧ C.tdim = 1 ∧
        C.scalar = true)
      (constants : Constants sem m TV) (real : TR.One) (wf : (sp V).WF) (isVertex : verts[i]? = some x)
      (isCell : cell < (sp V).numCells) (incident : cell ∈ collisions x)
      (nonzero : ∃ l < (sp V).spaceDim, (sp V).basis cell l (x, 0) ≠ 0) :
      Means O sem sp rest V attrs m (fun u _ => fnOn (sp V) u cell (x, 0))
  /-- `GradientPointTrace(u, vertex, cell)`: the derivative along the tangent at the vertex of the function on the cell. -/
  | derivative {TV : S} {C : Checks} {grad : Nat → Nat → P → Nat → K} {tau : Nat → Nat → K} {TR : PointTrace.Real}
      {collisions : P → List Nat} {verts : List P} {i : Nat} {x : P} {cell : Nat}
      (h : Computes O sem rest V attrs m .gradientPointTrace TV
        (gradientMat C (sp V) grad tau TR collisions verts (.index i) (some cell)))
      (checks : C.real = true ∧ C.sameShape = true ∧ C.sameMesh = true ∧ C.cg = false ∧ C.dg = true ∧ C.tdim = 1 ∧
        C.scalar = true)
      (constants : Constants sem m TV) (real : TR.One) (wf : (sp V).WF) (isVertex : verts[i]? = some x)
      (isCell : cell < (sp V).numCells) (incident : cell ∈ collisions x)
      (nonzero : ∃ l < (sp V).spaceDim, ∃ i < C.gdim, grad cell l x i ≠ 0) :
      Means O sem sp rest V attrs m (fun u _ => dirOn (sp V) C.gdim grad u cell x (tau cell))
  /-- `SurfaceMean(u, mesh)`: the mean over the surface.  `Q` is the space of traces on the surface. -/
  | surfaceMean {TV : S} {g : Nat} {Q : DofMat.Space K (P × Nat)} {D : Trace.Data K (P × Nat) g}
      {int : Nat → (P × Nat → K) → K} {vol : Nat → K} {tiny : Collapse.Tiny K} {fuel : Nat} {R : Mat K}
      {facet cell : Nat → Nat}
      (h : Computes O sem rest V attrs m .surfaceMean TV (.ok R))
      (run : SurfaceMean.surfaceMeanMat tiny (fuel + 2) (sp V) Q D int vol true true true = .ok (.mat R))
      (constants : Constants sem m TV) (wf : (sp V).WF) (wfQ : Q.WF) (linear : Q.LinearDofs)
      (maps : D.map1 = .ok () ∧ D.map2 = .ok () ∧ D.hdivTrace = none ∧ D.marks.length = Q.numCells)
      (dg : Q.isDG = true → Discontinuous Q)
      (hmap : ∀ t, t < Q.numCells → D.mapping.lookup t = some (facet t) ∧
        (D.f2c (facet t)).head? = some (cell t) ∧ cell t < (sp V).numCells)
      (linearInt : SurfaceMean.LinearIntegral int) (area : SurfaceMean.area Q.numCells vol ≠ 0)
      (shared : ∀ u t t', t < Q.numCells → t' < Q.numCells → ∀ l l' d, (Q.cellDofs t)[l]? = some d →
        (Q.cellDofs t')[l']? = some d → Q.dofs t l (fnOn (sp V) u (cell t)) = Q.dofs t' l' (fnOn (sp V) u (cell t')))
      (reproduces : ∀ u t, t < Q.numCells → SurfaceMean.Reproduces Q int t (fnOn (sp V) u (cell t))) :
      Means O sem sp rest V attrs m (fun u _ =>
        SurfaceMean.mean Q.numCells int vol (fun t => fnOn (sp V) u (cell t)))

/-- `R` gives the functions for which annotated functions stand. -/
def Interprets (O : Ops S K) (sem : Sem S K (AllPts dom On → K)) (sp : S → DofMat.Space K (P × Nat))
    (R : Program.Standing S K (AllPts dom On → K)) (rest : Nat) (V : S) (attrs : List (String × Nat)) : Prop :=
  if attrs = [] then ∀ u, R rest V attrs u = Reduced.fn sem V u
  else ∃ m f, Means O sem sp rest V attrs m f ∧ ∀ u, R rest V attrs u = only m (f u)

end Verif.Mixed
