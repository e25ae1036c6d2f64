import Verif.Model.TransposeTrace
/-!
# From `Trace(...)` to the matrix: `xii/assembler/trace_form.py:82-131`, `trace_assembly.py:30-44`,
`trace_matrix.py:33-70`

The trace mesh keeps maps into other meshes from one assembly to the next (`Embedding.TraceMesh`).  The cache of
`trace_mat` is left out (see `Model/Memo.lean`).
-/
namespace Verif.TraceForm
open Verif Verif.DofMat Verif.Trace Verif.Embedding Verif.TransposeTrace
variable {K X : Type}

/-- The argument `tag`: `None`, a number or a collection of numbers.  (Markers are nonnegative; other numbers are
    refused just like those which are no markers.) -/
inductive TagArg where
  | all
  | one (x : Nat)
  | many (xs : List Nat)

/-- trace_form.py:112-117: the check of the given tags; `marking` are the values of `mmesh.marking_function`, `none` if
    there is no such attribute. -/
def checkTags (marking : Option (List Nat)) (tags : List Nat) : Py (List Nat × List Nat) :=
  match marking with
  | none => .error .assertion
  | some m => do
      pyAssert (tags.all (fun x => decide (x ∈ m)))
      .ok (m, tags)

/-- `tag_data`, trace_form.py:111-127: the values of the marking function and the tags; the elements of a set are a
    list without repetitions. -/
def tagData (marking : Option (List Nat)) (numCells : Nat) : TagArg → Py (List Nat × List Nat)
  | .one x => checkTags marking [x]
  | .many xs => checkTags marking xs.dedup
  | .all =>
      match marking with
      | some m => .ok (m, Embedded.npUnique m)
      | none => .ok (List.replicate numCells 0, Embedded.npUnique (List.replicate numCells 0))

/-- A normal: is its element DG0, and its values at the midpoints of the cells. -/
abbrev Normal (g : Nat) := Bool × (Nat → Fin g → ℝ)

/-- The annotation `trace_`, trace_form.py:128-129, without the mesh. -/
structure Annot (g : Nat) where
  type : String
  normal : Option (Normal g)
  tag : List Nat × List Nat

/-- The arguments of `Trace`, and what is asked about the first one and the mesh: `isTerminal` is line 89, `cellOk`
    line 91. -/
structure Args (g : Nat) where
  isTerminal : Bool
  cellOk : Bool
  restriction : String
  normal : Option (Normal g)
  tag : TagArg

/-- `Trace`, trace_form.py:82-131, for a mesh with the marking function `marking` (copies are made in
    `Model/Annotate.lean`). -/
def traceForm {g : Nat} (marking : Option (List Nat)) (numCells : Nat) (a : Args g) : Py (Annot g) := do
  pyAssert a.isTerminal
  pyAssert a.cellOk
  pyAssert (["", "+", "-", "jump", "avg"].contains a.restriction)
  let td ← tagData marking numCells a.tag
  .ok ⟨a.restriction, a.normal, td⟩

/-- `reduction_matrix_data`, trace_assembly.py:30-36. -/
def reductionData {g : Nat} (a : Annot g) : String × Option (Normal g) × (List Nat × List Nat) :=
  (a.type, if a.type = "" then none else a.normal, a.tag)

/-- The branches of trace_matrix.py:57-69. -/
def restr (s : String) : Py Restr :=
  if s = "" then .ok .none
  else if s = "+" then .ok (.one .plus)
  else if s = "-" then .ok (.one .minus)
  else if s = "avg" then .ok (.two .avg)
  else if s = "jump" then .ok (.two .jump)
  else .error .assertion

/-- A call of `get_entity_map` for the mesh `id`: what it raises, and the trace mesh afterwards. -/
def ask (C : Meshes) (id : Nat) (tags : List Nat) (t : TraceMesh) : Py Unit × TraceMesh :=
  match request C id tags t with
  | .ok t' => (.ok (), t')
  | .error e => (.error e, t)

/-- The calls of `get_entity_map`: two without restriction (trace_matrix.py:92, 94), one for one side (280), none for
    two sides. -/
def asks (C : Meshes) (id : Nat) (tags : List Nat) (r : Restr) (t : TraceMesh) : (Py Unit × Py Unit) × TraceMesh :=
  let p := ask C id tags t
  match r with
  | .none =>
      match p.1 with
      | .ok _ => ((p.1, (ask C id tags p.2).1), (ask C id tags p.2).2)
      | .error _ => ((p.1, p.1), p.2)
  | .one _ => ((p.1, p.1), p.2)
  | .two _ => ((.ok (), .ok ()), t)

/-- The checks made before `get_entity_map` is called: trace_matrix.py:47-53 (`compatible`), 59 and 258-259. -/
def reaches {g : Nat} (compatible : Bool) (r : Restr) (normal : Option (Normal g)) : Bool :=
  compatible && match r with
    | .none => true
    | .one _ => match normal with
      | some n => n.1
      | none => false
    | .two _ => false

/-- `trace_mat`, trace_matrix.py:33-70, with the effects on the trace mesh. -/
noncomputable def reduce [CommRing K] {g : Nat} (C : Meshes) (id : Nat) (compatible : Bool) (V TV : Space K X)
    (D : Trace.Data K X g) (r : Restr) (normal : Option (Normal g)) (tag : List Nat × List Nat) (t : TraceMesh) :
    Py (Mat K) × TraceMesh :=
  let C := { C with marks := tag.1 }
  let p := asks C id tag.2 r t
  let D := { D with
    map1 := p.1.1
    map2 := p.1.2
    marks := tag.1
    tags := tag.2
    f2c := (C.topo id).e2c
    mapping := ((p.2.maps.getD []).lookup id).getD [] }
  (traceMat V TV D compatible r ((normal.map Prod.fst).getD false) (normal.map Prod.snd),
    if reaches compatible r normal then p.2 else t)

/-- Annotation and spaces of a trace. -/
structure Call (K X : Type) (g : Nat) where
  args : Args g
  compatible : Bool
  V : Space K X
  TV : Space K X
  D : Trace.Data K X g

/-- `trace_mat` called by the assembler with the data of the annotation, trace_assembly.py:30-44. -/
noncomputable def reduceAnnot [CommRing K] {g : Nat} (C : Meshes) (id : Nat) (c : Call K X g) (a : Annot g)
    (t : TraceMesh) : Py (Mat K) × TraceMesh :=
  match restr (reductionData a).1 with
  | .error e => (.error e, t)
  | .ok r => reduce C id c.compatible c.V c.TV c.D r (reductionData a).2.1 (reductionData a).2.2 t

/-- The matrix for `Trace(v, mmesh, ...)`, with `v` in a space on the mesh `id`, and the trace mesh afterwards. -/
noncomputable def traceCall [CommRing K] {g : Nat} (C : Meshes) (marking : Option (List Nat)) (id : Nat)
    (c : Call K X g) (t : TraceMesh) : Py (Mat K) × TraceMesh :=
  match traceForm marking C.numCells c.args with
  | .error e => (.error e, t)
  | .ok a => reduceAnnot C id c a t

/-- Several traces onto the mesh, one after the other, some of which may raise. -/
noncomputable def afterCalls [CommRing K] {g : Nat} (C : Meshes) (marking : Option (List Nat)) (id : Nat) :
    List (Call K X g) → TraceMesh → TraceMesh
  | [], t => t
  | c :: cs, t => afterCalls C marking id cs (traceCall C marking id c t).2

end Verif.TraceForm
