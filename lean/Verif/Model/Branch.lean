import Verif.Model.Embedded
/-!
# Branches of line meshes (xii/meshing/branching.py)
-/
namespace Verif.Branch
open Verif Verif.BlockOps Verif.Embedded

/-- A mesh of intervals: the vertices of the cells, `c2v`, and the cells of the vertices, `v2c`. -/
structure Line where
  nv : Nat
  nc : Nat
  c2v : Nat → Nat × Nat
  v2c : Nat → List Nat

/-- `next_vertex`, branching.py:38-40 and 124-126. -/
def nextVertex (c2v : Nat → Nat × Nat) (c v : Nat) : Nat :=
  if v = (c2v c).1 then (c2v c).2 else (c2v c).1

/-- `next_cell`, branching.py:42-44 and 128-130; `cells` is `v2c(v)` (`lv2c[v]`), the tuple is unpacked. -/
def nextCell (cells : List Nat) (c : Nat) : Py Nat :=
  match cells with
  | [c0, c1] => .ok (if c = c0 then c1 else c0)
  | _ => .error .valueError

/-- The loop `while next_vertex(link_cell, v0) ..`, branching.py:62-67 and 154-158: the pairs `(link_cell, v0)`
    which are met.  `stop` is the negation of the condition of the loop for the next vertex. -/
def walk (c2v : Nat → Nat × Nat) (inc : Nat → List Nat) (stop : Nat → Bool) : Nat → Nat → Nat → Py (List (Nat × Nat))
  | 0, _, _ => .error .outOfFuel
  | fuel + 1, link, v0 =>
      if stop (nextVertex c2v link v0) then .ok [(link, v0)]
      else do
        let c ← nextCell (inc (nextVertex c2v link v0)) link
        let rest ← walk c2v inc stop fuel c (nextVertex c2v link v0)
        .ok ((link, v0) :: rest)

/-- `terminals`: vertex to the set of its cells still to be left through, branching.py:31. -/
abbrev Terminals := List (Nat × List Nat)

/-- branching.py:31. -/
def terminals (G : Line) : Terminals :=
  ((List.range G.nv).filter (fun v => decide ((G.v2c v).length ≠ 2))).map (fun v => (v, G.v2c v))

/-- `s > t` for python sets: a proper superset. -/
def properSuperset (s t : List Nat) : Bool := t.all (fun x => decide (x ∈ s)) && !(s.all (fun x => decide (x ∈ t)))

/-- `max(terminals, key=lambda v: terminals[v])`, branching.py:51: the first one no later one is greater than. -/
def pyMaxSet : Nat × List Nat → Terminals → Nat × List Nat
  | best, [] => best
  | best, t :: ts => if properSuperset t.2 best.2 then pyMaxSet t ts else pyMaxSet best ts

/-- `c in terminals[v] and terminals[v].remove(c)` (v in terminals). -/
def removeCell (ts : Terminals) (v c : Nat) : Terminals :=
  ts.map (fun p => if p.1 = v then (p.1, p.2.filter (fun x => decide (x ≠ c))) else p)

/-- The variables of `color_branches`. -/
structure State where
  ts : Terminals
  values : List Nat
  color : Nat
  branches : List Nat
  loops : List Nat

/-- One step of the loop `while vertex_cells`, branching.py:56-82, after `link_cell` was popped. -/
def colorStep (G : Line) (st : State) (vertex link : Nat) : Py State := do
  let D ← walk G.c2v G.v2c (fun v => decide (v ∈ st.ts.map (fun p => p.1))) (G.nc + 1) link vertex
  let values ← setAll (st.color + 1) (D.map (fun d => d.1)) st.values
  match D.getLast? with
  | none => .error .unboundLocal
  | some (l, v) =>
      let v0 := nextVertex G.c2v l v
      .ok ⟨removeCell (removeCell (removeCell st.ts vertex link) vertex l) v0 l, values, st.color + 1,
        if v0 = vertex then st.branches else st.branches ++ [st.color + 1],
        if v0 = vertex then st.loops ++ [st.color + 1] else st.loops⟩

/-- `while vertex_cells`, branching.py:56-82.  `pick` says which element `set.pop` returns; it may be different
    in every step. -/
def colorVertex (G : Line) (pick : Nat → List Nat → Nat) (vertex : Nat) : Nat → State → Py State
  | 0, _ => .error .outOfFuel
  | fuel + 1, st =>
      match st.ts.lookup vertex with
      | none => .error .keyError
      | some [] => .ok st
      | some (c :: cs) => do
          let st ← colorStep G st vertex (pick st.color (c :: cs))
          colorVertex G pick vertex fuel st

/-- `while not exhausted`, branching.py:50-82. -/
def colorLoop (G : Line) (pick : Nat → List Nat → Nat) : Nat → State → Py State
  | 0, _ => .error .outOfFuel
  | fuel + 1, st =>
      match st.ts with
      | [] => .error .valueError
      | t :: ts =>
          match pyMaxSet t ts with
          | (_, []) => .ok st
          | (vertex, _ :: _) => do
              let st ← colorVertex G pick vertex (G.nc + 1) st
              colorLoop G pick fuel st

/-- `color_branches`, branching.py:24-84: the colours of the cells, the colours of branches and of loops. -/
def colorBranches (G : Line) (pick : Nat → List Nat → Nat) : Py (List Nat × List Nat × List Nat) :=
  match terminals G with
  | [] => .ok (List.replicate G.nc 1, [], [1])
  | t :: ts => do
      let st ← colorLoop G pick (2 * G.nc + 1) ⟨t :: ts, List.replicate G.nc 0, 0, [], []⟩
      .ok (st.values, st.branches, st.loops)

/-- `lv2c[v]` of `walk_cells`, branching.py:117-120: the marked cells of a vertex. -/
def lv2c (c2v : Nat → Nat × Nat) (cells : List Nat) (v : Nat) : List Nat :=
  cells.filter (fun c => decide (v = (c2v c).1) || decide (v = (c2v c).2))

/-- The keys of `lv2c` in their order, branching.py:9. -/
def lverts (c2v : Nat → Nat × Nat) (cells : List Nat) : List Nat :=
  (cells.flatMap (fun c => [(c2v c).1, (c2v c).2])).reverse.dedup.reverse

/-- The start, the end, the first cell and the vertex `v1` of `walk_cells`, branching.py:132-149.
    In the last line of the second case the set `{v0, v1} - {start}` is unpacked. -/
def walkStart (c2v : Nat → Nat × Nat) (v2c : Nat → List Nat) (cells : List Nat) (isLoop : Bool) :
    Py (Nat × Nat × Nat × Nat) :=
  if isLoop then
    match cells with
    | [] => .error .indexError
    | c :: _ => .ok ((c2v c).1, (c2v c).1, c, (c2v c).2)
  else
    match (lverts c2v cells).filter (fun v => decide ((lv2c c2v cells v).length = 1)) with
    | [a, b] =>
        let s := if (v2c a).length < (v2c b).length then b else a
        let e := if (v2c a).length < (v2c b).length then a else b
        match lv2c c2v cells s with
        | [c] =>
            match [(c2v c).1, (c2v c).2].dedup.filter (fun v => decide (v ≠ s)) with
            | [v1] => .ok (s, e, c, v1)
            | _ => .error .valueError
        | _ => .error .valueError
    | _ => .error .valueError

/-- `walk_cells`, branching.py:115-160; the list of what is yielded. -/
def walkCells (c2v : Nat → Nat × Nat) (v2c : Nat → List Nat) (cellF : List Nat) (tag : Nat) (isLoop : Bool) :
    Py (List (Nat × Bool)) := do
  let cells := whereEq cellF tag
  let (s, e, c, v1) ← walkStart c2v v2c cells isLoop
  let D ← walk c2v (lv2c c2v cells) (fun v => decide (v = e)) (cells.length + 1) c s
  .ok ((c, decide ((c2v c).2 = v1)) :: D.tail.map (fun d => (d.1, decide ((c2v d.1).1 = d.2))))

/-- The vertices of a cell in the order of its orientation. -/
def oriented (c2v : Nat → Nat × Nat) (p : Nat × Bool) : Nat × Nat :=
  if p.2 then c2v p.1 else ((c2v p.1).2, (c2v p.1).1)

/-- `walk_vertices` of a mesh function, branching.py:87-112. `gdim` is the geometric dimension. -/
def walkVertices (c2v : Nat → Nat × Nat) (v2c : Nat → List Nat) (gdim : Nat) (cellF : List Nat) (tag : Nat)
    (isLoop : Bool) : Py (List Nat) := do
  pyAssert (decide (1 < gdim))
  pyAssert (decide (1 < cellF.length))
  let l ← walkCells c2v v2c cellF tag isLoop
  match l with
  | [] => .error .stopIteration
  | p :: ps => .ok ((oriented c2v p).1 :: (oriented c2v p).2 :: ps.map (fun q => (oriented c2v q).2))

end Verif.Branch
