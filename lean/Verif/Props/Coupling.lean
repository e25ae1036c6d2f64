import Verif.Spec.Coupling
import Verif.Props.TraceForm
import Verif.Props.Reduced
import Verif.Props.Dispatch
/-! # Integrals of traces are integrals of restrictions (C85) -/
namespace Verif.Coupling
open Verif Ufl BlockForm Reduced Dispatch DofMat Trace Embedding TransposeTrace TraceForm Finset

variable {S K X : Type} [DecidableEq S] [CommRing K]

/-- A function in the span of a nodal basis is the sum of its degrees of freedom. -/
theorem interpolates {C : Meshes} {id : Nat} {On : Nat → X → Prop} {V TV : DofMat.Space K X}
    (h : TraceElement C id On V TV) (hL : TV.LinearDofs) {c : Nat} (hc : c < C.numCells) {f : X → K} {a : Nat → K}
    (hf : ∀ x, On c x → f x = ∑ l ∈ range TV.spaceDim, a l * TV.basis c l x) {x : X} (hx : On c x) :
    ∑ l ∈ range TV.spaceDim, TV.dofs c l f * TV.basis c l x = f x := by
  have hsum : ∀ (l n : Nat), n ≤ TV.spaceDim → l < TV.spaceDim →
      TV.dofs c l (fun x => ∑ m ∈ range n, a m * TV.basis c m x) = if l < n then a l else 0 := by
    intro l n
    induction n with
    | zero =>
        intro _ _
        have := hL.smul c l 0 (fun _ => 0)
        simpa using this
    | succ n ih =>
        intro hn hl
        have e : (fun x => ∑ m ∈ range (n + 1), a m * TV.basis c m x) =
            fun x => (∑ m ∈ range n, a m * TV.basis c m x) + a n * TV.basis c n x := by
          funext x; rw [sum_range_succ]
        rw [e, hL.add c l (fun x => ∑ m ∈ range n, a m * TV.basis c m x) (fun x => a n * TV.basis c n x),
          hL.smul c l (a n) (TV.basis c n), ih (by omega) hl, h.nodal c hc l n hl (by omega)]
        by_cases h1 : l < n
        · rw [if_pos h1, if_neg (by omega), if_pos (by omega)]; ring
        · by_cases h2 : l = n
          · rw [if_neg h1, if_pos h2, if_pos (by omega), h2]; ring
          · rw [if_neg h1, if_neg h2, if_neg (by omega)]; ring
  rw [hf x hx]
  refine sum_congr rfl (fun l hl => ?_)
  rw [h.local_ c hc l f _ hf, hsum l _ le_rfl (mem_range.1 hl), if_pos (mem_range.1 hl)]

/-- The function with coefficients `y` in a space of piecewise functions. -/
theorem fn_piecewise {dom : Nat → Prop} {On : Nat → X → Prop} {sem : Sem S K (Pts dom On → K)} {T : S}
    {sp : DofMat.Space K X} (h : Piecewise sem T sp) (hw : sp.WF) (hd : ∀ c, dom c → c < sp.numCells) (y : Nat → K)
    (p : Pts dom On) : Reduced.fn sem T y p = fnOn sp y p.1.1 p.1.2 := by
  have hc := hd _ p.2.1
  rw [Reduced.fn, h.dim, Finset.sum_apply]
  simp only [Pi.smul_apply, smul_eq_mul, h.basis, mul_sum]
  rw [sum_comm]
  refine sum_congr rfl (fun l hl => ?_)
  have hlen := hw.len _ hc
  have hl' : l < (sp.cellDofs p.1.1).length := by rw [hlen]; exact mem_range.1 hl
  have hlt : (sp.cellDofs p.1.1).getD l 0 < sp.dim := by
    rw [List.getD_eq_getElem?_getD, List.getElem?_eq_getElem hl']
    exact hw.lt _ hc _ (List.getElem_mem hl')
  rw [sum_eq_single ((sp.cellDofs p.1.1).getD l 0)]
  · rw [if_pos rfl]
  · intro i _ hi; rw [if_neg (Ne.symm hi), mul_zero]
  · intro hi; exact absurd (mem_range.2 hlt) hi

/-- The matrix of a trace maps a continuous function to its restriction. -/
theorem trace_restricts {g : Nat} {C : Meshes} {marking : Option (List Nat)} {id : Nat} (hC : Conforming C id)
    (hm : (marksOf marking C.numCells).length = C.numCells) {t : TraceMesh} (ht : Prepared C id t)
    (before : List (Call K X g)) {dom : Nat → Prop} {On : Nat → X → Prop} {c : Call K X g}
    (hc : TraceOk C marking id dom On c) {side : Nat → Nat} (hside : ∀ k, dom k → FacetOf C id k (side k)) :
    ∃ M, (traceCall C marking id c (afterCalls C marking id before t)).1 = .ok M ∧ M.rows = c.TV.dim ∧
      M.cols = c.V.dim ∧ ∀ u k x, dom k → On k x → fnOn c.TV (M.act u) k x = fnOn c.V u (side k) x := by
  obtain ⟨M, hM, h1, h2, h3, h4⟩ := trace_localised hC hm ht before hc.isTerminal hc.cellOk hc.compatible hc.noSide hc.legal
    hc.wfV hc.wfT hc.linear hc.noHdiv hc.dg hc.cellsV hc.cellsT
  refine ⟨M, hM, h1, h2, fun u k x hk hx => ?_⟩
  set Sel := c.args.tag.Selects (marksOf marking C.numCells) with hSel
  have hlt : ∀ k, Sel k → k < C.numCells := by
    intro k hs
    rw [← hm]
    by_contra hge
    have hn : (marksOf marking C.numCells)[k]? = none := List.getElem?_eq_none (by omega)
    cases htag : c.args.tag with
    | all => simp only [hSel, htag, TagArg.Selects] at hs; omega
    | one y => simp only [hSel, htag, TagArg.Selects, hn] at hs; cases hs
    | many ys =>
        simp only [hSel, htag, TagArg.Selects, hn] at hs
        obtain ⟨_, _, h⟩ := hs; cases h
  have hfac : ∀ k b, (∃ e, Lies C id k e ∧ ((C.topo id).e2c e).head? = some b) → FacetOf C id k b := by
    rintro k b ⟨e, he, hb⟩
    exact ⟨e, he, List.mem_of_mem_head? hb⟩
  have key : ∀ k b l d, Sel k → (∃ e, Lies C id k e ∧ ((C.topo id).e2c e).head? = some b) →
      (c.TV.cellDofs k)[l]? = some d → M.act u d = c.TV.dofs k l (fnOn c.V u b) := by
    classical
    intro k b l d hk hb hl
    have := h4 u (fun d => if h : ∃ q : Nat × Nat × Nat, Sel q.1 ∧
        (∃ e, Lies C id q.1 e ∧ ((C.topo id).e2c e).head? = some q.2.1) ∧ (c.TV.cellDofs q.1)[q.2.2]? = some d
      then c.TV.dofs h.choose.1 h.choose.2.2 (fnOn c.V u h.choose.2.1) else 0) ?_ ?_ d
    · rw [this]
      have hex : ∃ q : Nat × Nat × Nat, Sel q.1 ∧
        (∃ e, Lies C id q.1 e ∧ ((C.topo id).e2c e).head? = some q.2.1) ∧ (c.TV.cellDofs q.1)[q.2.2]? = some d :=
        ⟨(k, b, l), hk, hb, hl⟩
      rw [dif_pos hex]
      obtain ⟨s1, s2, s3⟩ := hex.choose_spec
      exact hc.element.shared _ _ (hlt _ s1) (hlt _ hk) _ _ d s3 hl _ _ (fun y hy hy' =>
        hc.continuous u _ _ _ _ y (hlt _ s1) (hlt _ hk) (hfac _ _ s2) (hfac _ _ hb) hy hy')
    · intro k' b' l' d' hk' hb' hl'
      have hex : ∃ q : Nat × Nat × Nat, Sel q.1 ∧
        (∃ e, Lies C id q.1 e ∧ ((C.topo id).e2c e).head? = some q.2.1) ∧ (c.TV.cellDofs q.1)[q.2.2]? = some d' :=
        ⟨(k', b', l'), hk', hb', hl'⟩
      rw [dif_pos hex]
      obtain ⟨s1, s2, s3⟩ := hex.choose_spec
      exact hc.element.shared _ _ (hlt _ s1) (hlt _ hk') _ _ d' s3 hl' _ _ (fun y hy hy' =>
        hc.continuous u _ _ _ _ y (hlt _ s1) (hlt _ hk') (hfac _ _ s2) (hfac _ _ hb') hy hy')
    · intro d' hd'
      rw [dif_neg]
      rintro ⟨q, q1, _, q3⟩
      exact hd' q.1 q1 (List.mem_of_getElem? q3)
  have hk' := hc.tags k hk
  obtain ⟨b, hb⟩ := h3 k hk'
  have hkn := hlt k hk'
  have hknT : k < c.TV.numCells := by rw [hc.cellsT]; exact hkn
  obtain ⟨a, ha⟩ := hc.element.spans u k b hkn (hfac k b hb)
  rw [hc.continuous u k k (side k) b x hkn hkn (hside k hk) (hfac k b hb) hx hx,
    ← interpolates hc.element hc.linear hkn ha hx, fnOn]
  refine sum_congr rfl (fun l hl => ?_)
  have hl' : l < (c.TV.cellDofs k).length := by rw [hc.wfT.len k hknT]; exact mem_range.1 hl
  rw [List.getD_eq_getElem?_getD, List.getElem?_eq_getElem hl']
  rw [Option.getD_some, key k b l _ hk' hb (List.getElem?_eq_getElem hl')]

theorem compatible_attr {W : World S} {k : Kind} {rest : Nat} {t : Term S} (h : compatible W k rest t = .ok true) :
    (t.attr k.attr).isSome := by
  have hon : ∀ k, onMesh W rest t k = true → (t.attr k.attr).isSome := by
    intro k h
    unfold onMesh at h
    split at h
    · rename_i v hv; rw [hv]; rfl
    · cases h
  cases k <;> simp only [compatible] at h
  case trace => exact hon .trace (by simpa using h)
  case transposeTrace => simpa [has] using h
  all_goals
    obtain ⟨_, h, _⟩ := py_bind_eq_ok.1 h
    exact pyAssert_eq_ok.1 h

/-- The reduction computed for a traced function gives its restriction. -/
theorem reduced_restriction {g : Nat} {C : Meshes} {marking : Option (List Nat)} {id : Nat} (hC : Conforming C id)
    (hm : (marksOf marking C.numCells).length = C.numCells) {dom : Nat → Prop} {On : Nat → X → Prop}
    {sem : Sem S K (Pts dom On → K)} {sp : S → DofMat.Space K X} {side : Nat → Nat}
    (hside : ∀ k, dom k → FacetOf C id k (side k)) {O : Ops S K} {red : Reduction S K}
    (htab : ∀ k attrs V rest TV T, (attrs.lookup k.attr).isSome →
      O.space k attrs (O.domain k attrs V) rest = .ok TV → O.matrix k attrs (O.domain k attrs V) TV rest = .ok T →
      red attrs V rest = (TV, T) ∧ T.rows = sem.dim TV)
    {rest : Nat} {V : S} {attrs : List (String × Nat)} (htr : Traced g O C marking id sem sp rest V attrs)
    (hne : attrs ≠ []) (x : Nat → K) : reduced sem red rest V attrs x = restriction (sp V) side x := by
  obtain ⟨hattr, TV, c, before, tm, hp, rfl', rfl'', hok, hpw, hsp, hmat⟩ := htr
  obtain ⟨M, hM, hr, _, hres⟩ := trace_restricts hC hm hp before hok hside
  obtain ⟨hred, _⟩ := htab .trace attrs V rest TV M hattr hsp (hmat.trans hM)
  rw [reduced, if_neg hne, hred]
  funext p
  have hlt : ∀ k, dom k → k < (sp TV).numCells := by
    intro k hk
    rw [← rfl'', hok.cellsT, ← hm]
    have hs := hok.tags k hk
    by_contra hge
    have hn : (marksOf marking C.numCells)[k]? = none := List.getElem?_eq_none (by omega)
    cases htag : c.args.tag with
    | all => simp only [htag, TagArg.Selects] at hs; omega
    | one y => simp only [htag, TagArg.Selects, hn] at hs; cases hs
    | many ys =>
        simp only [htag, TagArg.Selects, hn] at hs
        obtain ⟨_, _, h⟩ := hs; cases h
  rw [fn_piecewise hpw (rfl'' ▸ hok.wfT) hlt]
  have := hres x p.1.1 p.1.2 p.2.1 p.2.2
  rw [rfl', rfl''] at this
  exact this

/-- **C85** An assembled tensor stands for the integrals over the trace mesh in which every annotated function is
replaced by its restriction to the trace mesh: `v^T A u` is the sum of the integrals with the restrictions of `v` and
`u`.  All assemblers take part; `red` is the table of all reductions they compute. -/
theorem coupled_integrals {g : Nat} {C : Meshes} {marking : Option (List Nat)} {id : Nat} (hC : Conforming C id)
    (hm : (marksOf marking C.numCells).length = C.numCells) {dom : Nat → Prop} {On : Nat → X → Prop}
    {sem : Sem S K (Pts dom On → K)} {sp : S → DofMat.Space K X} {side : Nat → Nat}
    (hside : ∀ k, dom k → FacetOf C id k (side k)) (W : World S) {O : Ops S K} {red : Reduction S K}
    (htab : ∀ k attrs V rest TV T, (attrs.lookup k.attr).isSome →
      O.space k attrs (O.domain k attrs V) rest = .ok TV → O.matrix k attrs (O.domain k attrs V) TV rest = .ok T →
      red attrs V rest = (TV, T) ∧ T.rows = sem.dim TV)
    {order : List (Term S) → List (Term S)} (ho : ∀ l, (order l).Perm l) {fuel : Nat} {env : Env S K}
    {F : List (Integral S)} (hw : ∀ I ∈ F, WellFormed sem (assemblers W O) I) (hs : SameArguments F)
    (htr : ∀ I ∈ F, ∀ t ∈ terms I.integrand, t.attrs ≠ [] → ∀ V, functionSpace env t = .ok V →
      Traced g O C marking id sem sp I.rest V t.attrs)
    {A : Tensor K} (hA : assemble sem order (assemblers W O) fuel env F = .ok A) (v u : Nat → K) :
    act v u A = total sem F (fun _ => meant sem sp side env v u) := by
  rw [assemble_represents_partial sem (assemblers W O) red ?_ order ho fuel env F A hw hs hA v u]
  · unfold total
    congr 1
    refine List.map_congr_left (fun I hI => ?_)
    congr 1
    refine den_congr sem _ _ _ (fun t ht => ?_)
    have key : ∀ V x, functionSpace env t = .ok V → t.attrs ≠ [] →
        reduced sem red I.rest V t.attrs x = restriction (sp V) side x := fun V x hV hne =>
      reduced_restriction hC hm hside htab (htr I hI t ht hne V hV) hne x
    have hval : ∀ V x, functionSpace env t = .ok V →
        reduced sem red I.rest V t.attrs x = meant.value sem sp side t V x := by
      intro V x hV
      by_cases hne : t.attrs = []
      · rw [reduced, if_pos hne, meant.value, if_pos hne]
      · rw [key V x hV hne, meant.value, if_neg hne]
    obtain ⟨base, attrs⟩ := t
    match base with
    | .argument 0 V => exact hval V v rfl
    | .argument (n + 1) V => exact hval V u rfl
    | .other i =>
        cases he : env i with
        | none => simp only [meaning, meant, he]
        | some q =>
            obtain ⟨V, c'⟩ := q
            simp only [meaning, meant, he]
            exact hval V c' (by simp only [functionSpace, he])
  · intro m hm'
    obtain ⟨k, _, rfl⟩ := List.mem_map.1 hm'
    exact ⟨fun attrs V rest TV T h1 h2 h3 => htab k attrs V rest TV T h1 h2 h3, fun rest t h => compatible_attr h⟩

/-! ## The hypotheses are met: linear elements on two triangles and on two of their edges

Functions are given by their values at the vertices, which are also the points of the quadrature. -/

/-- Linear functions on the triangles 0-1-2, 1-2-3. -/
def bulkP1 : DofMat.Space ℚ Nat where
  dim := 4
  numCells := 2
  spaceDim := 3
  cellDofs c := [[0, 1, 2], [1, 2, 3]].getD c []
  basis c l x := if x = ([[0, 1, 2], [1, 2, 3]].getD c []).getD l 0 then 1 else 0
  dofs c l f := f (([[0, 1, 2], [1, 2, 3]].getD c []).getD l 0)

/-- Linear functions on the edges 1-2, 1-3. -/
def edgeP1 : DofMat.Space ℚ Nat where
  dim := 3
  numCells := 2
  spaceDim := 2
  cellDofs c := [[0, 1], [0, 2]].getD c []
  basis c l x := if x = ([[0, 1], [0, 2]].getD c []).getD l 0 + 1 then 1 else 0
  dofs c l f := f (([[0, 1], [0, 2]].getD c []).getD l 0 + 1)

/-- Vertices of the edges. -/
def vertexOn (c x : Nat) : Prop := ∃ w ∈ [[0, 1], [0, 2]].getD c [], x = w + 1

theorem edges_lies_one {e : Nat} (h : Lies edges 5 1 e) : e = 3 := by
  obtain ⟨he, hl⟩ := h
  obtain ⟨w, hw, h1⟩ := hl.1 0 (by decide)
  obtain ⟨w', hw', h2⟩ := hl.1 2 (by decide)
  rw [edges_dist h1] at hw
  rw [edges_dist h2] at hw'
  change e < 5 at he
  clear hl
  interval_cases e <;> revert hw hw' <;> decide

theorem bulkP1_value {c k x : Nat} (hc : c < edges.numCells) (hk : FacetOf edges 5 c k) (hx : vertexOn c x)
    (u : Nat → ℚ) : fnOn bulkP1 u k x = u x := by
  obtain ⟨e, he, hk⟩ := hk
  obtain ⟨w, hw, rfl⟩ := hx
  change c < 2 at hc
  interval_cases c
  · obtain rfl := edges_lies he
    change k ∈ [0, 1] at hk
    simp at hk hw
    rcases hk with rfl | rfl <;> rcases hw with rfl | rfl <;> simp [fnOn, bulkP1, sum_range_succ]
  · obtain rfl := edges_lies_one he
    change k ∈ [1] at hk
    simp at hk hw
    rcases hk with rfl
    rcases hw with rfl | rfl <;> simp [fnOn, bulkP1, sum_range_succ]

/-- The trace of linear functions on all edges. -/
noncomputable def linearCall : Call ℚ Nat 1 :=
  ⟨⟨true, true, "", none, .all⟩, true, bulkP1, edgeP1, { lineData with hdivTrace := none }⟩

theorem linear_traceOk : TraceOk edges none 5 (· < 2) vertexOn linearCall where
  isTerminal := rfl
  cellOk := rfl
  compatible := rfl
  noSide := rfl
  legal := trivial
  tags k hk := by simpa [linearCall, TagArg.Selects, marksOf, edges] using hk
  wfV := by
    refine ⟨?_, ?_, ?_⟩ <;> · intro c hc; change c < 2 at hc; interval_cases c <;> decide
  wfT := by
    refine ⟨?_, ?_, ?_⟩ <;> · intro c hc; change c < 2 at hc; interval_cases c <;> decide
  linear := ⟨fun _ _ _ _ => rfl, fun _ _ _ _ => rfl⟩
  noHdiv := rfl
  dg h := by cases h
  cellsV := rfl
  cellsT := rfl
  continuous := by
    intro u c c' k k' x hc hc' hk hk' hx hx'
    change fnOn bulkP1 u k x = fnOn bulkP1 u k' x
    rw [bulkP1_value hc hk hx, bulkP1_value hc' hk' hx']
  element := by
    have hon : ∀ c l, c < 2 → vertexOn c (([[0, 1], [0, 2]].getD c []).getD l 0 + 1) := by
      intro c l hc
      interval_cases c <;> match l with
        | 0 => exact ⟨_, by decide, rfl⟩
        | 1 => exact ⟨_, by decide, rfl⟩
        | l + 2 => exact ⟨_, by simp, rfl⟩
    refine ⟨?_, ?_, ?_, ?_⟩
    · intro c hc l f f' h
      exact h _ (hon c l hc)
    · intro c c' hc hc' l l' d h1 h2 f f' h
      change ([[0, 1], [0, 2]].getD c [])[l]? = some d at h1
      change ([[0, 1], [0, 2]].getD c' [])[l']? = some d at h2
      change f (([[0, 1], [0, 2]].getD c []).getD l 0 + 1) = f' (([[0, 1], [0, 2]].getD c' []).getD l' 0 + 1)
      have o1 := hon c l hc
      have o2 := hon c' l' hc'
      rw [List.getD_eq_getElem?_getD, h1] at o1 ⊢
      rw [List.getD_eq_getElem?_getD, h2] at o2 ⊢
      exact h _ o1 o2
    · intro c hc l m hl hm
      change c < 2 at hc
      change l < 2 at hl
      change m < 2 at hm
      interval_cases c <;> interval_cases l <;> interval_cases m <;> simp [linearCall, edgeP1]
    · intro u c k hc hk
      refine ⟨fun l => u (([[0, 1], [0, 2]].getD c []).getD l 0 + 1), fun x hx => ?_⟩
      change fnOn bulkP1 u k x = _
      rw [bulkP1_value hc hk hx]
      obtain ⟨w, hw, rfl⟩ := hx
      change c < 2 at hc
      change _ = ∑ l ∈ range 2, _
      interval_cases c <;> simp at hw <;> rcases hw with rfl | rfl <;> simp [linearCall, edgeP1, sum_range_succ]

/-- Points on the two edges. -/
def pt (c x : Nat) (h : c < 2 ∧ vertexOn c x) : Pts (· < 2) vertexOn := ⟨(c, x), h⟩

/-- Space 7: functions on the triangles, 8: on the edges.  The quadrature uses both ends of the two edges. -/
noncomputable def linearSem : Sem Nat ℚ (Pts (· < 2) vertexOn → ℚ) where
  dim V := if V = 8 then 3 else 4
  basis V i p := if V = 8 then
      ∑ l ∈ range 2, if (edgeP1.cellDofs p.1.1).getD l 0 = i then edgeP1.basis p.1.1 l p.1.2 else 0
    else 0
  op _ l := l.prod
  const _ := 0
  integral _ f := (f (pt 0 1 ⟨by decide, 0, by decide, rfl⟩) + f (pt 0 2 ⟨by decide, 1, by decide, rfl⟩)) / 2 +
    (f (pt 1 1 ⟨by decide, 0, by decide, rfl⟩) + f (pt 1 3 ⟨by decide, 2, by decide, rfl⟩)) / 2

/-- Terminals in space 7 are on the triangles, integral 1 is over the triangles. -/
def linearWorld : World Nat where
  tdim
    | .argument _ 7 => 2
    | .argument _ _ => 1
    | .other _ => -1
  mesh _ := none
  cell _ := true
  idim r := if r = 1 then 2 else 1
  imesh _ := 9
  annotMesh _ := 9

/-- The trace space and the matrix of the trace. -/
noncomputable def linearOps (M : Py (Mat ℚ)) : Ops Nat ℚ where
  domain _ _ V := V
  space _ _ _ _ := .ok 8
  matrix k _ V _ _ := match k with
    | .trace => if V = 7 then M else .error .valueError
    | _ => .error .valueError

/-- The integral of the product of the trace of a test function and a trial function on the edges. -/
def linearForm : List (Integral Nat) :=
  [⟨.node 0 [.term ⟨.argument 0 7, [("trace_", 1)]⟩, .term ⟨.argument 1 8, []⟩], 0⟩]

theorem linear_replace :
    replace (.term ⟨.argument 0 7, [("trace_", 1)]⟩) (.term ⟨.argument 0 8, []⟩) (some ["trace_"])
        (.node 0 [.term ⟨.argument 0 7, [("trace_", 1)]⟩, .term ⟨.argument 1 8, []⟩]) =
        (.node 0 [.term ⟨.argument 0 8, []⟩, .term ⟨.argument 1 8, []⟩] : UExpr Nat) := rfl

theorem linear_component (M : Mat ℚ) (h : M.rows = 3) (asm : Env Nat ℚ → List (Integral Nat) → Py (Tensor ℚ)) {B : Mat ℚ}
    (hB : B.rows = 3)
    (h2 : asm (fun _ => none) [⟨.node 0 [.term ⟨.argument 0 8, []⟩, .term ⟨.argument 1 8, []⟩], 0⟩] = .ok (.mat B)) :
    BlockOps.pyMap (component linearSem id asm (assembler linearWorld (linearOps (.ok M)) .trace) (fun _ => none) 2
      linearForm) linearForm = .ok [[.mat (M.tr.mul B)]] := by
  have a2 : pick (assembler linearWorld (linearOps (.ok M)) .trace) 0 ((id (uniqueTerms (.node 0
      [.term ⟨.argument 0 7, [("trace_", 1)]⟩, .term ⟨.argument 1 8, []⟩]))).filter
      ((assembler linearWorld (linearOps (.ok M)) .trace).needs 0)) = .ok ⟨.argument 0 7, [("trace_", 1)]⟩ := rfl
  have a4 : component linearSem id asm (assembler linearWorld (linearOps (.ok M)) .trace) (fun _ => none) 2 linearForm
        ⟨.node 0 [.term ⟨.argument 0 7, [("trace_", 1)]⟩, .term ⟨.argument 1 8, []⟩], 0⟩ =
        .ok [.mat (M.tr.mul B)] := by
    rw [component, if_pos (show inReduced (assembler linearWorld (linearOps (.ok M)) .trace) linearForm
      ⟨.node 0 [.term ⟨.argument 0 7, [("trace_", 1)]⟩, .term ⟨.argument 1 8, []⟩], 0⟩ = true from rfl)]
    dsimp only
    rw [a2, py_bind_ok]
    simp only [functionSpace, py_bind_ok, assembler, linearOps, Kind.attr]
    rw [linear_replace, h2]
    simp only [py_bind_ok, transposeApply, h, hB, if_true]
  rw [linearForm, BlockOps.pyMap, ← linearForm, a4]
  rfl

theorem linear_assembles (M : Mat ℚ) (h : M.rows = 3) :
    ∃ A, assemble linearSem id (assemblers linearWorld (linearOps (.ok M))) 3 (fun _ => none) linearForm = .ok A := by
  have h1 : arguments linearForm = .ok [(0, 7), (1, 8)] := by decide +kernel
  have h2 : ∀ fuel, ∃ B, B.rows = 3 ∧ assemble linearSem id (assemblers linearWorld (linearOps (.ok M))) (fuel + 1)
      (fun _ => none) [⟨.node 0 [.term ⟨.argument 0 8, []⟩, .term ⟨.argument 1 8, []⟩], 0⟩] = .ok (.mat B) := by
    intro fuel
    have h3 : arguments [(⟨.node 0 [.term ⟨.argument 0 8, []⟩, .term ⟨.argument 1 8, []⟩], 0⟩ : Integral Nat)] =
      .ok [(0, 8), (1, 8)] := by decide +kernel
    rw [assemble_ignores_unrecognised]
    · rw [h3]
      exact ⟨_, rfl, rfl⟩
    · intro m hm I hI
      obtain ⟨k, _, rfl⟩ := List.mem_map.1 hm
      simp only [List.mem_cons, List.not_mem_nil, or_false] at hI
      subst hI
      cases k <;> rfl
  obtain ⟨B, hB, h2⟩ := h2 1
  rw [assemble, h1]
  have h4 := linear_component M h _ hB h2
  refine ⟨.mat (M.tr.mul B), ?_⟩
  rw [py_bind_ok]
  generalize assemble linearSem id (assemblers linearWorld (linearOps (.ok M))) 2 = asm at h4
  rw [show ∀ O : Ops Nat ℚ, assemblers linearWorld O = assembler linearWorld O .trace ::
      kinds.tail.map (assembler linearWorld O) from fun _ => rfl, tryAll,
    if_pos (show linearForm.any (fun I => (assembler linearWorld (linearOps (.ok M)) .trace).selects I.rest I.integrand) =
      true from rfl), assembleWith, show List.length [((0 : Nat), (7 : Nat)), (1, 8)] = 2 from rfl, h4]
  rfl

theorem linear_wellFormed (O : Ops Nat ℚ) : ∀ I ∈ linearForm, WellFormed linearSem (assemblers linearWorld O) I := by
  intro I hI
  simp only [linearForm, List.mem_cons, List.not_mem_nil, or_false] at hI
  subst hI
  refine ⟨?_, ?_, ?_, ?_⟩
  · intro s hs t ht hb
    simp only [terms, termsAll, List.append_nil, List.singleton_append, List.mem_cons, List.not_mem_nil, or_false] at hs ht
    rcases hs with rfl | rfl <;> rcases ht with rfl | rfl <;> simp_all
  · intro t ht hne
    simp only [terms, termsAll, List.append_nil, List.singleton_append, List.mem_cons, List.not_mem_nil, or_false] at ht
    rcases ht with rfl | rfl
    · refine ⟨assembler linearWorld O .trace, by simp [assemblers, kinds], fun e he hc => ?_⟩
      change (true && (uniqueTerms e).any _) = true
      rw [Bool.true_and, List.any_eq_true]
      refine ⟨_, mem_unique hc he, rfl⟩
    · exact absurd rfl hne
  · intro t ht n V hb val
    simp only [terms, termsAll, List.append_nil, List.singleton_append, List.mem_cons, List.not_mem_nil, or_false] at ht
    rcases ht with rfl | rfl
    · constructor
      · intro x y; simp [den, denAll, linearSem]; ring
      · intro c x; simp [den, denAll, linearSem]; ring
    · constructor
      · intro x y; simp [den, denAll, linearSem]; ring
      · intro c x; simp [den, denAll, linearSem]; ring
  · intro t ht n V hb
    simp only [terms, termsAll, List.append_nil, List.singleton_append, List.mem_cons, List.not_mem_nil, or_false] at ht
    rcases ht with rfl | rfl
    · simp only [Base.argument.injEq] at hb; omega
    · simp only [Base.argument.injEq] at hb; omega

/-- The form is assembled, and `v^T A u` is the integral of the restriction of `v` times the function on the edges. -/
example : ∃ A, assemble linearSem id
      (assemblers linearWorld (linearOps (traceCall edges none 5 linearCall ⟨none, none⟩).1)) 3 (fun _ => none)
      linearForm = .ok A ∧
    ∀ v u, act v u A = (v 1 * u 0 + v 2 * u 1) / 2 + (v 1 * u 0 + v 3 * u 2) / 2 := by
  have hside : ∀ k, k < 2 → FacetOf edges 5 k 1 := by
    intro k hk
    obtain ⟨e, he⟩ := edges_conforming.lies k hk
    interval_cases k
    · obtain rfl := edges_lies he
      exact ⟨2, he, by decide⟩
    · obtain rfl := edges_lies_one he
      exact ⟨3, he, by decide⟩
  obtain ⟨M, hM, hr, -⟩ := trace_restricts (g := 1) (marking := none) edges_conforming (by decide) (t := ⟨none, none⟩)
    (.inl ⟨rfl, rfl⟩) [] linear_traceOk (side := fun _ => 1) hside
  change (traceCall edges none 5 linearCall ⟨none, none⟩).1 = .ok M at hM
  obtain ⟨A, hA⟩ := linear_assembles M hr
  rw [hM]
  refine ⟨A, hA, fun v u => ?_⟩
  rw [coupled_integrals (g := 1) (sp := fun V => if V = 7 then bulkP1 else edgeP1) (marking := none)
    (red := fun _ _ _ => (8, M)) edges_conforming (by decide) hside linearWorld ?_ (fun _ => .refl _)
    (linear_wellFormed _) ?_ ?_ hA v u]
  · simp [total, linearForm, den, denAll, linearSem, meant, meant.value, restriction, fnOn, bulkP1, Reduced.fn,
      sum_range_succ, pt, edgeP1]
  · intro k attrs V rest TV T _ h1 h2
    cases h1
    cases k <;> simp only [linearOps] at h2 <;> try cases h2
    split at h2 <;> cases h2
    exact ⟨rfl, hr⟩
  · intro I hI t ht n V hb J hJ
    simp only [linearForm, List.mem_cons, List.not_mem_nil, or_false] at hI hJ
    subst hI; subst hJ
    exact ⟨t, ht, hb⟩
  · intro I hI t ht hne V hV
    simp only [linearForm, List.mem_cons, List.not_mem_nil, or_false] at hI
    subst hI
    simp only [terms, termsAll, List.append_nil, List.singleton_append, List.mem_cons, List.not_mem_nil, or_false] at ht
    rcases ht with rfl | rfl
    · cases hV
      exact ⟨rfl, 8, linearCall, [], ⟨none, none⟩, .inl ⟨rfl, rfl⟩, rfl, rfl, linear_traceOk, ⟨rfl, fun i p => rfl⟩, rfl,
        hM.symm⟩
    · exact absurd rfl hne

end Verif.Coupling
