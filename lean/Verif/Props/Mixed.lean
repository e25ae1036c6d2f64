import Verif.Spec.Mixed
import Verif.Props.Assembly
import Verif.Lemmas.Standing
import Verif.Props.AverageForm
import Verif.Props.Flux
import Verif.Props.PointTrace
import Verif.Props.Mean
import Verif.Props.SurfaceMean
import Verif.Props.Patch
import Verif.Props.DofMat
/-! # C103: integrals and variational problems with reductions of several kinds -/
namespace Verif.Mixed
open Verif Ufl BlockOps BlockForm Reduced Dispatch DofMat Trace Embedding TransposeTrace TraceForm Average PointTrace Coupling
  AverageForm Collapse ApplyBc Workflow IIFunction Program Finset

variable {S K P : Type} [DecidableEq S] [Field K] [LinearOrder K] [IsStrictOrderedRing K]
  {dom : Nat → Nat → Prop} {On : Nat → Nat → P × Nat → Prop} {sem : Sem S K (AllPts dom On → K)}
  {sp : S → DofMat.Space K (P × Nat)} {O : Ops S K} {red : Reduction S K}

omit [DecidableEq S] [IsStrictOrderedRing K] in
/-- Functions in a space on the mesh `m`. -/
theorem fn_only {m : Nat} {TV : S} (h : Lives sem m TV) (y : Nat → K) :
    Reduced.fn sem TV y = only m (Reduced.fn (onMesh sem m) TV y) := by
  funext p
  unfold only Reduced.fn
  by_cases hp : p.1.1 = m
  · rw [dif_pos hp, Finset.sum_apply, Finset.sum_apply]
    refine sum_congr rfl (fun i _ => ?_)
    subst hp
    rfl
  · rw [dif_neg hp, Finset.sum_apply]
    refine sum_eq_zero (fun i _ => ?_)
    rw [Pi.smul_apply, h i p hp, smul_zero]

omit [DecidableEq S] [IsStrictOrderedRing K] in
/-- Functions in a space of constants. -/
theorem fn_constant {m : Nat} {TV : S} (h : Lives sem m TV) (h1 : Constants sem m TV) (y : Nat → K) :
    Reduced.fn sem TV y = only m (fun _ => y 0) := by
  rw [fn_only h]
  congr 1
  funext p
  rw [Reduced.fn, Finset.sum_apply]
  change ∑ i ∈ range (sem.dim TV), y i • sem.basis TV i ⟨(m, p.1), p.2⟩ = y 0
  rw [h1.dim, sum_range_one, h1.one _ rfl, smul_eq_mul, mul_one]

omit [IsStrictOrderedRing K] in
/-- The reduced function from the space and the matrix. -/
theorem reduced_computed
    (htab : ∀ k attrs V rest TV T, (attrs.lookup k.attr).isSome →
      O.space k attrs (O.domain k attrs V) rest = .ok TV → O.matrix k attrs (O.domain k attrs V) TV rest = .ok T →
      red attrs V rest = (TV, T) ∧ T.rows = sem.dim TV)
    {rest : Nat} {V : S} {attrs : List (String × Nat)} {m : Nat} {k : Kind} {TV : S} {M : Py (Mat K)} {T : Mat K}
    (h : Computes O sem rest V attrs m k TV M) (hM : M = .ok T) (hne : attrs ≠ []) (u : Nat → K) :
    reduced sem red rest V attrs u = Reduced.fn sem TV (T.act u) := by
  obtain ⟨hred, _⟩ := htab k attrs V rest TV T h.attr h.space (h.matrix.trans hM)
  rw [reduced, if_neg hne, hred]
  rfl

omit [IsStrictOrderedRing K] [LinearOrder K] in
/-- The function whose degrees of freedom are those of a function in the span of the basis. -/
theorem interpolates {On : Nat → P × Nat → Prop} {V TV : DofMat.Space K (P × Nat)} {parent : Nat → Nat}
    (h : SubmeshElement On V TV parent) {c : Nat} (hc : c < TV.numCells) {y : Nat → K} {u : Nat → K}
    (hy : ∀ l d, (TV.cellDofs c)[l]? = some d → y d = TV.dofs c l (fnOn V u (parent c))) {x : P × Nat} (hx : On c x) :
    fnOn TV y c x = fnOn V u (parent c) x := by
  obtain ⟨a, ha⟩ := h.spans u c hc
  have hsum : ∀ l n, n ≤ TV.spaceDim → l < TV.spaceDim →
      TV.dofs c l (fun x => ∑ i ∈ range n, a i * TV.basis c i x) = if l < n then a l else 0 := by
    intro l n
    induction n with
    | zero =>
        intro _ _
        have := h.linear.smul c l 0 (fun _ => 0)
        simpa using this
    | succ n ih =>
        intro hn hl
        have e : (fun x => ∑ i ∈ range (n + 1), a i * TV.basis c i x) =
            fun x => (∑ i ∈ range n, a i * TV.basis c i x) + a n * TV.basis c n x := by
          funext x; rw [sum_range_succ]
        rw [e, h.linear.add c l (fun x => ∑ i ∈ range n, a i * TV.basis c i x) (fun x => a n * TV.basis c n x),
          h.linear.smul c l (a n) (TV.basis c n), ih (by omega) hl, h.nodal c hc l n hl (by omega)]
        by_cases h1 : l < n
        · rw [if_pos h1, if_neg (by omega), if_pos (by omega)]; ring
        · by_cases h2 : l = n
          · rw [if_neg h1, if_pos h2, if_pos (by omega), h2]; ring
          · rw [if_neg h1, if_neg h2, if_neg (by omega)]; ring
  rw [ha x hx, fnOn]
  refine sum_congr rfl (fun l hl => ?_)
  have hl' : l < (TV.cellDofs c).length := by rw [h.wfT.len c hc]; exact mem_range.1 hl
  rw [List.getD_eq_getElem?_getD, List.getElem?_eq_getElem hl', Option.getD_some,
    hy l _ (List.getElem?_eq_getElem hl'), h.local_ c hc l _ _ ha, hsum l _ le_rfl (mem_range.1 hl), if_pos (mem_range.1 hl)]

omit [IsStrictOrderedRing K] in
/-- The mean over a patch. -/
theorem patchMean_eq {V : DofMat.Space K (P × Nat)} (hV : V.WF) {int : Nat → (P × Nat → K) → K}
    (hI : SurfaceMean.LinearIntegral int) (vol : Nat → K) (pf : Nat → Nat) (u : Nat → K) (p : Nat) :
    Patch.patchMean (patchSpace V int vol) pf u p = meanOver V int vol pf p u := by
  have hsum : ∀ n c, int c (fun x => ∑ l ∈ range n, u ((V.cellDofs c).getD l 0) * V.basis c l x) =
      ∑ l ∈ range n, u ((V.cellDofs c).getD l 0) * int c (V.basis c l) := by
    intro n c
    induction n with
    | zero => simpa using hI.smul c 0 (fun _ => 0)
    | succ n ih =>
        simp only [sum_range_succ]
        rw [hI.add c (fun x => ∑ l ∈ range n, u ((V.cellDofs c).getD l 0) * V.basis c l x)
          (fun x => u ((V.cellDofs c).getD n 0) * V.basis c n x), ih, hI.smul c _ (V.basis c n)]
  have hcell : ∀ c, c < V.numCells → Patch.cellIntegral (patchSpace V int vol) u c = int c (fnOn V u c) := by
    intro c hc
    have e : fnOn V u c = fun x => ∑ l ∈ range V.spaceDim, u ((V.cellDofs c).getD l 0) * V.basis c l x := rfl
    rw [e, hsum, Patch.cellIntegral]
    change ((V.cellDofs c).zipIdx.map (fun q => int c (V.basis c q.2) * u q.1)).sum = _
    rw [← hV.len c hc]
    have : ∀ (ds : List Nat) (o : Nat), ((ds.zipIdx o).map (fun q => int c (V.basis c q.2) * u q.1)).sum =
        ∑ l ∈ range ds.length, u (ds.getD l 0) * int c (V.basis c (l + o)) := by
      intro ds
      induction ds with
      | nil => intro o; simp
      | cons d ds ih =>
          intro o
          rw [List.zipIdx_cons, List.map_cons, List.sum_cons, ih, List.length_cons, Finset.sum_range_succ']
          simp only [List.getD_cons_zero, List.getD_cons_succ, Nat.zero_add]
          rw [add_comm, mul_comm]
          congr 1
          exact sum_congr rfl (fun l _ => by rw [show l + 1 + o = l + (o + 1) by omega])
    simpa using this (V.cellDofs c) 0
  rw [Patch.patchMean, meanOver]
  have hl : ∀ g : Nat → K, ((Patch.patch (patchSpace V int vol) pf p).map g).sum =
      ∑ c ∈ (range V.numCells).filter (fun c => pf c = p), g c := by
    intro g
    have hn : ∀ n, (((List.range n).filter (fun c => pf c = p)).map g).sum =
        ∑ c ∈ (range n).filter (fun c => pf c = p), g c := by
      intro n
      induction n with
      | zero => simp
      | succ n ih =>
          rw [List.range_succ, List.filter_append, List.map_append, List.sum_append, ih, sum_filter, sum_filter,
            sum_range_succ]
          congr 1
          by_cases h : pf n = p <;> simp [h]
    exact hn V.numCells
  rw [hl, hl]
  congr 1
  exact sum_congr rfl (fun c hc => hcell c (mem_range.1 (mem_filter.1 hc).1))

/-- What is computed for an annotated function is what it stands for. -/
theorem reduced_means
    (htab : ∀ k attrs V rest TV T, (attrs.lookup k.attr).isSome →
      O.space k attrs (O.domain k attrs V) rest = .ok TV → O.matrix k attrs (O.domain k attrs V) TV rest = .ok T →
      red attrs V rest = (TV, T) ∧ T.rows = sem.dim TV)
    {rest : Nat} {V : S} {attrs : List (String × Nat)} {m : Nat} {f : (Nat → K) → Pts (dom m) (On m) → K}
    (h : Means O sem sp rest V attrs m f) (hne : attrs ≠ []) (u : Nat → K) :
    reduced sem red rest V attrs u = only m (f u) := by
  have htab' : ∀ k attrs V rest TV T, (attrs.lookup k.attr).isSome →
      O.space k attrs (O.domain k attrs V) rest = .ok TV → O.matrix k attrs (O.domain k attrs V) TV rest = .ok T →
      red attrs V rest = (TV, T) ∧ T.rows = (onMesh sem m).dim TV := htab
  cases h with
  | trace hC hm hside h lives =>
      change _ = only m (restriction (sp V) _ u)
      rw [← reduced_restriction hC hm hside htab' h hne u]
      obtain ⟨hattr, TV, c, before, tm, hp, e1, e2, hok, hpw, hsp, hmat⟩ := h
      obtain ⟨M, hM, -, -, -⟩ := trace_restricts hC hm hp before hok hside
      obtain ⟨hred, _⟩ := htab .trace attrs V rest TV M hattr hsp (hmat.trans hM)
      rw [reduced, if_neg hne, hred, reduced, if_neg hne, hred]
      exact fn_only (lives TV hsp) _
  | restriction h hmap element cells fn =>
      rename_i TV parent mapping
      obtain ⟨M, hM, hE⟩ := restriction_evaluates_dofs element.wfV element.wfT element.linear hmap
      rw [reduced_computed htab h hM hne, fn_only h.lives]
      congr 1
      funext p
      rw [fn_piecewise fn element.wfT cells]
      have hc := cells _ p.2.1
      exact interpolates element hc (fun l d hl => hE.all (element.shared u) (t := p.1.1) (by simpa using hc) hl) p.2.2
  | average h lives =>
      change _ = only m (average _ sp rest V attrs u)
      rw [← reduced_average htab' h hne u]
      obtain ⟨hattr, TV, rfl, hV, hsize, hel, hpw, hdom, hOn, hsp, quad, isCG, isDG0, cell3d, hquad, hmat⟩ := h
      obtain ⟨M, hM, -⟩ := average_general hV hsize hel.dofs (quad := quad) hquad
      obtain ⟨hred, _⟩ := htab .average attrs V rest _ M hattr hsp (hmat.trans hM)
      rw [reduced, if_neg hne, hred, reduced, if_neg hne, hred]
      exact fn_only (lives _ hsp) _
  | flux h wf element fn cells scalar hq =>
      rename_i TV size L nodal collide quad rule
      obtain ⟨M, hM, -, -, hact⟩ := flux_is_mean_partial wf size element.dofs (collide := collide) (quad := quad)
        (pts := fun t d => (rule (L.coords d) (L.normal t)).1) (ws := fun t d => (rule (L.coords d) (L.normal t)).2.1)
        (ns := fun t d => (rule (L.coords d) (L.normal t)).2.2) hq
      rw [reduced_computed htab h hM hne, fn_only h.lives]
      congr 1
      funext p
      change _ = fluxFunction (sp V) size collide rule L nodal u p
      have ht := cells _ p.2.1
      have h0 : p.1.2.2 = 0 := scalar _ _ _ p.2.2
      rw [fn_piecewise fn element.wf (fun c hc => element.cells ▸ cells c hc),
        show p.1.2 = (p.1.2.1, p.1.2.2) from rfl, element.fn _ _ _ _ ht (by omega), fluxFunction, h0]
      refine sum_congr rfl (fun i hi => ?_)
      have hi' := mem_range.1 hi
      have hd : (L.cellDofs p.1.1).getD i 0 ∈ L.cellDofs p.1.1 := by
        rw [List.getD_eq_getElem?_getD, List.getElem?_eq_getElem hi']
        exact List.getElem_mem hi'
      rw [Nat.add_zero, hact _ ht _ hd u, fluxMean]
  | patch h wf linear patches dofs dim fn =>
      rename_i TV int vol pf ids dof
      have hwf : (patchSpace (sp V) int vol).WF := ⟨wf.lt⟩
      obtain ⟨M, hM, -, -, hact⟩ := Patch.patch_average hwf (pf := pf) (ids := ids) rfl (fun p hp h0 => by
        obtain ⟨c, hc, hpf⟩ := patches p hp h0
        exact List.ne_nil_of_mem (a := c) (List.mem_filter.2 ⟨List.mem_range.2 hc, by simpa using hpf⟩))
      rw [reduced_computed htab h hM hne, fn_only h.lives]
      congr 1
      funext p
      have hd := dofs _ p.2.1
      rw [Reduced.fn, Finset.sum_apply]
      change ∑ i ∈ range (sem.dim TV), M.act u i • sem.basis TV i ⟨(m, p.1), p.2⟩ = _
      rw [dim, sum_eq_single (dof p.1.1)]
      · beta_reduce
        rw [fn, if_pos ⟨rfl, rfl⟩, smul_eq_mul, mul_one, hact (dof p.1.1) (ids[dof p.1.1]) (List.getElem?_eq_getElem hd),
          patchMean_eq wf linear, List.getD_eq_getElem?_getD, List.getElem?_eq_getElem hd, Option.getD_some]
      · intro i _ hi
        rw [fn, if_neg (fun h => hi h.2.symm), smul_zero]
      · intro hi; exact absurd (mem_range.2 hd) hi
  | mean h constants wf linear =>
      rename_i TV int weight measure
      obtain ⟨M, hM, -, -, hact⟩ := Mean.mean_integrates wf (data := (weight, measure)) linear
      rw [reduced_computed htab h hM hne, fn_constant h.lives constants, hact]
  | point h checks constants real wf inside =>
      rename_i TV C compDofs TR collide collisions verts x cell
      obtain ⟨c1, c2, c3, c4, c5⟩ := checks
      obtain ⟨M, hM, -, -, hact⟩ := cg_scalar_value_partial wf real inside compDofs
      rw [reduced_computed htab h (T := M) ?_ hne, fn_constant h.lives constants, hact]
      rw [pointTraceMat, c1, c2, c3, c5]
      simp only [pyAssert_true, py_bind_ok, c4, if_true, atPoint, decide_true]
      exact hM
  | vertex h checks constants real wf isVertex isCell incident nonzero =>
      rename_i TV C compDofs TR collide collisions verts i x cell
      obtain ⟨c1, c2, c3, c4, c5, c6, c7⟩ := checks
      obtain ⟨M, hM, -, -, hact⟩ := dg_value wf real isCell incident nonzero
      rw [reduced_computed htab h (T := M) ?_ hne, fn_constant h.lives constants, hact]
      rw [pointTraceMat, c1, c2, c3, c5, c7]
      have hv : pyGet verts i = .ok x := by simp [pyGet, isVertex]
      simp only [pyAssert_true, py_bind_ok, c4, c6, decide_true, atVertex, hv]
      exact hM
  | derivative h checks constants real wf isVertex isCell incident nonzero =>
      rename_i TV C grad tau TR collisions verts i x cell
      obtain ⟨c1, c2, c3, c4, c5, c6, c7⟩ := checks
      obtain ⟨M, hM, -, -, hact⟩ := gradient_value wf real tau isCell incident nonzero
      rw [reduced_computed htab h (T := M) ?_ hne, fn_constant h.lives constants, hact]
      rw [gradientMat, c1, c2, c3, c5, c7]
      have hv : pyGet verts i = .ok x := by simp [pyGet, isVertex]
      simp only [pyAssert_true, py_bind_ok, c4, c6, decide_true, atVertex, hv]
      exact hM
  | surfaceMean h run constants wf wfQ linear maps dg hmap linearInt area shared reproduces =>
      rename_i TV g Q D int vol tiny fuel R facet cell
      obtain ⟨m1, m2, m3, m4⟩ := maps
      obtain ⟨R', hR, -, -, hact⟩ := SurfaceMean.surface_mean_is_mean wf wfQ linear m1 m2 m3 m4 dg hmap linearInt area tiny fuel
      have : R' = R := by rw [run] at hR; cases hR; rfl
      subst this
      rw [reduced_computed htab h rfl hne, fn_constant h.lives constants, hact u (shared u) (reproduces u)]

theorem reduced_interprets
    (htab : ∀ k attrs V rest TV T, (attrs.lookup k.attr).isSome →
      O.space k attrs (O.domain k attrs V) rest = .ok TV → O.matrix k attrs (O.domain k attrs V) TV rest = .ok T →
      red attrs V rest = (TV, T) ∧ T.rows = sem.dim TV)
    {R : Program.Standing S K (AllPts dom On → K)} {rest : Nat} {V : S} {attrs : List (String × Nat)}
    (h : Interprets O sem sp R rest V attrs) : reduced sem red rest V attrs = R rest V attrs := by
  funext u
  by_cases hne : attrs = []
  · rw [Interprets, if_pos hne] at h
    rw [reduced, if_pos hne, h]
  · rw [Interprets, if_neg hne] at h
    obtain ⟨m, f, hm, hf⟩ := h
    rw [reduced_means htab hm hne, hf]

/-- **C103** A form whose functions are annotated with reductions of any kinds, to any meshes, is assembled to the tensor of
the integrals in which every annotated function is replaced by what it stands for: its restriction, its averages, its integral,
its value at the point and so on. -/
theorem mixed_integrals (W : World S)
    (htab : ∀ k attrs V rest TV T, (attrs.lookup k.attr).isSome →
      O.space k attrs (O.domain k attrs V) rest = .ok TV → O.matrix k attrs (O.domain k attrs V) TV rest = .ok T →
      red attrs V rest = (TV, T) ∧ T.rows = sem.dim TV)
    {order : List (Term S) → List (Term S)} (ho : ∀ l, (order l).Perm l) {fuel : Nat} {env : Env S K}
    {F : List (Integral S)}
    (hF : ∀ I ∈ F, Assembly.Assemblable sem W O env I ∧ Linear sem I ∧ annotated I.integrand < fuel)
    (hs : SameArguments F) (hal : Assembly.AnnotatedAlike F) {R : Program.Standing S K (AllPts dom On → K)}
    (hR : ∀ I ∈ F, ∀ t ∈ terms I.integrand, ∀ V, functionSpace env t = .ok V → Interprets O sem sp R I.rest V t.attrs) :
    ∃ A, assemble sem order (assemblers W O) (fuel + 1) env F = .ok A ∧ Assembly.SizesOf sem F A ∧
      ∀ v u, act v u A = total sem F (fun I => mixed sem R env (fun _ => v) (fun _ => u) I.rest) := by
  obtain ⟨A, hA, hsz⟩ := Assembly.assembly_returns order ho (fun I hI => (hF I hI).1) hs hal (fun I hI => (hF I hI).2.2)
  exact ⟨A, hA, hsz, fun v u => Program.assembled_standing W htab ho
    (fun I hI => Assembly.assemblable_wellFormed (hF I hI).1 (hF I hI).2.1) hs
    (fun I hI t ht V hV => reduced_interprets htab (hR I hI t ht V hV)) hA v u⟩

/-- **C103** A program which adds such forms to block forms, assembles, sets boundary conditions and solves, returns the solution
of the variational problem in which annotated functions are what they stand for. -/
theorem mixed_forms {R : Program.Standing S K (AllPts dom On → K)} (hR0 : ∀ rest V x, R rest V [] x = Reduced.fn sem V x)
    (W : World S)
    (htab : ∀ k attrs V rest TV T, (attrs.lookup k.attr).isSome →
      O.space k attrs (O.domain k attrs V) rest = .ok TV → O.matrix k attrs (O.domain k attrs V) TV rest = .ok T →
      red attrs V rest = (TV, T) ∧ T.rows = sem.dim TV ∧ T.cols = sem.dim V)
    {order : List (Term S) → List (Term S)} (ho : ∀ l, (order l).Perm l) {fuel : Nat} {env : Env S K} {V : List S}
    (hV : V ≠ []) (hnd : V.Nodup) {null : S → List (Integral S)}
    (hn : Program.NullForms sem R env (assemblers W O) V null) {as Ls : List (List (Integral S))}
    (had : Program.Added V as Ls)
    (hasm : ∀ I ∈ as.flatten ++ Ls.flatten, Assembly.Assemblable sem W O env I ∧ Linear sem I ∧ annotated I.integrand < fuel)
    (hnull : ∀ Q ∈ V, ∀ I ∈ null Q, Assembly.Assemblable sem W O env I ∧ annotated I.integrand < fuel)
    (hala : Assembly.AnnotatedAlike as.flatten) (halL : ∀ Q ∈ V, Assembly.AnnotatedAlike (null Q ++ Ls.flatten))
    (hR : ∀ f ∈ as ++ Ls, ∀ I ∈ f, ∀ t ∈ terms I.integrand, ∀ V, functionSpace env t = .ok V →
      Interprets O sem sp R I.rest V t.attrs)
    (tiny : Collapse.Tiny K) {solve : Workflow.Solver K} (hs : Workflow.Exact solve) (hreg : Workflow.SolvesRegular solve)
    {bcs : BcArg K} {data : List (List (Nat × K))}
    (hbc : BcsAre V.length bcs data) (hr : InRange (V.map sem.dim) data) {diag : K} (hd : diag ≠ 0) (sym : Bool)
    {U : List IIFunction.Space} (hU : U.map (fun s => s.dim) = V.map sem.dim)
    (huniq : ∃! xs, Program.VariationalSolution sem R env V as.flatten Ls.flatten data xs) (h : IIFunction.Heap K) :
    ∃ f, ∀ k, f ≤ k → ∃ fs h',
      Program.formProgram sem order (assemblers W O) (fuel + 1) env null V as Ls tiny k solve bcs diag sym U h = .ok (fs, h') ∧
      fs.map (fun f => f.space) = U ∧
        Program.VariationalSolution sem R env V as.flatten Ls.flatten data (vectors h' fs) ∧
        ∀ p, p < h.next → h'.vec p = h.vec p :=
  Program.forms_run hR0 W htab ho hV hnd hn had hasm hnull hala halL
    (fun f hf I hI t ht V hV => reduced_interprets (fun k attrs V rest TV T h1 h2 h3 =>
      ⟨(htab k attrs V rest TV T h1 h2 h3).1, (htab k attrs V rest TV T h1 h2 h3).2.1⟩) (hR f hf I hI t ht V hV))
    tiny hs hreg hbc hr hd sym hU huniq h

section example_

def jumpDom (m c : Nat) : Prop := m = 0 ∧ c < 2

def jumpOn (_ c : Nat) (p : ℚ × Nat) : Prop := (c : ℚ) ≤ p.1 ∧ p.1 ≤ c + 1 ∧ p.2 = 0

def jumpPt (c : Nat) (h : c < 2) : AllPts jumpDom jumpOn :=
  ⟨(0, c, ((c : ℚ) + 1 / 2, 0)), ⟨rfl, h⟩, by linarith, by linarith, rfl⟩

/-- Discontinuous linear functions on two cells, number 0, and constants, number 1; integrals by the midpoint rule. -/
noncomputable def jumpSem : Sem Nat ℚ (AllPts jumpDom jumpOn → ℚ) where
  dim V := if V = 1 then 1 else 4
  basis V i p := if V = 1 then 1 else
    ∑ l ∈ range 2, if (dgLine.cellDofs p.1.2.1).getD l 0 = i then dgLine.basis p.1.2.1 l p.1.2.2 else 0
  op _ l := l.prod
  const _ := 0
  integral _ f := f (jumpPt 0 (by omega)) + f (jumpPt 1 (by omega))

def jumpWorld : World Nat where
  tdim
    | .argument _ _ => 1
    | .other _ => -1
  mesh
    | .argument _ _ => some 9
    | .other _ => none
  cell _ := true
  idim _ := 1
  imesh _ := 9
  annotMesh _ := 9

/-- The trapezoidal rule on a cell. -/
def jumpInt (c : Nat) (f : ℚ × Nat → ℚ) : ℚ := (f (c, 0) + f (c + 1, 0)) / 2

def jumpChecks : Checks := ⟨false, true, true, true, true, 1, 1, 1, true⟩

/-- Values at the second vertex from the first cell, and integrals. -/
noncomputable def jumpOps : Ops Nat ℚ where
  domain _ _ V := V
  space _ _ _ _ := .ok 1
  matrix k attrs V _ _ := if V ≠ 0 then .error .valueError else
    if k = .pointTrace ∧ attrs = [("dirac_", 1)] then
      pointTraceMat jumpChecks .returns dgLine (fun _ _ => []) ⟨1, fun _ => [0]⟩ (fun _ => 0) (fun _ => [0, 1]) [0, 1, 2]
        (.index 1) (some 0)
    else if k = .mean ∧ attrs = [("mean_", 2)] then Mean.meanMat dgLine jumpInt 1 (none, none)
    else .error .valueError

/-- `∫ D v M u`. -/
def jumpForm : List (Integral Nat) :=
  [⟨.node 0 [.term ⟨.argument 0 0, [("dirac_", 1)]⟩, .term ⟨.argument 1 0, [("mean_", 2)]⟩], 0⟩]

/-- What the functions stand for: the value from the left at the vertex, and the integral. -/
noncomputable def jumpR : Program.Standing Nat ℚ (AllPts jumpDom jumpOn → ℚ) := fun _ V attrs u =>
  if attrs = [] then Reduced.fn jumpSem V u
  else if attrs = [("dirac_", 1)] then only 0 (fun _ => fnOn dgLine u 0 (1, 0))
  else only 0 (fun _ => Mean.integral (Mean.allCells dgLine jumpInt) (fun c x => fnOn dgLine u c x * 1))

theorem jump_lives : Lives jumpSem 0 1 := fun i p hp => absurd p.2.1.1 hp

theorem jump_constants : Constants jumpSem 0 1 := ⟨rfl, fun p _ => rfl⟩

theorem jump_measure : Mean.IsMeasure dgLine.numCells (Mean.allCells dgLine jumpInt) := by
  refine ⟨fun p hp => ?_, fun p hp f g => ?_, fun p hp a f => ?_⟩ <;> obtain ⟨c, hc, rfl⟩ := List.mem_map.1 hp
  · exact List.mem_range.1 hc
  · simp only [jumpInt]; ring
  · simp only [jumpInt]; ring

theorem jump_value (rest : Nat) : Interprets jumpOps jumpSem (fun _ => dgLine) jumpR rest 0 [("dirac_", 1)] := by
  rw [Interprets, if_neg (by simp)]
  refine ⟨0, _, .vertex (TV := 1) (C := jumpChecks) (compDofs := fun _ _ => []) (TR := ⟨1, fun _ => [0]⟩)
    (collide := fun _ => 0) (collisions := fun _ => [0, 1]) (verts := [0, 1, 2]) (i := 1) (x := 1) (cell := 0)
    ⟨rfl, rfl, ?_, jump_lives⟩ ⟨rfl, rfl, rfl, rfl, rfl, rfl, rfl⟩ jump_constants ⟨rfl, fun _ => rfl⟩ dgLine_wf rfl
    (by simp [dgLine]) (by simp) ⟨1, by simp [dgLine], by simp [dgLine]⟩, fun u => ?_⟩
  · simp [jumpOps]
  · rw [jumpR, if_neg (by simp), if_pos rfl]

theorem jump_integral (rest : Nat) : Interprets jumpOps jumpSem (fun _ => dgLine) jumpR rest 0 [("mean_", 2)] := by
  rw [Interprets, if_neg (by simp)]
  refine ⟨0, _, .mean (TV := 1) (int := jumpInt) (weight := none) (measure := none) ⟨rfl, rfl, ?_, jump_lives⟩
    jump_constants dgLine_wf jump_measure, fun u => ?_⟩
  · simp [jumpOps]
  · rw [jumpR, if_neg (by simp), if_neg (by simp)]
    rfl

theorem jump_interprets : ∀ I ∈ jumpForm, ∀ t ∈ terms I.integrand, ∀ V, functionSpace (fun _ => none : Env Nat ℚ) t = .ok V →
    Interprets jumpOps jumpSem (fun _ => dgLine) jumpR I.rest V t.attrs := by
  intro I hI t ht V hV
  simp only [jumpForm, List.mem_singleton] at hI
  subst hI
  simp [terms, termsAll] at ht
  rcases ht with rfl | rfl
  · cases hV
    exact jump_value _
  · cases hV
    exact jump_integral _

theorem jump_assemblable : ∀ I ∈ jumpForm, Assembly.Assemblable jumpSem jumpWorld jumpOps (fun _ => none) I := by
  intro I hI
  simp only [jumpForm, List.mem_singleton] at hI
  subst hI
  have hk : ∀ {t : Term Nat} {k l : Kind} {v : Nat}, t.attrs = [(l.attr, v)] → Assembly.Fits jumpWorld 0 t k → k = l := by
    rintro t k l v h ⟨w, hw, _⟩
    rw [h] at hw
    simp only [List.cons.injEq, Prod.mk.injEq] at hw
    exact (Assembly.attr_inj hw.1.1).symm
  have hset : ∀ n V, Assembly.Settled jumpWorld 0 ⟨.argument n V, []⟩ := fun n V =>
    ⟨rfl, le_refl _, fun m h => by simp [jumpWorld] at h ⊢; omega⟩
  have hf : ∀ {t : Term Nat} {k : Kind}, t ∈ terms (.node 0 [.term ⟨.argument 0 0, [("dirac_", 1)]⟩,
      .term ⟨.argument 1 0, [("mean_", 2)]⟩] : UExpr Nat) → Assembly.Fits jumpWorld 0 t k →
      (k = .pointTrace ∧ t = ⟨.argument 0 0, [("dirac_", 1)]⟩) ∨ (k = .mean ∧ t = ⟨.argument 1 0, [("mean_", 2)]⟩) := by
    intro t k ht h
    simp [terms, termsAll] at ht
    rcases ht with rfl | rfl
    · exact .inl ⟨hk (l := .pointTrace) rfl h, rfl⟩
    · exact .inr ⟨hk (l := .mean) rfl h, rfl⟩
  refine ⟨?_, ?_, ?_, ?_, ?_, ?_, ?_, ?_, fun i => ⟨rfl, by simp [jumpWorld], fun m h => by simp [jumpWorld] at h⟩⟩
  · intro s hs t ht hb
    simp [terms, termsAll] at hs ht
    rcases hs with rfl | rfl <;> rcases ht with rfl | rfl <;> simp_all
  · intro t ht n V hb
    simp [terms, termsAll] at ht
    rcases ht with rfl | rfl <;> simp at hb <;> omega
  · intro s hs t ht n V Q hV hQ
    simp [terms, termsAll] at hs ht
    rcases hs with rfl | rfl <;> rcases ht with rfl | rfl <;> simp at hV hQ <;> omega
  · intro t ht V hb
    exact ⟨⟨.argument 0 0, [("dirac_", 1)]⟩, by simp [terms, termsAll], 0, rfl⟩
  · intro t ht
    simp [terms, termsAll] at ht
    rcases ht with rfl | rfl
    · exact .inr ⟨.pointTrace, 1, rfl, trivial⟩
    · exact .inr ⟨.mean, 2, rfl, trivial⟩
  · intro t ht k hk h
    rcases hf ht h with ⟨rfl, _⟩ | ⟨rfl, _⟩ <;> rcases hk with h | h <;> cases h
  · intro s hs t ht h
    rcases hf hs h with ⟨h, _⟩ | ⟨h, _⟩ <;> cases h
  · intro t ht k h
    rcases hf ht h with ⟨rfl, rfl⟩ | ⟨rfl, rfl⟩
    · obtain ⟨M, hM, hr, hc, -⟩ := dg_value dgLine_wf (TV := ⟨1, fun _ => [0]⟩) ⟨rfl, fun _ => rfl⟩
        (collisions := fun _ => [0, 1]) (x := 1) (cell := 0) (by simp [dgLine]) (by simp) ⟨1, by simp [dgLine], by simp [dgLine]⟩
      refine ⟨0, 1, M, .inl ⟨0, rfl⟩, rfl, ?_, hr, hc, fun n => hset n 1⟩
      simp only [jumpOps, ne_eq, not_true_eq_false, if_false, and_self, if_true]
      exact hM
    · obtain ⟨M, hM, hr, hc, -⟩ := Mean.mean_integrates dgLine_wf (data := (none, none)) jump_measure
      refine ⟨0, 1, M, .inl ⟨1, rfl⟩, rfl, ?_, hr, hc, fun n => hset n 1⟩
      simpa [jumpOps] using hM

theorem jump_linear : ∀ I ∈ jumpForm, Linear jumpSem I := by
  intro I hI
  simp only [jumpForm, List.mem_singleton] at hI
  subst hI
  intro t ht n V hb val
  simp [terms, termsAll] at ht
  refine ⟨fun a b => ?_, fun c a => ?_⟩ <;> rcases ht with rfl | rfl <;>
    simp [den, denAll, jumpSem] <;> ring

/-- The spaces and matrices of the reductions. -/
noncomputable def jumpRed : Reduction Nat ℚ := fun attrs _ _ => (1,
  if attrs = [("dirac_", 1)] then match jumpOps.matrix .pointTrace [("dirac_", 1)] 0 1 0 with
    | .ok M => M
    | .error _ => Mat.of 0 0 (fun _ _ => 0)
  else match jumpOps.matrix .mean [("mean_", 2)] 0 1 0 with
    | .ok M => M
    | .error _ => Mat.of 0 0 (fun _ _ => 0))

theorem jump_dirac : ∃ M, jumpOps.matrix .pointTrace [("dirac_", 1)] 0 1 0 = .ok M ∧ M.rows = 1 ∧ M.cols = 4 := by
  obtain ⟨M, hM, hr, hc, -⟩ := dg_value dgLine_wf (TV := ⟨1, fun _ => [0]⟩) ⟨rfl, fun _ => rfl⟩
    (collisions := fun _ => [0, 1]) (x := 1) (cell := 0) (by simp [dgLine]) (by simp) ⟨1, by simp [dgLine], by simp [dgLine]⟩
  refine ⟨M, ?_, hr, hc⟩
  simp only [jumpOps, ne_eq, not_true_eq_false, if_false, and_self, if_true]
  exact hM

theorem jump_mean : ∃ M, jumpOps.matrix .mean [("mean_", 2)] 0 1 0 = .ok M ∧ M.rows = 1 ∧ M.cols = 4 := by
  obtain ⟨M, hM, hr, hc, -⟩ := Mean.mean_integrates dgLine_wf (data := (none, none)) jump_measure
  exact ⟨M, by simpa [jumpOps] using hM, hr, hc⟩

theorem jump_table (k : Kind) (attrs : List (String × Nat)) (V rest TV : Nat) (T : Mat ℚ) (_ : (attrs.lookup k.attr).isSome)
    (h1 : jumpOps.space k attrs (jumpOps.domain k attrs V) rest = .ok TV)
    (h2 : jumpOps.matrix k attrs (jumpOps.domain k attrs V) TV rest = .ok T) :
    jumpRed attrs V rest = (TV, T) ∧ T.rows = jumpSem.dim TV ∧ T.cols = jumpSem.dim V := by
  cases h1
  by_cases hV : V = 0
  · subst hV
    by_cases hp : k = .pointTrace ∧ attrs = [("dirac_", 1)]
    · obtain ⟨rfl, rfl⟩ := hp
      change jumpOps.matrix .pointTrace [("dirac_", 1)] 0 1 0 = .ok T at h2
      obtain ⟨M, hM, hr, hc⟩ := jump_dirac
      refine ⟨by rw [jumpRed, if_pos rfl, h2], ?_⟩
      rw [h2] at hM
      cases hM
      exact ⟨hr, hc⟩
    · by_cases hm : k = .mean ∧ attrs = [("mean_", 2)]
      · obtain ⟨rfl, rfl⟩ := hm
        change jumpOps.matrix .mean [("mean_", 2)] 0 1 0 = .ok T at h2
        obtain ⟨M, hM, hr, hc⟩ := jump_mean
        refine ⟨by rw [jumpRed, if_neg (by simp), h2], ?_⟩
        rw [h2] at hM
        cases hM
        exact ⟨hr, hc⟩
      · exfalso
        simp only [jumpOps, ne_eq, not_true_eq_false, if_false, if_neg hp, if_neg hm] at h2
        cases h2
  · exfalso
    simp only [jumpOps, ne_eq, hV, not_false_eq_true, if_true] at h2
    cases h2

/-- The form is assembled to `vᵀ A u = v₁ (u₀ + u₁ + u₂ + u₃)`. -/
example (order : List (Term Nat) → List (Term Nat)) (ho : ∀ l, (order l).Perm l) :
    ∃ A, assemble jumpSem order (assemblers jumpWorld jumpOps) 4 (fun _ => none) jumpForm = .ok A ∧
      ∀ v u, act v u A = v 1 * (u 0 + u 1 + u 2 + u 3) := by
  obtain ⟨A, hA, _, hact⟩ := mixed_integrals (O := jumpOps) (red := jumpRed) jumpWorld (fun k attrs V rest TV T a b c =>
      ⟨(jump_table k attrs V rest TV T a b c).1, (jump_table k attrs V rest TV T a b c).2.1⟩) ho (fuel := 3) (F := jumpForm)
    (fun I hI => ⟨jump_assemblable I hI, jump_linear I hI, by
      simp only [jumpForm, List.mem_singleton] at hI
      subst hI
      decide⟩)
    (by
      intro I hI t ht n V hb J hJ
      simp only [jumpForm, List.mem_singleton] at hI hJ
      subst hI hJ
      exact ⟨t, ht, hb⟩)
    (by
      intro I hI J hJ hr s hs t ht hb
      simp only [jumpForm, List.mem_singleton] at hI hJ
      subst hI hJ
      simp [terms, termsAll] at hs ht
      rcases hs with rfl | rfl <;> rcases ht with rfl | rfl <;> simp_all)
    jump_interprets
  refine ⟨A, hA, fun v u => ?_⟩
  rw [hact]
  simp [total, jumpForm, den, denAll, mixed, jumpR, jumpSem, only, jumpPt, Mean.integral, Mean.allCells, jumpInt, fnOn, dgLine,
    sum_range_succ, List.range_succ]
  ring

/-- `∫ μ λ`. -/
def jumpMass : List (Integral Nat) := [⟨.node 0 [.term ⟨.argument 0 1, []⟩, .term ⟨.argument 1 1, []⟩], 0⟩]

/-- `∫ μ D w M z`. -/
def jumpData : List (Integral Nat) :=
  [⟨.node 0 [.term ⟨.argument 0 1, []⟩, .term ⟨.other 0, [("dirac_", 1)]⟩, .term ⟨.other 2, [("mean_", 2)]⟩], 0⟩]

/-- `∫ 0 v`. -/
def jumpNull (V : Nat) : List (Integral Nat) := [⟨.node 0 [.term ⟨.other 4, []⟩, .term ⟨.argument 0 V, []⟩], 0⟩]

/-- The functions `w` and `z`. -/
def jumpEnv (w z : Nat → ℚ) : Env Nat ℚ := fun i => if i = 0 then some (0, w) else if i = 2 then some (0, z) else none

theorem jump_terms {I : Integral Nat} (h : I ∈ jumpMass ∨ I ∈ jumpData ∨ ∃ V, I ∈ jumpNull V) {t : Term Nat}
    (ht : t ∈ terms I.integrand) :
    (t.attrs = [] ∧ ((∃ n ≤ 1, ∃ V, t.base = .argument n V) ∨ t.base = .other 4)) ∨ t = ⟨.other 0, [("dirac_", 1)]⟩ ∨
      t = ⟨.other 2, [("mean_", 2)]⟩ := by
  rcases h with h | h | ⟨V, h⟩
  · simp only [jumpMass, List.mem_singleton] at h
    subst h
    simp [terms, termsAll] at ht
    rcases ht with rfl | rfl
    · exact .inl ⟨rfl, .inl ⟨0, by omega, _, rfl⟩⟩
    · exact .inl ⟨rfl, .inl ⟨1, by omega, _, rfl⟩⟩
  · simp only [jumpData, List.mem_singleton] at h
    subst h
    simp [terms, termsAll] at ht
    rcases ht with rfl | rfl | rfl
    · exact .inl ⟨rfl, .inl ⟨0, by omega, _, rfl⟩⟩
    · exact .inr (.inl rfl)
    · exact .inr (.inr rfl)
  · simp only [jumpNull, List.mem_singleton] at h
    subst h
    simp [terms, termsAll] at ht
    rcases ht with rfl | rfl
    · exact .inl ⟨rfl, .inr rfl⟩
    · exact .inl ⟨rfl, .inl ⟨0, by omega, _, rfl⟩⟩

theorem jump_settled (rest : Nat) (b : Base Nat) : Assembly.Settled jumpWorld rest ⟨b, []⟩ := by
  refine ⟨rfl, ?_, fun m h => ?_⟩
  · cases b <;> simp [jumpWorld]
  · cases b <;> simp [jumpWorld] at h ⊢
    omega

theorem jump_program_assemblable (w z : Nat → ℚ) {I : Integral Nat}
    (h : I ∈ jumpMass ∨ I ∈ jumpData ∨ ∃ V, I ∈ jumpNull V) :
    Assembly.Assemblable jumpSem jumpWorld jumpOps (jumpEnv w z) I := by
  have hk : ∀ {t : Term Nat} {k l : Kind} {v : Nat}, t.attrs = [(l.attr, v)] → Assembly.Fits jumpWorld I.rest t k → k = l := by
    rintro t k l v h ⟨w, hw, _⟩
    rw [h] at hw
    simp only [List.cons.injEq, Prod.mk.injEq] at hw
    exact (Assembly.attr_inj hw.1.1).symm
  have hf : ∀ {t : Term Nat} {k : Kind}, t ∈ terms I.integrand → Assembly.Fits jumpWorld I.rest t k →
      (k = .pointTrace ∧ t = ⟨.other 0, [("dirac_", 1)]⟩) ∨ (k = .mean ∧ t = ⟨.other 2, [("mean_", 2)]⟩) := by
    intro t k ht hfit
    rcases jump_terms h ht with ⟨h0, _⟩ | rfl | rfl
    · exact absurd hfit (Assembly.settled_not_fits h0)
    · exact .inl ⟨hk (l := .pointTrace) rfl hfit, rfl⟩
    · exact .inr ⟨hk (l := .mean) rfl hfit, rfl⟩
  have hrest : Consistent I.integrand ∧
      (∀ s ∈ terms I.integrand, ∀ t ∈ terms I.integrand, ∀ n V Q, s.base = .argument n V → t.base = .argument n Q → V = Q) ∧
      (∀ t ∈ terms I.integrand, ∀ V, t.base = .argument 1 V → ∃ s ∈ terms I.integrand, ∃ Q, s.base = .argument 0 Q) := by
    clear hf hk
    rcases h with h | h | ⟨V, h⟩
    · simp only [jumpMass, List.mem_singleton] at h
      subst h
      refine ⟨?_, ?_, ?_⟩ <;> simp [Consistent, terms, termsAll]
    · simp only [jumpData, List.mem_singleton] at h
      subst h
      refine ⟨?_, ?_, ?_⟩ <;> simp [Consistent, terms, termsAll]
    · simp only [jumpNull, List.mem_singleton] at h
      subst h
      refine ⟨?_, ?_, ?_⟩ <;> simp [Consistent, terms, termsAll]
  refine ⟨hrest.1, ?_, hrest.2.1, hrest.2.2, ?_, ?_, ?_, ?_, fun i => jump_settled _ _⟩
  · intro t ht n V hb
    rcases jump_terms h ht with ⟨_, ⟨m, hm, Q, h0⟩ | h0⟩ | rfl | rfl
    · rw [h0] at hb; cases hb; exact hm
    · rw [h0] at hb; cases hb
    · cases hb
    · cases hb
  · intro t ht
    rcases jump_terms h ht with ⟨h0, _⟩ | rfl | rfl
    · obtain ⟨b, a⟩ := t
      cases h0
      exact .inl (jump_settled _ _)
    · exact .inr ⟨.pointTrace, 1, rfl, trivial⟩
    · exact .inr ⟨.mean, 2, rfl, trivial⟩
  · intro t ht k hk h
    rcases hf ht h with ⟨rfl, _⟩ | ⟨rfl, _⟩ <;> rcases hk with h | h <;> cases h
  · intro s hs t ht h
    rcases hf hs h with ⟨h, _⟩ | ⟨h, _⟩ <;> cases h
  · intro t ht k h
    rcases hf ht h with ⟨rfl, rfl⟩ | ⟨rfl, rfl⟩
    · obtain ⟨M, hM, hr, hc⟩ := jump_dirac
      exact ⟨0, 1, M, .inr ⟨0, w, rfl, rfl⟩, rfl, hM, hr, hc, fun n => jump_settled _ _⟩
    · obtain ⟨M, hM, hr, hc⟩ := jump_mean
      exact ⟨0, 1, M, .inr ⟨2, z, rfl, rfl⟩, rfl, hM, hr, hc, fun n => jump_settled _ _⟩

theorem jump_program_linear {I : Integral Nat} (h : I ∈ jumpMass ∨ I ∈ jumpData ∨ ∃ V, I ∈ jumpNull V) :
    Linear jumpSem I := by
  rcases h with h | h | ⟨V, h⟩
  · simp only [jumpMass, List.mem_singleton] at h
    subst h
    intro t ht n V hb val
    simp [terms, termsAll] at ht
    refine ⟨fun a b => ?_, fun c a => ?_⟩ <;> rcases ht with rfl | rfl <;> simp [den, denAll, jumpSem] <;> ring
  · simp only [jumpData, List.mem_singleton] at h
    subst h
    intro t ht n V hb val
    simp [terms, termsAll] at ht
    refine ⟨fun a b => ?_, fun c a => ?_⟩ <;> rcases ht with rfl | rfl | rfl <;> simp at hb <;>
      simp [den, denAll, jumpSem] <;> ring
  · simp only [jumpNull, List.mem_singleton] at h
    subst h
    intro t ht n V hb val
    simp [terms, termsAll] at ht
    refine ⟨fun a b => ?_, fun c a => ?_⟩ <;> rcases ht with rfl | rfl <;> simp at hb <;>
      simp [den, denAll, jumpSem] <;> ring

theorem jumpNull_ok (w z : Nat → ℚ) :
    NullForms jumpSem jumpR (jumpEnv w z) (assemblers jumpWorld jumpOps) [1] jumpNull where
  arguments V := by
    refine ⟨by simp [jumpNull], fun I hI => ?_⟩
    simp only [jumpNull, List.mem_singleton] at hI
    subst hI
    refine ⟨⟨⟨.argument 0 V, []⟩, by simp [terms, termsAll], rfl⟩, fun t ht Q hb => ?_⟩
    simp [terms, termsAll] at ht
    rcases ht with rfl | rfl <;> simp at hb
    exact hb.symm
  linear V _ I hI t ht Q hb := by
    simp only [jumpNull, List.mem_singleton] at hI
    subst hI
    simp [terms, termsAll] at ht
    rcases ht with rfl | rfl <;> simp at hb
  wellFormed V _ I hI := Assembly.assemblable_wellFormed (jump_program_assemblable w z (.inr (.inr ⟨V, hI⟩)))
    (jump_program_linear (.inr (.inr ⟨V, hI⟩)))
  plain V _ I hI t ht := by
    simp only [jumpNull, List.mem_singleton] at hI
    subst hI
    simp [terms, termsAll] at ht
    rcases ht with rfl | rfl <;> rfl
  zero V _ v u := by simp [total, jumpNull, den, denAll, mixed, jumpEnv, jumpSem]

theorem jump_added : Added [1] [jumpMass] [jumpData] := by
  constructor
  · intro f hf
    simp only [List.mem_singleton] at hf
    subst hf
    refine ⟨by simp [jumpMass], fun I hI => ⟨0, 0, 1, 1, ?_⟩⟩
    simp only [jumpMass, List.mem_singleton] at hI
    subst hI
    refine ⟨⟨⟨_, by simp [terms, termsAll]; left; rfl, rfl⟩, ?_⟩, ⟨⟨_, by simp [terms, termsAll]; right; rfl, rfl⟩, ?_⟩,
      ⟨rfl, by simp⟩, ⟨rfl, by simp⟩⟩ <;>
    · intro t ht Q hb
      simp [terms, termsAll] at ht
      rcases ht with rfl | rfl <;> simp at hb <;> omega
  · intro f hf
    simp only [List.mem_singleton] at hf
    subst hf
    refine ⟨by simp [jumpData], fun I hI => ⟨0, 1, ?_⟩⟩
    simp only [jumpData, List.mem_singleton] at hI
    subst hI
    refine ⟨⟨⟨_, by simp [terms, termsAll]; left; rfl, rfl⟩, ?_⟩, ?_, ⟨rfl, by simp⟩⟩ <;>
    · intro t ht Q hb
      simp [terms, termsAll] at ht
      rcases ht with rfl | rfl | rfl <;> simp at hb
      try omega

theorem jump_variational (w z : Nat → ℚ) (x : List (List ℚ)) :
    VariationalSolution jumpSem jumpR (jumpEnv w z) [1] [jumpMass].flatten [jumpData].flatten [] x ↔
      x = [[w 1 * ((z 0 + z 1 + z 2 + z 3) / 2)]] := by
  have hl : ∀ v y, total jumpSem [jumpMass].flatten (fun I => mixed jumpSem jumpR (jumpEnv w z) v y I.rest) =
      2 * (v 1 0 * y 1 0) := by
    intro v y
    simp [total, jumpMass, den, denAll, mixed, jumpR, jumpSem, Reduced.fn]
    ring
  have hr : ∀ v : Nat → Nat → ℚ, total jumpSem [jumpData].flatten (fun I => mixed jumpSem jumpR (jumpEnv w z) v 0 I.rest) =
      2 * (v 1 0 * (w 1 * ((z 0 + z 1 + z 2 + z 3) / 2))) := by
    intro v
    simp [total, jumpData, den, denAll, mixed, jumpR, jumpEnv, jumpSem, Reduced.fn, only, jumpPt, Mean.integral, Mean.allCells,
      jumpInt, fnOn, dgLine, sum_range_succ, List.range_succ]
    ring
  have hdim : [1].map jumpSem.dim = [1] := rfl
  have hc : ∀ a : List ℚ, coeffs [1] [a] 1 = fnOf a := fun a => rfl
  constructor
  · rintro ⟨h1, h2, h3⟩
    rw [hdim] at h1
    match x, h1 with
    | [[x0]], _ =>
        have r := h3 (fun _ _ => 1) (by
          intro k Q j hQ hp
          simp [prescribed, lastVal] at hp)
        rw [hl, hr, hc] at r
        simp [fnOf] at r
        rw [r]
  · rintro rfl
    refine ⟨rfl, fun k d x hx => by simp [prescribed, lastVal] at hx, fun v _ => ?_⟩
    rw [hl, hr, hc]
    simp [fnOf]

/-- The program returns the product of the value and the integral. -/
example (order : List (Term Nat) → List (Term Nat)) (ho : ∀ l, (order l).Perm l) (w z : Nat → ℚ) (h : Heap ℚ) :
    ∃ f, ∀ k, f ≤ k → ∃ fs h', formProgram jumpSem order (assemblers jumpWorld jumpOps) 4 (jumpEnv w z) jumpNull [1]
        [jumpMass] [jumpData] noTiny k oracle .none 1 true [⟨0, 1⟩] h = .ok (fs, h') ∧
      vectors h' fs = [[w 1 * ((z 0 + z 1 + z 2 + z 3) / 2)]] := by
  obtain ⟨f, hf⟩ := mixed_forms (R := jumpR) (sp := fun _ => dgLine) (fun rest V x => by rw [jumpR, if_pos rfl]) jumpWorld
    jump_table ho (fuel := 3) (by simp) (by simp) (jumpNull_ok w z) jump_added
    (fun I hI => by
      have h0 : I ∈ jumpMass ∨ I ∈ jumpData ∨ ∃ V, I ∈ jumpNull V := by
        simp only [List.flatten_cons, List.flatten_nil, List.append_nil, List.mem_append] at hI
        tauto
      refine ⟨jump_program_assemblable w z h0, jump_program_linear h0, ?_⟩
      simp only [List.flatten_cons, List.flatten_nil, List.append_nil, List.mem_append] at hI
      rcases hI with h | h <;> simp only [jumpMass, jumpData, List.mem_singleton] at h <;> subst h <;> decide)
    (fun Q hQ I hI => ⟨jump_program_assemblable w z (.inr (.inr ⟨Q, hI⟩)), by
      simp only [jumpNull, List.mem_singleton] at hI
      subst hI
      simp [annotated, terms, termsAll]⟩)
    (by
      intro I hI J hJ hr s hs t ht hb
      simp [jumpMass] at hI hJ
      subst hI hJ
      simp [terms, termsAll] at hs ht
      rcases hs with rfl | rfl <;> rcases ht with rfl | rfl <;> simp_all)
    (by
      intro Q hQ I hI J hJ hr s hs t ht hb
      simp at hQ
      subst hQ
      simp [jumpNull, jumpData] at hI hJ
      rcases hI with rfl | rfl <;> rcases hJ with rfl | rfl <;> simp [terms, termsAll] at hs ht <;> grind)
    (by
      intro f hf I hI t ht V hV
      have h0 : I ∈ jumpMass ∨ I ∈ jumpData ∨ ∃ V, I ∈ jumpNull V := by
        simp only [List.cons_append, List.nil_append, List.mem_cons, List.not_mem_nil, or_false] at hf
        rcases hf with rfl | rfl <;> tauto
      rcases jump_terms h0 ht with ⟨h1, _⟩ | rfl | rfl
      · rw [Interprets, if_pos h1]
        intro u
        rw [jumpR, if_pos h1]
      · cases hV
        exact jump_value _
      · cases hV
        exact jump_integral _)
    noTiny oracle_exact oracle_regular .none (fun k d v n h1 h2 => by simp at h1) (diag := 1) one_ne_zero true
    (U := [⟨0, 1⟩]) rfl ⟨_, (jump_variational w z _).2 rfl, fun y hy => (jump_variational w z y).1 hy⟩ h
  refine ⟨f, fun k hk => ?_⟩
  obtain ⟨fs, h', hrun, _, hsol, _⟩ := hf k hk
  exact ⟨fs, h', hrun, (jump_variational w z _).1 hsol⟩

end example_

end Verif.Mixed
