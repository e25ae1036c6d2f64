import Verif.Spec.AverageForm
import Verif.Lemmas.Standing
import Verif.Props.Average
/-! # C100: integrals and variational problems with averages -/
namespace Verif.AverageForm
open Verif Ufl BlockOps BlockForm Reduced Dispatch DofMat Average Coupling Collapse ApplyBc Workflow IIFunction Program Finset

section general
variable {S K P : Type} [DecidableEq S] [Field K] {dom : Nat → Prop} {On : Nat → P × Nat → Prop}
  {sem : Sem S K (Pts dom On → K)} {sp : S → DofMat.Space K (P × Nat)} {G : Averages S K P}

/-- The reduction computed for an annotated function gives its average. -/
theorem reduced_average {O : Ops S K} {red : Reduction S K}
    (htab : ∀ k attrs V rest TV T, (attrs.lookup k.attr).isSome →
      O.space k attrs (O.domain k attrs V) rest = .ok TV → O.matrix k attrs (O.domain k attrs V) TV rest = .ok T →
      red attrs V rest = (TV, T) ∧ T.rows = sem.dim TV)
    {rest : Nat} {V : S} {attrs : List (String × Nat)} (h : IsAveraged G O sem sp rest V attrs)
    (hne : attrs ≠ []) (x : Nat → K) : reduced sem red rest V attrs x = average G sp rest V attrs x := by
  obtain ⟨hattr, TV, rfl, hV, hsize, hel, hpw, hdom, hOn, hsp, quad, isCG, isDG0, cell3d, hquad, hmat⟩ := h
  set TV := G.target attrs V rest
  obtain ⟨M, hM, -, -, hact, -⟩ := average_general hV hsize hel.dofs (collide := G.collide V)
    (quad := quad)
    (pts := fun t d => (G.rule attrs ((G.line TV).coords d) ((G.line TV).normal t)).1)
    (ws := fun t d => (G.rule attrs ((G.line TV).coords d) ((G.line TV).normal t)).2)
    hquad
  have hM' : O.matrix .average attrs (O.domain .average attrs V) TV rest = .ok M := hmat.trans hM
  obtain ⟨hred, _⟩ := htab .average attrs V rest TV M hattr hsp hM'
  rw [reduced, if_neg hne, hred]
  funext p
  have ht := hdom _ p.2.1
  rw [fn_piecewise hpw hel.wf (fun c hc => hel.cells ▸ hdom c hc)]
  rw [show p.1.2 = (p.1.2.1, p.1.2.2) from rfl, hel.fn _ _ _ _ ht (hOn _ p.1.2.1 p.1.2.2 p.2.2), average]
  refine sum_congr rfl (fun i hi => ?_)
  have hi' := mem_range.1 hi
  have hd : ((G.line TV).cellDofs p.1.1).getD i 0 ∈ (G.line TV).cellDofs p.1.1 := by
    rw [List.getD_eq_getElem?_getD, List.getElem?_eq_getElem hi']
    exact List.getElem_mem hi'
  exact congrArg (· * _) (hact _ ht _ hd _ (hOn _ p.1.2.1 p.1.2.2 p.2.2) x)

theorem reduced_averaged {O : Ops S K} {red : Reduction S K}
    (htab : ∀ k attrs V rest TV T, (attrs.lookup k.attr).isSome →
      O.space k attrs (O.domain k attrs V) rest = .ok TV → O.matrix k attrs (O.domain k attrs V) TV rest = .ok T →
      red attrs V rest = (TV, T) ∧ T.rows = sem.dim TV)
    {rest : Nat} {V : S} {attrs : List (String × Nat)} (h : attrs ≠ [] → IsAveraged G O sem sp rest V attrs) :
    reduced sem red rest V attrs = averaged G sem sp rest V attrs := by
  funext x
  by_cases hne : attrs = []
  · rw [reduced, if_pos hne, averaged, if_pos hne]
  · rw [reduced_average htab (h hne) hne, averaged, if_neg hne]

/-- **C100** An assembled tensor stands for the integrals over the line in which every annotated function is replaced by its
average over the shapes. -/
theorem averaged_integrals (W : World S) {O : Ops S K} {red : Reduction S K}
    (htab : ∀ k attrs V rest TV T, (attrs.lookup k.attr).isSome →
      O.space k attrs (O.domain k attrs V) rest = .ok TV → O.matrix k attrs (O.domain k attrs V) TV rest = .ok T →
      red attrs V rest = (TV, T) ∧ T.rows = sem.dim TV)
    {order : List (Term S) → List (Term S)} (ho : ∀ l, (order l).Perm l) {fuel : Nat} {env : Env S K}
    {F : List (Integral S)} (hw : ∀ I ∈ F, WellFormed sem (assemblers W O) I) (hs : SameArguments F)
    (hav : ∀ I ∈ F, ∀ t ∈ terms I.integrand, t.attrs ≠ [] → ∀ V, functionSpace env t = .ok V →
      IsAveraged G O sem sp I.rest V t.attrs)
    {A : Tensor K} (hA : assemble sem order (assemblers W O) fuel env F = .ok A) (v u : Nat → K) :
    act v u A = total sem F (fun I => mixed sem (averaged G sem sp) env (fun _ => v) (fun _ => u) I.rest) :=
  assembled_standing W htab ho hw hs
    (fun I hI t ht V hV => reduced_averaged htab (fun hne => hav I hI t ht hne V hV)) hA v u

/-- **C100** A program which adds forms with averages to block forms, assembles and solves them, returns functions which
solve the variational problem with the averages over the shapes; and it returns when the problem has one solution. -/
theorem averaged_forms (W : World S) {O : Ops S K} {red : Reduction S K}
    (htab : ∀ k attrs V rest TV T, (attrs.lookup k.attr).isSome →
      O.space k attrs (O.domain k attrs V) rest = .ok TV → O.matrix k attrs (O.domain k attrs V) TV rest = .ok T →
      red attrs V rest = (TV, T) ∧ T.rows = sem.dim TV ∧ T.cols = sem.dim V)
    {order : List (Term S) → List (Term S)} (ho : ∀ l, (order l).Perm l) {fuel : Nat} {env : Env S K} {V : List S}
    (hV : V ≠ []) {null : S → List (Integral S)}
    (hn : NullForms sem (averaged G sem sp) env (assemblers W O) V null) {as Ls : List (List (Integral S))}
    (hf : ∀ f ∈ as ++ Ls, ∀ I ∈ f, WellFormed sem (assemblers W O) I ∧
      ∀ t ∈ terms I.integrand, t.attrs ≠ [] → ∀ V, functionSpace env t = .ok V → IsAveraged G O sem sp I.rest V t.attrs)
    (tiny : Tiny K) {solve : Solver K} (hs : Exact solve) {bcs : BcArg K} {data : List (List (Nat × K))}
    (hbc : BcsAre V.length bcs data) (hr : InRange (V.map sem.dim) data) {diag : K} (hd : diag ≠ 0) (sym : Bool)
    {U : List IIFunction.Space} (hU : U.map (fun s => s.dim) = V.map sem.dim) (h : Heap K) :
    (∃ f, ∀ k, f ≤ k → ∀ fs h',
      formProgram sem order (assemblers W O) fuel env null V as Ls tiny k solve bcs diag sym U h = .ok (fs, h') →
      fs.map (fun f => f.space) = U ∧
        VariationalSolution sem (averaged G sem sp) env V as.flatten Ls.flatten data (vectors h' fs) ∧
        ∀ p, p < h.next → h'.vec p = h.vec p) ∧
    (V.Nodup → Added V as Ls → ForForms (history (addOne2 V) (start2 V) as) (history (addOne1 V) (start1 null V) Ls)
        (fun F => ∃ t, assemble sem order (assemblers W O) fuel env F = .ok t) → SolvesRegular solve →
      (∃! xs, VariationalSolution sem (averaged G sem sp) env V as.flatten Ls.flatten data xs) →
      ∃ f, ∀ k, f ≤ k → ∃ r,
        formProgram sem order (assemblers W O) fuel env null V as Ls tiny k solve bcs diag sym U h = .ok r) :=
  forms_standing (fun rest V x => by rw [averaged, if_pos rfl]) W htab ho hV hn (fun f hf' I hI => (hf f hf' I hI).1)
    (fun f hf' I hI t ht Q hQ => reduced_averaged
      (fun k attrs V rest TV T h1 h2 h3 => ⟨(htab k attrs V rest TV T h1 h2 h3).1, (htab k attrs V rest TV T h1 h2 h3).2.1⟩)
      (fun hne => (hf f hf' I hI).2 t ht hne Q hQ))
    tiny hs hbc hr hd sym hU h

/-- The average is the mean at every point of the cell, when the mean is in the span of the nodal functions there. -/
theorem average_is_shapeMean {rest : Nat} {V : S} {attrs : List (String × Nat)} (u : Nat → K) (p : Pts dom On)
    (hdual : ∀ i j, i < ((G.line (G.target attrs V rest)).cellDofs p.1.1).length →
      j < ((G.line (G.target attrs V rest)).cellDofs p.1.1).length →
      G.nodal (G.target attrs V rest) p.1.1 j ((G.line (G.target attrs V rest)).coords
        (((G.line (G.target attrs V rest)).cellDofs p.1.1).getD i 0)) = if i = j then 1 else 0)
    (hspan : ∃ a : Nat → K, ∀ x, (x = p.1.2.1 ∨
        ∃ d ∈ (G.line (G.target attrs V rest)).cellDofs p.1.1, x = (G.line (G.target attrs V rest)).coords d) →
      shapeMean (sp V) (G.collide V) (G.rule attrs) ((G.line (G.target attrs V rest)).normal p.1.1) u p.1.2.2 x =
        ∑ j ∈ range ((G.line (G.target attrs V rest)).cellDofs p.1.1).length,
          a j * G.nodal (G.target attrs V rest) p.1.1 j x) :
    average G sp rest V attrs u p =
      shapeMean (sp V) (G.collide V) (G.rule attrs) ((G.line (G.target attrs V rest)).normal p.1.1) u p.1.2.2
        p.1.2.1 := by
  obtain ⟨a, ha⟩ := hspan
  rw [ha _ (.inl rfl), average]
  refine sum_congr rfl (fun i hi => ?_)
  have hi' := mem_range.1 hi
  congr 1
  rw [ha _ (.inr ⟨_, ?_, rfl⟩)]
  · rw [sum_eq_single i]
    · rw [hdual i i hi' hi', if_pos rfl, mul_one]
    · intro j hj hji; rw [hdual i j hi' (mem_range.1 hj), if_neg (Ne.symm hji), mul_zero]
    · intro h; exact absurd hi h
  · rw [List.getD_eq_getElem?_getD, List.getElem?_eq_getElem hi']
    exact List.getElem_mem hi'

end general
/-! ## The hypotheses are met

Find `u` piecewise constant (space 7, on the interval `[-1, 1]` with two cells) and `λ` linear on the line from `0` to `1/2`
(space 8) with `∫ Π v λ + ∫ Π u μ = ∫ μ`, where `Π u (x)` is the mean of `u` at `x - 1/2` and `x + 1/2` with weights 1 and 3. -/

section example_

/-- The line: one cell with dofs at both ends. -/
def lineL : Line ℚ := ⟨2, 1, fun _ => [0, 1], fun d => if d = 0 then 0 else 1 / 2, fun _ => 1⟩

theorem lineL_wf : lineL.WF 1 := by
  refine ⟨fun t _ => by simp [lineL], fun t _ d hd k hk => ?_, fun t ht t' ht' d hd d' hd' k hk k' hk' e => ?_⟩
  · simp only [lineL, List.mem_cons, List.not_mem_nil, or_false] at hd ⊢
    omega
  · simp only [lineL] at ht ht'
    omega

/-- Linear functions on the line. -/
def lineP1 : DofMat.Space ℚ (ℚ × Nat) where
  dim := 2
  numCells := 1
  spaceDim := 2
  cellDofs _ := [0, 1]
  basis _ l p := if l = 0 then 1 - 2 * p.1 else 2 * p.1
  dofs _ l f := f (if l = 0 then 0 else 1 / 2, 0)
  isDG := true

def rodG : Averages Nat ℚ ℚ where
  target _ _ _ := 8
  line _ := lineL
  size _ := 1
  nodal _ _ i x := if i = 0 then 1 - 2 * x else 2 * x
  collide _ := exCollide
  rule _ x _ := ([x - 1 / 2, x + 1 / 2], [1, 3])

def rodSp (V : Nat) : DofMat.Space ℚ (ℚ × Nat) := if V = 7 then exV else lineP1

def rodOn (_ : Nat) (p : ℚ × Nat) : Prop := 0 ≤ p.1 ∧ p.1 ≤ 1 / 2 ∧ p.2 = 0

def rodPt (x : ℚ) (h : 0 ≤ x ∧ x ≤ 1 / 2) : Pts (· < 1) rodOn := ⟨(0, (x, 0)), Nat.one_pos, h.1, h.2, rfl⟩

/-- Integrals over the line by the trapezoidal rule. -/
noncomputable def rodSem : Sem Nat ℚ (Pts (· < 1) rodOn → ℚ) where
  dim _ := 2
  basis V i p := if V = 8 then
      ∑ l ∈ range 2, if (lineP1.cellDofs p.1.1).getD l 0 = i then lineP1.basis p.1.1 l p.1.2 else 0
    else 0
  op _ l := l.prod
  const _ := 0
  integral _ f := (f (rodPt 0 (by norm_num)) + f (rodPt (1 / 2) (by norm_num))) / 4

def rodWorld : World Nat where
  tdim
    | .argument _ 7 => 3
    | .argument _ _ => 1
    | .other _ => -1
  mesh _ := none
  cell _ := true
  idim r := if r = 1 then 3 else 1
  imesh _ := 9
  annotMesh _ := 9

noncomputable def rodOps (M : Py (Mat ℚ)) : Ops Nat ℚ where
  domain _ _ V := V
  space _ _ _ _ := .ok 8
  matrix k _ V _ _ := match k with
    | .average => if V = 7 then M else .error .valueError
    | _ => .error .valueError

/-- The matrix of the averages. -/
noncomputable def rodM : Py (Mat ℚ) :=
  avgMat exV lineL 1 true true true true true false false (fun _ => .error .keyError) exCollide
    (some (fun x _ => .ok ([x - 1 / 2, x + 1 / 2], [1, 3])))

/-- `∫ Π v λ`. -/
def rodForm : List (Integral Nat) :=
  [⟨.node 0 [.term ⟨.argument 0 7, [("average_", 1)]⟩, .term ⟨.argument 1 8, []⟩], 0⟩]

/-- `∫ Π u μ`. -/
def rodForm' : List (Integral Nat) :=
  [⟨.node 0 [.term ⟨.argument 1 7, [("average_", 1)]⟩, .term ⟨.argument 0 8, []⟩], 0⟩]

/-- `∫ μ`. -/
def rodTest : List (Integral Nat) := [⟨.term ⟨.argument 0 8, []⟩, 0⟩]

/-- `∫ 0 v`. -/
def rodNull (V : Nat) : List (Integral Nat) :=
  [⟨.node 0 [.term ⟨.other 0, []⟩, .term ⟨.argument 0 V, []⟩], if V = 7 then 1 else 0⟩]

theorem rod_isAveraged (M : Py (Mat ℚ)) (hM : M = rodM) (attr : Nat) :
    IsAveraged rodG (rodOps M) rodSem rodSp 0 7 [("average_", attr)] := by
  refine ⟨rfl, 8, rfl, exV_wf, by decide, ⟨⟨fun c _ => rfl, fun c _ => by simp [rodSp, lineP1], fun c hc d hd => ?_⟩,
    lineL_wf, rfl, fun y t x k _ hk => ?_⟩, ⟨rfl, fun i p => rfl⟩, fun t ht => ht, fun t x k h => ?_, rfl,
    fun x _ => .ok ([x - 1 / 2, x + 1 / 2], [1, 3]), false, false, fun _ => .error .keyError, fun t _ d _ => ⟨rfl, rfl⟩, ?_⟩
  · simp [rodSp, lineP1] at hd ⊢; omega
  · have hk : k = 0 := by simp [rodG] at hk; exact hk
    subst hk
    simp [fnOn, rodSp, lineP1, rodG, lineL, sum_range_succ]
  · have hk : k = 0 := h.2.2
    subst hk; decide
  · rw [hM]; rfl

/-! ### The forms are assembled -/

theorem rod_component (M : Mat ℚ) (h : M.rows = 2) (asm : Env Nat ℚ → List (Integral Nat) → Py (Tensor ℚ)) {B : Mat ℚ}
    (hB : B.rows = 2)
    (h2 : asm (fun _ => none) [⟨.node 0 [.term ⟨.argument 0 8, []⟩, .term ⟨.argument 1 8, []⟩], 0⟩] = .ok (.mat B)) :
    BlockOps.pyMap (component rodSem id asm (assembler rodWorld (rodOps (.ok M)) .average) (fun _ => none) 2
      rodForm) rodForm = .ok [[.mat (M.tr.mul B)]] := by
  have a2 : pick (assembler rodWorld (rodOps (.ok M)) .average) 0 ((id (uniqueTerms (.node 0
      [.term ⟨.argument 0 7, [("average_", 1)]⟩, .term ⟨.argument 1 8, []⟩]))).filter
      ((assembler rodWorld (rodOps (.ok M)) .average).needs 0)) = .ok ⟨.argument 0 7, [("average_", 1)]⟩ := rfl
  have a3 : replace (.term ⟨.argument 0 7, [("average_", 1)]⟩) (.term ⟨.argument 0 8, []⟩) (some ["average_"])
        (.node 0 [.term ⟨.argument 0 7, [("average_", 1)]⟩, .term ⟨.argument 1 8, []⟩]) =
        (.node 0 [.term ⟨.argument 0 8, []⟩, .term ⟨.argument 1 8, []⟩] : UExpr Nat) := rfl
  have a4 : component rodSem id asm (assembler rodWorld (rodOps (.ok M)) .average) (fun _ => none) 2 rodForm
        ⟨.node 0 [.term ⟨.argument 0 7, [("average_", 1)]⟩, .term ⟨.argument 1 8, []⟩], 0⟩ =
        .ok [.mat (M.tr.mul B)] := by
    rw [component, if_pos (show inReduced (assembler rodWorld (rodOps (.ok M)) .average) rodForm
      ⟨.node 0 [.term ⟨.argument 0 7, [("average_", 1)]⟩, .term ⟨.argument 1 8, []⟩], 0⟩ = true from rfl)]
    dsimp only
    rw [a2, py_bind_ok]
    simp only [functionSpace, py_bind_ok, assembler, rodOps, Kind.attr]
    rw [a3, h2]
    simp only [py_bind_ok, transposeApply, h, hB, if_true]
  rw [rodForm, BlockOps.pyMap, ← rodForm, a4]
  rfl

theorem rod_component' (M : Mat ℚ) (h : M.rows = 2) (asm : Env Nat ℚ → List (Integral Nat) → Py (Tensor ℚ)) {B : Mat ℚ}
    (hB : B.cols = 2)
    (h2 : asm (fun _ => none) [⟨.node 0 [.term ⟨.argument 1 8, []⟩, .term ⟨.argument 0 8, []⟩], 0⟩] = .ok (.mat B)) :
    BlockOps.pyMap (component rodSem id asm (assembler rodWorld (rodOps (.ok M)) .average) (fun _ => none) 2
      rodForm') rodForm' = .ok [[.mat (B.mul M)]] := by
  have a2 : pick (assembler rodWorld (rodOps (.ok M)) .average) 0 ((id (uniqueTerms (.node 0
      [.term ⟨.argument 1 7, [("average_", 1)]⟩, .term ⟨.argument 0 8, []⟩]))).filter
      ((assembler rodWorld (rodOps (.ok M)) .average).needs 0)) = .ok ⟨.argument 1 7, [("average_", 1)]⟩ := rfl
  have a3 : replace (.term ⟨.argument 1 7, [("average_", 1)]⟩) (.term ⟨.argument 1 8, []⟩) (some ["average_"])
        (.node 0 [.term ⟨.argument 1 7, [("average_", 1)]⟩, .term ⟨.argument 0 8, []⟩]) =
        (.node 0 [.term ⟨.argument 1 8, []⟩, .term ⟨.argument 0 8, []⟩] : UExpr Nat) := rfl
  have a4 : component rodSem id asm (assembler rodWorld (rodOps (.ok M)) .average) (fun _ => none) 2 rodForm'
        ⟨.node 0 [.term ⟨.argument 1 7, [("average_", 1)]⟩, .term ⟨.argument 0 8, []⟩], 0⟩ =
        .ok [.mat (B.mul M)] := by
    rw [component, if_pos (show inReduced (assembler rodWorld (rodOps (.ok M)) .average) rodForm'
      ⟨.node 0 [.term ⟨.argument 1 7, [("average_", 1)]⟩, .term ⟨.argument 0 8, []⟩], 0⟩ = true from rfl)]
    dsimp only
    rw [a2, py_bind_ok]
    simp only [functionSpace, py_bind_ok, assembler, rodOps, Kind.attr]
    rw [a3, h2]
    simp [rightApply, h, hB, pyAssert]
  rw [rodForm', BlockOps.pyMap, ← rodForm', a4]
  rfl

theorem rod_plain (O : Ops Nat ℚ) (fuel : Nat) (F : List (Integral Nat))
    (hF : ∀ k, F.any (fun I => selects rodWorld k I.rest I.integrand) = false) {args : List (Nat × Nat)}
    (ha : arguments F = .ok args) :
    assemble rodSem id (assemblers rodWorld O) (fuel + 1) (fun _ => none) F = dfAssemble rodSem (fun _ => none) F args := by
  rw [assemble_ignores_unrecognised, ha, py_bind_ok]
  intro m hm I hI
  obtain ⟨k, _, rfl⟩ := List.mem_map.1 hm
  have := hF k
  rw [List.any_eq_false] at this
  exact Bool.eq_false_iff.2 (this I hI)

theorem rod_tryAll (M : Mat ℚ) (asm : Env Nat ℚ → List (Integral Nat) → Py (Tensor ℚ)) (args : List (Nat × Nat))
    (F : List (Integral Nat)) (h1 : F.any (fun I => selects rodWorld .trace I.rest I.integrand) = false)
    (h2 : F.any (fun I => selects rodWorld .transposeTrace I.rest I.integrand) = false)
    (h3 : F.any (fun I => selects rodWorld .average I.rest I.integrand) = true) :
    tryAll rodSem id asm (fun _ => none) args F (assemblers rodWorld (rodOps (.ok M))) =
      assembleWith rodSem id asm (assembler rodWorld (rodOps (.ok M)) .average) (fun _ => none) args.length F := by
  rw [show ∀ O : Ops Nat ℚ, assemblers rodWorld O = assembler rodWorld O .trace :: assembler rodWorld O .transposeTrace ::
      assembler rodWorld O .average :: kinds.tail.tail.tail.map (assembler rodWorld O) from fun _ => rfl, tryAll, tryAll, tryAll]
  simp only [assembler] at h1 h2 h3 ⊢
  simp only [h1, h2, h3, if_true, Bool.false_eq_true, if_false]

theorem rod_assembles (M : Mat ℚ) (h : M.rows = 2) :
    ∃ A, assemble rodSem id (assemblers rodWorld (rodOps (.ok M))) 3 (fun _ => none) rodForm = .ok A := by
  have h1 : arguments rodForm = .ok [(0, 7), (1, 8)] := by decide +kernel
  have h3 : arguments [(⟨.node 0 [.term ⟨.argument 0 8, []⟩, .term ⟨.argument 1 8, []⟩], 0⟩ : Integral Nat)] =
      .ok [(0, 8), (1, 8)] := by decide +kernel
  have h2 := rod_plain (rodOps (.ok M)) 1 _ (by intro k; cases k <;> rfl) h3
  rw [assemble, h1]
  obtain ⟨B, hB, hB'⟩ : ∃ B : Mat ℚ, B.rows = 2 ∧ dfAssemble rodSem (fun _ => none)
      [(⟨.node 0 [.term ⟨.argument 0 8, []⟩, .term ⟨.argument 1 8, []⟩], 0⟩ : Integral Nat)] [(0, 8), (1, 8)] = .ok (.mat B) :=
    ⟨_, rfl, rfl⟩
  have h4 := rod_component M h _ hB (h2.trans hB')
  refine ⟨.mat (M.tr.mul B), ?_⟩
  rw [py_bind_ok]
  generalize assemble rodSem id (assemblers rodWorld (rodOps (.ok M))) 2 = asm at h4
  rw [rod_tryAll _ _ _ _ rfl rfl rfl, assembleWith, show List.length [((0 : Nat), (7 : Nat)), (1, 8)] = 2 from rfl, h4]
  rfl

theorem rod_assembles' (M : Mat ℚ) (h : M.rows = 2) :
    ∃ A, assemble rodSem id (assemblers rodWorld (rodOps (.ok M))) 3 (fun _ => none) rodForm' = .ok A := by
  have h1 : arguments rodForm' = .ok [(0, 8), (1, 7)] := by decide +kernel
  have h3 : arguments [(⟨.node 0 [.term ⟨.argument 1 8, []⟩, .term ⟨.argument 0 8, []⟩], 0⟩ : Integral Nat)] =
      .ok [(0, 8), (1, 8)] := by decide +kernel
  have h2 := rod_plain (rodOps (.ok M)) 1 _ (by intro k; cases k <;> rfl) h3
  rw [assemble, h1]
  obtain ⟨B, hB, hB'⟩ : ∃ B : Mat ℚ, B.cols = 2 ∧ dfAssemble rodSem (fun _ => none)
      [(⟨.node 0 [.term ⟨.argument 1 8, []⟩, .term ⟨.argument 0 8, []⟩], 0⟩ : Integral Nat)] [(0, 8), (1, 8)] = .ok (.mat B) :=
    ⟨_, rfl, rfl⟩
  have h4 := rod_component' M h _ hB (h2.trans hB')
  refine ⟨.mat (B.mul M), ?_⟩
  rw [py_bind_ok]
  generalize assemble rodSem id (assemblers rodWorld (rodOps (.ok M))) 2 = asm at h4
  rw [rod_tryAll _ _ _ _ rfl rfl rfl, assembleWith, show List.length [((0 : Nat), (8 : Nat)), (1, 7)] = 2 from rfl, h4]
  rfl

theorem rodNull_assembles (O : Ops Nat ℚ) (fuel : Nat) :
    ∃ t, assemble rodSem id (assemblers rodWorld O) (fuel + 1) (fun _ => none) (rodNull 7) = .ok t := by
  rw [rod_plain O fuel _ (by intro k; cases k <;> rfl) (args := [(0, 7)]) (by decide +kernel)]
  exact ⟨_, rfl⟩

theorem rodRhs_assembles (O : Ops Nat ℚ) (fuel : Nat) :
    ∃ t, assemble rodSem id (assemblers rodWorld O) (fuel + 1) (fun _ => none) (rodNull 8 ++ rodTest) = .ok t := by
  rw [rod_plain O fuel _ (by intro k; cases k <;> rfl) (args := [(0, 8)]) (by decide +kernel)]
  exact ⟨_, rfl⟩

/-! ### They are well formed -/

theorem rod_wellFormed (O : Ops Nat ℚ) : ∀ I ∈ rodForm, WellFormed rodSem (assemblers rodWorld O) I := by
  intro I hI
  simp only [rodForm, List.mem_cons, List.not_mem_nil, or_false] at hI
  subst hI
  refine ⟨?_, ?_, ?_, ?_⟩
  · intro s hs t ht hb
    simp only [terms, termsAll, List.append_nil, List.singleton_append, List.mem_cons, List.not_mem_nil, or_false] at hs ht
    rcases hs with rfl | rfl <;> rcases ht with rfl | rfl <;> simp_all
  · intro t ht hne
    simp only [terms, termsAll, List.append_nil, List.singleton_append, List.mem_cons, List.not_mem_nil, or_false] at ht
    rcases ht with rfl | rfl
    · refine ⟨assembler rodWorld O .average, by simp [assemblers, kinds], fun e he hc => ?_⟩
      change ((uniqueTerms e).any _) = true
      rw [List.any_eq_true]
      refine ⟨_, mem_unique hc he, rfl⟩
    · exact absurd rfl hne
  · intro t ht n V hb val
    simp only [terms, termsAll, List.append_nil, List.singleton_append, List.mem_cons, List.not_mem_nil, or_false] at ht
    rcases ht with rfl | rfl <;>
    · constructor
      · intro x y; simp [den, denAll, rodSem]; ring
      · intro c x; simp [den, denAll, rodSem]; ring
  · intro t ht n V hb
    simp only [terms, termsAll, List.append_nil, List.singleton_append, List.mem_cons, List.not_mem_nil, or_false] at ht
    rcases ht with rfl | rfl <;> simp at hb <;> omega

theorem rod_wellFormed' (O : Ops Nat ℚ) : ∀ I ∈ rodForm', WellFormed rodSem (assemblers rodWorld O) I := by
  intro I hI
  simp only [rodForm', List.mem_cons, List.not_mem_nil, or_false] at hI
  subst hI
  refine ⟨?_, ?_, ?_, ?_⟩
  · intro s hs t ht hb
    simp only [terms, termsAll, List.append_nil, List.singleton_append, List.mem_cons, List.not_mem_nil, or_false] at hs ht
    rcases hs with rfl | rfl <;> rcases ht with rfl | rfl <;> simp_all
  · intro t ht hne
    simp only [terms, termsAll, List.append_nil, List.singleton_append, List.mem_cons, List.not_mem_nil, or_false] at ht
    rcases ht with rfl | rfl
    · refine ⟨assembler rodWorld O .average, by simp [assemblers, kinds], fun e he hc => ?_⟩
      change ((uniqueTerms e).any _) = true
      rw [List.any_eq_true]
      refine ⟨_, mem_unique hc he, rfl⟩
    · exact absurd rfl hne
  · intro t ht n V hb val
    simp only [terms, termsAll, List.append_nil, List.singleton_append, List.mem_cons, List.not_mem_nil, or_false] at ht
    rcases ht with rfl | rfl <;>
    · constructor
      · intro x y; simp [den, denAll, rodSem]; ring
      · intro c x; simp [den, denAll, rodSem]; ring
  · intro t ht n V hb
    simp only [terms, termsAll, List.append_nil, List.singleton_append, List.mem_cons, List.not_mem_nil, or_false] at ht
    rcases ht with rfl | rfl <;> simp at hb <;> omega

theorem rodTest_wellFormed (O : Ops Nat ℚ) : ∀ I ∈ rodTest, WellFormed rodSem (assemblers rodWorld O) I := by
  intro I hI
  simp only [rodTest, List.mem_singleton] at hI
  subst hI
  have ht : ∀ {t}, t ∈ terms (.term ⟨.argument 0 8, []⟩ : UExpr Nat) → t = ⟨.argument 0 8, []⟩ := by
    intro t h; simpa [terms] using h
  refine ⟨?_, ?_, ?_, ?_⟩
  · intro s hs t ht' _; rw [ht hs, ht ht']
  · intro t h hne; rw [ht h] at hne; exact absurd rfl hne
  · intro t h n Q hb val
    rw [ht h]
    constructor
    · intro x y; simp [den, rodSem]; ring
    · intro c x; simp [den, rodSem]; ring
  · intro t h n Q hb
    rw [ht h] at hb; simp at hb; omega

theorem rodNull_ok (R : Standing Nat ℚ (Pts (· < 1) rodOn → ℚ)) (O : Ops Nat ℚ) :
    NullForms rodSem R (fun _ => none) (assemblers rodWorld O) [7, 8] rodNull where
  arguments V := by
    refine ⟨by simp [rodNull], fun I hI => ?_⟩
    simp only [rodNull, List.mem_singleton] at hI
    subst hI
    refine ⟨⟨⟨.argument 0 V, []⟩, by simp [terms, termsAll], rfl⟩, fun t ht Q hb => ?_⟩
    simp [terms, termsAll] at ht
    rcases ht with rfl | rfl <;> simp at hb
    exact hb.symm
  linear V _ I hI t ht Q hb := by
    simp only [rodNull, List.mem_singleton] at hI
    subst hI
    simp [terms, termsAll] at ht
    rcases ht with rfl | rfl <;> simp at hb
  wellFormed V _ I hI := by
    simp only [rodNull, List.mem_singleton] at hI
    subst hI
    refine ⟨?_, ?_, ?_, ?_⟩
    · intro s hs t ht hb
      simp [terms, termsAll] at hs ht
      rcases hs with rfl | rfl <;> rcases ht with rfl | rfl <;> simp_all
    · intro t ht hne
      simp [terms, termsAll] at ht
      rcases ht with rfl | rfl <;> exact absurd rfl hne
    · intro t ht n Q hb val
      simp only [terms, termsAll, List.append_nil, List.singleton_append, List.mem_cons, List.not_mem_nil, or_false] at ht
      rcases ht with rfl | rfl
      · simp at hb
      · constructor
        · intro x y; simp [den, denAll, rodSem]; ring
        · intro c x; simp [den, denAll, rodSem]; ring
    · intro t ht n Q hb
      simp [terms, termsAll] at ht
      rcases ht with rfl | rfl <;> simp at hb
      omega
  plain V _ I hI t ht := by
    simp only [rodNull, List.mem_singleton] at hI
    subst hI
    simp [terms, termsAll] at ht
    rcases ht with rfl | rfl <;> rfl
  zero V _ v u := by
    simp [total, rodNull, den, denAll, mixed, rodSem]

theorem rod_added : Added [7, 8] [rodForm, rodForm'] [rodTest] := by
  constructor
  · intro f hf
    simp only [List.mem_cons, List.not_mem_nil, or_false] at hf
    rcases hf with rfl | rfl
    · refine ⟨by simp [rodForm], fun I hI => ⟨0, 1, 7, 8, ?_⟩⟩
      simp only [rodForm, List.mem_singleton] at hI
      subst hI
      refine ⟨⟨⟨_, by simp [terms, termsAll]; left; rfl, rfl⟩, ?_⟩, ⟨⟨_, by simp [terms, termsAll]; right; rfl, rfl⟩, ?_⟩,
        ⟨rfl, by simp⟩, ⟨rfl, fun j hj => by interval_cases j; simp⟩⟩ <;>
      · intro t ht Q hb
        simp [terms, termsAll] at ht
        rcases ht with rfl | rfl <;> simp at hb <;> omega
    · refine ⟨by simp [rodForm'], fun I hI => ⟨1, 0, 8, 7, ?_⟩⟩
      simp only [rodForm', List.mem_singleton] at hI
      subst hI
      refine ⟨⟨⟨_, by simp [terms, termsAll]; right; rfl, rfl⟩, ?_⟩, ⟨⟨_, by simp [terms, termsAll]; left; rfl, rfl⟩, ?_⟩,
        ⟨rfl, fun j hj => by interval_cases j; simp⟩, ⟨rfl, by simp⟩⟩ <;>
      · intro t ht Q hb
        simp [terms, termsAll] at ht
        rcases ht with rfl | rfl <;> simp at hb <;> omega
  · intro f hf
    simp only [List.mem_singleton] at hf
    subst hf
    refine ⟨by simp [rodTest], fun I hI => ⟨1, 8, ?_⟩⟩
    simp only [rodTest, List.mem_singleton] at hI
    subst hI
    refine ⟨⟨⟨_, by simp [terms]; rfl, rfl⟩, ?_⟩, ?_, ⟨rfl, fun j hj => by interval_cases j; simp⟩⟩ <;>
    · intro t ht Q hb
      simp [terms] at ht
      subst ht; simp at hb
      try exact hb.symm

/-! ### Values of the integrals -/

theorem rod_average (u : Nat → ℚ) (rest attr : Nat) :
    average rodG rodSp rest 7 [("average_", attr)] u (rodPt 0 (by norm_num)) = (u 0 + 3 * u 1) / 4 ∧
    average rodG rodSp rest 7 [("average_", attr)] u (rodPt (1 / 2) (by norm_num)) = u 1 := by
  constructor <;>
  · norm_num [average, rodG, rodSp, rodPt, lineL, sum_range_succ, shapeMean, quadMean, quadSum, zeroOutside, valueAt,
      exCollide, exV, fnOn]
    try ring

theorem rod_fn (u : Nat → ℚ) :
    Reduced.fn rodSem 8 u (rodPt 0 (by norm_num)) = u 0 ∧ Reduced.fn rodSem 8 u (rodPt (1 / 2) (by norm_num)) = u 1 := by
  constructor <;> simp [Reduced.fn, rodSem, sum_range_succ, lineP1, rodPt]

noncomputable def rodR : Standing Nat ℚ (Pts (· < 1) rodOn → ℚ) := averaged rodG rodSem rodSp

theorem rodSem_op (i : Nat) (l : List (Pts (· < 1) rodOn → ℚ)) : rodSem.op i l = l.prod := rfl

theorem rodSem_integral (r : Nat) (f : Pts (· < 1) rodOn → ℚ) : rodSem.integral r f =
    (f (rodPt 0 (by norm_num)) + f (rodPt (1 / 2) (by norm_num))) / 4 := rfl

theorem rod_value (v u : Nat → Nat → ℚ) :
    total rodSem rodForm (fun I => mixed rodSem rodR (fun _ => none) v u I.rest) =
      ((v 7 0 + 3 * v 7 1) / 4 * u 8 0 + v 7 1 * u 8 1) / 4 := by
  have h := rod_average (v 7) 0 1
  have h' := rod_fn (u 8)
  simp only [total, rodForm, List.map_cons, List.map_nil, List.sum_cons, List.sum_nil, den, denAll, mixed, rodR, averaged]
  simp only [rodSem_op, rodSem_integral, List.prod_cons, List.prod_nil, mul_one, Pi.mul_apply, if_true, List.cons_ne_nil,
    if_false, h.1, h.2, h'.1, h'.2, add_zero]

theorem rod_value' (v u : Nat → Nat → ℚ) :
    total rodSem rodForm' (fun I => mixed rodSem rodR (fun _ => none) v u I.rest) =
      ((u 7 0 + 3 * u 7 1) / 4 * v 8 0 + u 7 1 * v 8 1) / 4 := by
  have h := rod_average (u 7) 0 1
  have h' := rod_fn (v 8)
  simp only [total, rodForm', List.map_cons, List.map_nil, List.sum_cons, List.sum_nil, den, denAll, mixed, rodR, averaged]
  simp only [rodSem_op, rodSem_integral, List.prod_cons, List.prod_nil, mul_one, Pi.mul_apply, if_true, List.cons_ne_nil,
    if_false, h.1, h.2, h'.1, h'.2, add_zero]

theorem rod_rhs (v : Nat → Nat → ℚ) :
    total rodSem [rodTest].flatten (fun I => mixed rodSem rodR (fun _ => none) v 0 I.rest) = (v 8 0 + v 8 1) / 4 := by
  have h' := rod_fn (v 8)
  simp only [List.flatten_cons, List.flatten_nil, List.append_nil, total, rodTest, List.map_cons, List.map_nil,
    List.sum_cons, List.sum_nil, den, mixed, rodR, averaged, rodSem_integral, if_true, h'.1, h'.2, add_zero]

theorem rod_lhs (v u : Nat → Nat → ℚ) :
    total rodSem [rodForm, rodForm'].flatten (fun I => mixed rodSem rodR (fun _ => none) v u I.rest) =
      ((v 7 0 + 3 * v 7 1) / 4 * u 8 0 + v 7 1 * u 8 1) / 4 + ((u 7 0 + 3 * u 7 1) / 4 * v 8 0 + u 7 1 * v 8 1) / 4 := by
  rw [← rod_value, ← rod_value']
  simp only [total, List.flatten_cons, List.flatten_nil, List.append_nil, List.map_append, List.sum_append]

/-- `v^T A u` is the integral of the average of `v` times the function on the line. -/
example : ∃ A, assemble rodSem id (assemblers rodWorld (rodOps rodM)) 3 (fun _ => none) rodForm = .ok A ∧
    ∀ v u, act v u A = ((v 0 + 3 * v 1) / 4 * u 0 + v 1 * u 1) / 4 := by
  obtain ⟨M, hM, hr, -⟩ := average_general exV_wf (by omega) lineL_wf (collide := exCollide)
    (quad := fun x _ => .ok ([x - 1 / 2, x + 1 / 2], [1, 3]))
    (pts := fun t d => [lineL.coords d - 1 / 2, lineL.coords d + 1 / 2]) (ws := fun _ _ => [1, 3])
    (fun t _ d _ => ⟨rfl, rfl⟩)
  have hM' : rodM = .ok M := hM
  obtain ⟨A, hA⟩ := rod_assembles M hr
  rw [hM']
  refine ⟨A, hA, fun v u => ?_⟩
  rw [averaged_integrals (G := rodG) (sp := rodSp) (red := fun _ _ _ => (8, M)) rodWorld ?_ (fun _ => .refl _)
    (rod_wellFormed _) ?_ ?_ hA v u]
  · exact rod_value _ _
  · intro k attrs V rest TV T _ h1 h2
    cases h1
    cases k <;> simp only [rodOps] at h2 <;> try cases h2
    split at h2 <;> cases h2
    exact ⟨rfl, hr⟩
  · intro I hI t ht n V hb J hJ
    simp only [rodForm, List.mem_cons, List.not_mem_nil, or_false] at hI hJ
    subst hI; subst hJ
    exact ⟨t, ht, hb⟩
  · intro I hI t ht hne V hV
    simp only [rodForm, List.mem_cons, List.not_mem_nil, or_false] at hI
    subst hI
    simp only [terms, termsAll, List.append_nil, List.singleton_append, List.mem_cons, List.not_mem_nil, or_false] at ht
    rcases ht with rfl | rfl
    · cases hV
      exact rod_isAveraged _ hM'.symm 1
    · exact absurd rfl hne

theorem rod_variational (x : List (List ℚ)) :
    VariationalSolution rodSem rodR (fun _ => none) [7, 8] [rodForm, rodForm'].flatten [rodTest].flatten [] x ↔
      x = [[1, 1], [0, 0]] := by
  have hdim : [7, 8].map rodSem.dim = [2, 2] := rfl
  have hc : ∀ a b : List ℚ, coeffs [7, 8] [a, b] 7 = fnOf a ∧ coeffs [7, 8] [a, b] 8 = fnOf b := fun a b => ⟨rfl, rfl⟩
  constructor
  · rintro ⟨h1, h2, h3⟩
    rw [hdim] at h1
    match x, h1 with
    | [[x0, x1], [y0, y1]], _ =>
        have r := fun V d => h3 (fun Q i => if Q = V ∧ i = d then 1 else 0) (by
          intro k Q j hQ hp
          simp [prescribed, lastVal] at hp)
        simp only [rod_lhs, rod_rhs, (hc _ _).1, (hc _ _).2] at r
        have a := r 7 0
        have b := r 7 1
        have c := r 8 0
        have d := r 8 1
        norm_num [fnOf] at a b c d
        subst a d
        have e0 : x0 = 1 := by linarith
        have e1 : y1 = 0 := by linarith
        rw [e0, e1]
  · rintro rfl
    refine ⟨rfl, fun k d x hx => by simp [prescribed, lastVal] at hx, fun v _ => ?_⟩
    rw [rod_lhs, rod_rhs, (hc _ _).1, (hc _ _).2]
    simp [fnOf]
    ring

/-- The forms are added to block forms, the averages are computed, the forms are assembled and the system is solved. -/
example (h : Heap ℚ) : ∃ f, ∀ k, f ≤ k → ∃ fs h',
    formProgram rodSem id (assemblers rodWorld (rodOps rodM)) 3 (fun _ => none) rodNull [7, 8] [rodForm, rodForm'] [rodTest]
      noTiny k oracle .none 1 true [⟨0, 2⟩, ⟨1, 2⟩] h = .ok (fs, h') ∧ vectors h' fs = [[1, 1], [0, 0]] := by
  obtain ⟨M, hM, hr, hc, -⟩ := average_general exV_wf (by omega) lineL_wf (collide := exCollide)
    (quad := fun x _ => .ok ([x - 1 / 2, x + 1 / 2], [1, 3]))
    (pts := fun t d => [lineL.coords d - 1 / 2, lineL.coords d + 1 / 2]) (ws := fun _ _ => [1, 3])
    (fun t _ d _ => ⟨rfl, rfl⟩)
  have hM' : rodM = .ok M := hM
  rw [hM']
  have hav := rod_isAveraged (.ok M) hM'.symm 1
  obtain ⟨⟨f1, h1⟩, h2⟩ := averaged_forms (G := rodG) (sp := rodSp) (red := fun _ _ _ => (8, M)) rodWorld
    (O := rodOps (.ok M)) (sem := rodSem) (by
      intro k attrs V rest TV T _ h1 h2
      cases h1
      cases k <;> simp only [rodOps] at h2 <;> try cases h2
      split at h2 <;> cases h2
      exact ⟨rfl, hr, hc⟩)
    (fun l => .refl (id l)) (fuel := 3) (env := fun _ => none) (V := [7, 8]) (by simp) (rodNull_ok _ _)
    (as := [rodForm, rodForm']) (Ls := [rodTest]) (by
      intro f hf I hI
      simp only [List.cons_append, List.nil_append, List.mem_cons, List.not_mem_nil, or_false] at hf
      rcases hf with rfl | rfl | rfl
      · refine ⟨rod_wellFormed _ I hI, fun t ht hne V hV => ?_⟩
        simp only [rodForm, List.mem_singleton] at hI
        subst hI
        simp [terms, termsAll] at ht
        rcases ht with rfl | rfl
        · cases hV; exact hav
        · exact absurd rfl hne
      · refine ⟨rod_wellFormed' _ I hI, fun t ht hne V hV => ?_⟩
        simp only [rodForm', List.mem_singleton] at hI
        subst hI
        simp [terms, termsAll] at ht
        rcases ht with rfl | rfl
        · cases hV; exact hav
        · exact absurd rfl hne
      · refine ⟨rodTest_wellFormed _ I hI, fun t ht hne V hV => ?_⟩
        simp only [rodTest, List.mem_singleton] at hI
        subst hI
        simp [terms] at ht
        subst ht; exact absurd rfl hne)
    noTiny oracle_exact .none (fun k d v n h1 h2 => by simp at h1) (diag := 1) one_ne_zero true
    (U := [⟨0, 2⟩, ⟨1, 2⟩]) rfl h
  obtain ⟨f2, h2⟩ := h2 (by decide) rod_added (by
      rw [show history (addOne2 [7, 8]) (start2 [7, 8]) [rodForm, rodForm'] =
        [[.num 0, .form rodForm], [.form rodForm', .num 0]] from rfl,
        show history (addOne1 [7, 8]) (start1 rodNull [7, 8]) [rodTest] =
          [.form (rodNull 7), .form (rodNull 8 ++ rodTest)] from rfl]
      constructor
      · intro row hrow F hF
        simp at hrow
        rcases hrow with rfl | rfl <;> simp at hF <;> subst hF
        · exact rod_assembles M hr
        · exact rod_assembles' M hr
      · intro F hF
        simp at hF
        rcases hF with rfl | rfl
        · exact rodNull_assembles _ 2
        · exact rodRhs_assembles _ 2)
    oracle_regular ⟨_, (rod_variational _).2 rfl, fun y hy => (rod_variational y).1 hy⟩
  refine ⟨max f1 f2, fun k hk => ?_⟩
  obtain ⟨⟨fs, h'⟩, hrun⟩ := h2 k (le_trans (le_max_right _ _) hk)
  obtain ⟨_, a2, _⟩ := h1 k (le_trans (le_max_left _ _) hk) fs h' hrun
  exact ⟨fs, h', hrun, (rod_variational _).1 a2⟩

end example_
end Verif.AverageForm
