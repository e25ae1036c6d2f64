import Verif.Lemmas.Assembly2
import Verif.Lemmas.Standing
import Verif.Lemmas.CenterVec
import Verif.Props.AverageForm
/-!
# Forms are assembled

Assembly of a form whose functions are from the mesh of the integral or annotated with a reduction to this mesh returns: no
exception is raised and the recursion ends.
-/
namespace Verif.Assembly
open Verif Ufl BlockForm BlockOps Reduced Dispatch

variable {S K D : Type} [DecidableEq S] [CommRing K] [AddCommGroup D] [Module K D]

mutual
theorem sameExpr_eq : ∀ e f : UExpr S, sameExpr e f = true → (∀ s ∈ terms e, ∀ t ∈ terms f, s.base = t.base → s = t) → e = f
  | .term s, .term t, h, hall => by
      simp only [sameExpr, decide_eq_true_eq] at h
      rw [hall s (by simp [terms]) t (by simp [terms]) h]
  | .node k xs, .node l ys, h, hall => by
      simp only [sameExpr, Bool.and_eq_true, beq_iff_eq] at h
      rw [h.1, sameAll_eq xs ys h.2 hall]
  | .term _, .node _ _, h, _ => by cases h
  | .node _ _, .term _, h, _ => by cases h
theorem sameAll_eq : ∀ es fs : List (UExpr S), sameAll es fs = true →
    (∀ s ∈ termsAll es, ∀ t ∈ termsAll fs, s.base = t.base → s = t) → es = fs
  | [], [], _, _ => rfl
  | x :: xs, y :: ys, h, hall => by
      simp only [sameAll, Bool.and_eq_true] at h
      rw [sameExpr_eq x y h.1 (fun s hs t ht => hall s (by simp [termsAll, hs]) t (by simp [termsAll, ht])),
        sameAll_eq xs ys h.2 (fun s hs t ht => hall s (by simp [termsAll, hs]) t (by simp [termsAll, ht]))]
  | [], _ :: _, h, _ => by cases h
  | _ :: _, [], h, _ => by cases h
end

theorem inReduced_selects {W : World S} {O : Ops S K} {k : Kind} {F : List (Integral S)} (hal : AnnotatedAlike F)
    {I : Integral S} (hI : I ∈ F) (h : inReduced (assembler W O k) F I = true) : selects W k I.rest I.integrand = true := by
  obtain ⟨J, hJ, hJI⟩ := List.any_eq_true.1 h
  obtain ⟨hJF, hsel⟩ := List.mem_filter.1 hJ
  simp only [Bool.and_eq_true, decide_eq_true_eq] at hJI
  have := sameExpr_eq J.integrand I.integrand hJI.2 (hal J hJF I hI hJI.1)
  rw [← this, ← hJI.1]
  exact hsel

theorem inReduced_of_selects {W : World S} {O : Ops S K} {k : Kind} {F : List (Integral S)} {I : Integral S} (hI : I ∈ F)
    (h : selects W k I.rest I.integrand = true) : inReduced (assembler W O k) F I = true :=
  List.any_eq_true.2 ⟨I, List.mem_filter.2 ⟨hI, h⟩, by simp [sameExpr_refl]⟩

theorem sizes_of_shaped {sem : Sem S K D} {F : List (Integral S)} (hs : SameArguments F) {t : Tensor K} (h : Shaped sem F t) :
    SizesOf sem F t := by
  have one : ∀ {I}, I ∈ F → ∀ {n V}, HasArg F n V → ∃ t ∈ terms I.integrand, t.base = .argument n V := by
    rintro I hI n V ⟨J, hJ, s, hsm, hb⟩
    exact hs J hJ s hsm n V hb I hI
  cases t with
  | num x => exact fun I hI t ht n V hb => h n V ⟨I, hI, t, ht, hb⟩
  | vec n b =>
      obtain ⟨V, hV, hn, hno⟩ := h
      exact fun I hI => ⟨⟨V, one hI hV, hn⟩, fun t ht Q hb => hno Q ⟨I, hI, t, ht, hb⟩⟩
  | mat A =>
      obtain ⟨V, Q, hV, hQ, h1, h2⟩ := h
      exact fun I hI => ⟨V, Q, one hI hV, one hI hQ, h1, h2⟩

/-- Assembly of a form returns a tensor whose sizes are the dimensions of the spaces of its arguments; the recursion is not
    deeper than the number of annotated functions. -/
theorem assembly_returns (order : List (Term S) → List (Term S)) (ho : ∀ l, (order l).Perm l) {sem : Sem S K D}
    {W : World S} {O : Ops S K} {env : Env S K} {F : List (Integral S)} (hF : ∀ I ∈ F, Assemblable sem W O env I)
    (hs : SameArguments F) (hal : AnnotatedAlike F) {fuel : Nat} (hfuel : ∀ I ∈ F, annotated I.integrand < fuel) :
    ∃ t, assemble sem order (assemblers W O) (fuel + 1) env F = .ok t ∧ SizesOf sem F t := by
  have hu : ∀ n V Q, HasArg F n V → HasArg F n Q → V = Q := by
    rintro n V Q ⟨I, hI, s, hsm, hsb⟩ ⟨J, hJ, t, htm, htb⟩
    obtain ⟨r, hr, hrb⟩ := hs J hJ t htm n Q htb I hI
    exact (hF I hI).oneSpace s hsm r hr n V Q hsb hrb
  obtain ⟨args, ha, hform, har⟩ := form_arguments (F := F)
    (fun n V ⟨I, hI, t, ht, hb⟩ => (hF I hI).twoArguments t ht n V hb) hu
    (fun V ⟨I, hI, t, ht, hb⟩ => by
      obtain ⟨s, hs, Q, hQ⟩ := (hF I hI).trialAndTest t ht V hb
      exact ⟨Q, I, hI, s, hs, hQ⟩)
  rw [assemble, ha, py_bind_ok]
  change ∃ t, tryAll sem order _ env args F (kinds.map (assembler W O)) = .ok t ∧ _
  rcases tryAll_kinds sem order (assemble sem order (assemblers W O) fuel) W O env args F kinds with
    ⟨_, h2⟩ | ⟨k, _, ⟨J, hJ, hsel⟩, hfirst, h2⟩
  · rw [h2]
    obtain ⟨t, ht⟩ := dfAssemble_returns sem env F hform
    exact ⟨t, ht, sizes_of_shaped hs (dfAssemble_shaped ha ht)⟩
  · rw [h2, assembleWith]
    have hcomp : ∀ I ∈ F, ∃ cs, component sem order (assemble sem order (assemblers W O) fuel) (assembler W O k) env
        args.length F I = .ok cs ∧ cs ≠ [] ∧ ∀ c ∈ cs, Shaped sem F c := by
      intro I hI
      have hto : ∀ c : Tensor K, Shaped sem [I] c → Shaped sem F c := fun c => shaped_congr (hasArg_single hs hI)
      by_cases hin : inReduced (assembler W O k) F I = true
      · obtain ⟨c, hc, hcs⟩ := component_returns order ho (hF I hI) (asm := assemble sem order (assemblers W O) fuel)
          (fun env L hL hlt => single_returns order ho fuel env L hL (by have := hfuel I hI; omega))
          (inReduced_selects hal hI hin) (fun l hl => hfirst l hl I hI)
          (arity := args.length) (har.trans ⟨fun ⟨V, hV⟩ => ⟨V, (hasArg_single hs hI 1 V).2 hV⟩,
            fun ⟨V, hV⟩ => ⟨V, (hasArg_single hs hI 1 V).1 hV⟩⟩) hin
        exact ⟨[c], hc, by simp, by simpa using hto c hcs⟩
      · obtain ⟨r, hr, hrs⟩ := single_returns order ho fuel env I (hF I hI) (hfuel I hI)
        exact ⟨[r], by rw [component, if_neg hin, hr, py_bind_ok], by simp, by simpa using hto r hrs⟩
    obtain ⟨css, hcss, _⟩ := CenterVec.pyMap_exists hcomp
    rw [hcss, py_bind_ok]
    have hmem : ∀ cs ∈ css, cs ≠ [] ∧ ∀ c ∈ cs, Shaped sem F c := by
      intro cs hcs
      obtain ⟨I, hI, hIcs⟩ := assemble_shaped.pyMap_mem hcss hcs
      obtain ⟨cs', h1, h3⟩ := hcomp I hI
      rw [h1] at hIcs
      cases hIcs
      exact h3
    have hne : css.flatten ≠ [] := by
      intro h0
      rw [List.flatten_eq_nil_iff] at h0
      have hl := (pyMap_eq_ok.1 hcss).length_eq
      have : css ≠ [] := by
        intro hc
        rw [hc] at hl
        exact List.ne_nil_of_mem hJ (List.length_eq_zero_iff.1 hl)
      obtain ⟨cs, hcs⟩ := List.exists_mem_of_ne_nil _ this
      exact (hmem cs hcs).1 (h0 cs hcs)
    obtain ⟨c, hc, hcs⟩ := sums_return hu hne (fun t ht => by
      obtain ⟨cs, hcs, htc⟩ := List.mem_flatten.1 ht
      exact (hmem cs hcs).2 t htc)
    exact ⟨c, hc, sizes_of_shaped hs hcs⟩

/-- Integrals which can be assembled and are linear are the ones of the theorems on assembled values. -/
theorem assemblable_wellFormed {sem : Sem S K D} {W : World S} {O : Ops S K} {env : Env S K} {I : Integral S}
    (h : Assemblable sem W O env I) (hl : Linear sem I) : WellFormed sem (assemblers W O) I := by
  refine ⟨h.consistent, fun t ht hne => ?_, hl, h.twoArguments⟩
  rcases h.terminals t ht with hs | ⟨k, hk⟩
  · exact absurd hs.1 hne
  · exact ⟨assembler W O k, List.mem_map.2 ⟨k, mem_kinds k, rfl⟩, fun e he hc => fits_selects hc he hk⟩

end Verif.Assembly

namespace Verif.Program
open Verif Ufl BlockForm Reduced Dispatch BlockOps Collapse ApplyBc Workflow IIFunction Coupling Assembly Finset

variable {S K D : Type} [DecidableEq S] [Field K] [AddCommGroup D] [Module K D]

/-- The blocks are made of integrals of the forms which were added. -/
theorem added_members {sem : Sem S K D} {red : Reduction S K} {env : Env S K} {mods : List (Assembler S K)} {V : List S}
    {null : S → List (Integral S)} {as Ls : List (List (Integral S))}
    (hn : NullForms sem (reduced sem red) env mods V null) (had : Added V as Ls) :
    ForForms (history (addOne2 V) (start2 V) as) (history (addOne1 V) (start1 null V) Ls)
      (fun F => (∀ I ∈ F, I ∈ as.flatten) ∨ ∃ Q ∈ V, ∀ I ∈ F, I ∈ null Q ++ Ls.flatten) := by
  classical
  constructor
  · intro row hrow F hF
    obtain ⟨i, hi, rfl⟩ := List.getElem_of_mem hrow
    obtain ⟨j, hj, hij⟩ := List.getElem_of_mem hF
    obtain ⟨g1, g2⟩ := history_get had (List.getElem?_eq_getElem hi)
    have := g2 j (by omega)
    rw [List.getElem?_eq_getElem hj, hij] at this
    injection this with this
    left
    intro I hI
    have hFl : F = as.flatten.filter (fun I => Belongs2 V i j I) := by
      cases hl : as.flatten.filter (fun I => Belongs2 V i j I) with
      | nil => rw [hl] at this; cases this
      | cons I l => rw [hl] at this; injection this
    rw [hFl, List.mem_filter] at hI
    exact hI.1
  · intro F hF
    obtain ⟨i, hi, hij⟩ := List.getElem_of_mem hF
    have hi' : i < V.length := by rwa [start1_length hn] at hi
    have h := history_linear hn had (List.getElem?_eq_getElem hi')
    rw [List.getElem?_eq_getElem hi, hij] at h
    injection h with h
    injection h with h
    refine .inr ⟨V[i], List.getElem_mem hi', fun I hI => ?_⟩
    rw [h] at hI
    rcases List.mem_append.1 hI with hI | hI
    · exact List.mem_append_left _ hI
    · exact List.mem_append_right _ (List.mem_filter.1 hI).1

/-- The program which makes block forms by adding, assembles, constrains, converts and solves returns, and what it returns is
    the solution of the variational problem: functions are from the mesh of the integral or reduced to it, the functions which
    the annotated ones stand for are given by `R`, and the problem has just one solution. -/
theorem forms_run {sem : Sem S K D} {R : Standing S K D} (hR0 : ∀ rest V x, R rest V [] x = Reduced.fn sem V x)
    (W' : World S) {O : Ops S K} {red : Reduction S K}
    (htab : ∀ k attrs V rest TV T, (attrs.lookup k.attr).isSome →
      O.space k attrs (O.domain k attrs V) rest = .ok TV → O.matrix k attrs (O.domain k attrs V) TV rest = .ok T →
      red attrs V rest = (TV, T) ∧ T.rows = sem.dim TV ∧ T.cols = sem.dim V)
    {order : List (Term S) → List (Term S)} (ho : ∀ l, (order l).Perm l) {fuel : Nat} {env : Env S K} {V : List S}
    (hV : V ≠ []) (hnd : V.Nodup) {null : S → List (Integral S)}
    (hn : NullForms sem R env (assemblers W' O) V null) {as Ls : List (List (Integral S))} (had : Added V as Ls)
    (hasm : ∀ I ∈ as.flatten ++ Ls.flatten, Assemblable sem W' O env I ∧ Linear sem I ∧ annotated I.integrand < fuel)
    (hnull : ∀ Q ∈ V, ∀ I ∈ null Q, Assemblable sem W' O env I ∧ annotated I.integrand < fuel)
    (hala : AnnotatedAlike as.flatten) (halL : ∀ Q ∈ V, AnnotatedAlike (null Q ++ Ls.flatten))
    (hR : ∀ f ∈ as ++ Ls, ∀ I ∈ f, ∀ t ∈ terms I.integrand, ∀ V, functionSpace env t = .ok V →
      reduced sem red I.rest V t.attrs = R I.rest V t.attrs)
    (tiny : Tiny K) {solve : Solver K} (hs : Exact solve) (hreg : SolvesRegular solve) {bcs : BcArg K}
    {data : List (List (Nat × K))}
    (hbc : BcsAre V.length bcs data) (hr : InRange (V.map sem.dim) data) {diag : K} (hd : diag ≠ 0) (sym : Bool)
    {U : List IIFunction.Space} (hU : U.map (fun s => s.dim) = V.map sem.dim)
    (huniq : ∃! xs, VariationalSolution sem R env V as.flatten Ls.flatten data xs) (h : Heap K) :
    ∃ f, ∀ k, f ≤ k → ∃ fs h',
      formProgram sem order (assemblers W' O) (fuel + 1) env null V as Ls tiny k solve bcs diag sym U h = .ok (fs, h') ∧
      fs.map (fun f => f.space) = U ∧
        VariationalSolution sem R env V as.flatten Ls.flatten data (vectors h' fs) ∧
        ∀ p, p < h.next → h'.vec p = h.vec p := by
  have hmem : ∀ f ∈ as ++ Ls, ∀ I ∈ f, I ∈ as.flatten ++ Ls.flatten := by
    intro f hf I hI
    rw [← List.flatten_append]
    exact List.mem_flatten.2 ⟨f, hf, hI⟩
  have hw : ∀ f ∈ as ++ Ls, ∀ I ∈ f, WellFormed sem (assemblers W' O) I := fun f hf I hI =>
    assemblable_wellFormed (hasm I (hmem f hf I hI)).1 (hasm I (hmem f hf I hI)).2.1
  have hn' : NullForms sem (reduced sem red) env (assemblers W' O) V null := by
    refine ⟨hn.arguments, hn.linear, hn.wellFormed, hn.plain, fun Q hQ v u => ?_⟩
    rw [← hn.zero Q hQ v u]
    refine total_congr (fun I hI t ht P _ => ?_) v u
    funext x
    rw [hn.plain Q hQ I hI t ht, reduced, if_pos rfl, hR0]
  have hblocks : ForForms (history (addOne2 V) (start2 V) as) (history (addOne1 V) (start1 null V) Ls)
      (fun F => ∃ t, assemble sem order (assemblers W' O) (fuel + 1) env F = .ok t) := by
    have h1 := added_members hn' had
    have h2 := added_forForms hn' had (fun f hf => hw f (List.mem_append_left _ hf))
      (fun f hf => hw f (List.mem_append_right _ hf))
    have key : ∀ F, ((∀ I ∈ F, I ∈ as.flatten) ∨ ∃ Q ∈ V, ∀ I ∈ F, I ∈ null Q ++ Ls.flatten) →
        ((∀ I ∈ F, WellFormed sem (assemblers W' O) I) ∧ SameArguments F) →
        ∃ t, assemble sem order (assemblers W' O) (fuel + 1) env F = .ok t := by
      intro F hF hF'
      rcases hF with hF | ⟨Q, hQ, hF⟩
      · obtain ⟨t, ht, _⟩ := assembly_returns order ho (W := W') (O := O) (env := env)
          (fun I hI => (hasm I (List.mem_append_left _ (hF I hI))).1) hF'.2
          (fun I hI J hJ => hala I (hF I hI) J (hF J hJ))
          (fun I hI => (hasm I (List.mem_append_left _ (hF I hI))).2.2)
        exact ⟨t, ht⟩
      · have hb : ∀ I ∈ F, Assemblable sem W' O env I ∧ annotated I.integrand < fuel := by
          intro I hI
          rcases List.mem_append.1 (hF I hI) with hI' | hI'
          · exact hnull Q hQ I hI'
          · have := hasm I (List.mem_append_right _ hI')
            exact ⟨this.1, this.2.2⟩
        obtain ⟨t, ht, _⟩ := assembly_returns order ho (W := W') (O := O) (env := env)
          (fun I hI => (hb I hI).1) hF'.2 (fun I hI J hJ => halL Q hQ I (hF I hI) J (hF J hJ)) (fun I hI => (hb I hI).2)
        exact ⟨t, ht⟩
    exact ⟨fun row hrow F hF => key F (h1.1 row hrow F hF) (h2.1 row hrow F hF), fun F hF => key F (h1.2 F hF) (h2.2 F hF)⟩
  obtain ⟨⟨f, hf⟩, hret⟩ := forms_standing hR0 W' htab ho (fuel := fuel + 1) (env := env) hV hn hw hR tiny hs hbc hr hd sym
    hU h
  obtain ⟨g, hg⟩ := hret hnd had hblocks hreg huniq
  refine ⟨max f g, fun k hk => ?_⟩
  obtain ⟨⟨fs, h'⟩, hrun⟩ := hg k (by omega)
  exact ⟨fs, h', hrun, hf k (by omega) fs h' hrun⟩

end Verif.Program

/-! ## The hypotheses are met -/

namespace Verif.Assembly
open Verif Ufl BlockForm Reduced Dispatch BlockOps Collapse ApplyBc Workflow IIFunction Coupling Program AverageForm Finset

/-- Spaces 7 and the coefficient 2 are on a plane mesh 0, the space 8 on the mesh 5 of curves; integrals are over this. -/
def curveWorld : World Nat where
  tdim
    | .argument _ 7 => 2
    | .argument _ _ => 1
    | .other 2 => 2
    | .other _ => -1
  mesh
    | .argument _ 7 => some 0
    | .argument _ _ => some 5
    | .other 2 => some 0
    | .other _ => none
  cell _ := true
  idim _ := 1
  imesh _ := 5
  annotMesh _ := 5

/-- All reductions are multiplication with 3. -/
def curveOps : Ops Nat ℚ where
  domain _ _ V := V
  space _ _ _ _ := .ok 8
  matrix _ _ _ _ _ := .ok (Mat.of 1 1 (fun _ _ => 3))

/-- `Trace(v)*u*Trace(f)*dx + Mean(v)*u*dx` over two measures. -/
def curveForm : List (Integral Nat) :=
  [⟨.node 0 [.term ⟨.argument 0 7, [("trace_", 1)]⟩, .term ⟨.argument 1 8, []⟩, .term ⟨.other 2, [("trace_", 1)]⟩], 0⟩,
   ⟨.node 0 [.term ⟨.argument 0 7, [("mean_", 2)]⟩, .term ⟨.argument 1 8, []⟩], 1⟩]

def curveEnv : Env Nat ℚ := fun i => if i = 2 then some (7, fun _ => 2) else none

theorem curve_settled (rest n : Nat) : Settled curveWorld rest ⟨.argument n 8, []⟩ :=
  ⟨rfl, by simp [curveWorld], fun m h => by simp [curveWorld] at h ⊢; exact h.symm⟩

theorem curve_new (rest i : Nat) : Settled curveWorld rest ⟨.other (2 * i + 1), []⟩ := by
  refine ⟨rfl, ?_, fun m h => ?_⟩
  · simp only [curveWorld]
    split <;> first | omega | (rename_i h; cases h) | skip
    all_goals simp_all
    all_goals omega
  · simp only [curveWorld] at h
    split at h <;> simp_all
    all_goals omega

theorem curve_assemblable : ∀ I ∈ curveForm, Assemblable exSem curveWorld curveOps curveEnv I := by
  intro I hI
  simp only [curveForm, List.mem_cons, List.not_mem_nil, or_false] at hI
  have hk : ∀ {rest : Nat} {t : Term Nat} {k l : Kind} {v : Nat}, t.attrs = [(l.attr, v)] → Fits curveWorld rest t k → k = l := by
    rintro rest t k l v h ⟨w, hw, _⟩
    rw [h] at hw
    simp only [List.cons.injEq, Prod.mk.injEq] at hw
    exact (attr_inj hw.1.1).symm
  rcases hI with rfl | rfl
  · have hf : ∀ {t : Term Nat} {k : Kind}, t ∈ terms (.node 0 [.term ⟨.argument 0 7, [("trace_", 1)]⟩,
        .term ⟨.argument 1 8, []⟩, .term ⟨.other 2, [("trace_", 1)]⟩] : UExpr Nat) → Fits curveWorld 0 t k → k = .trace := by
      intro t k ht h
      simp [terms, termsAll] at ht
      rcases ht with rfl | rfl | rfl
      · exact hk (l := .trace) rfl h
      · exact absurd h (settled_not_fits rfl)
      · exact hk (l := .trace) rfl h
    refine ⟨?_, ?_, ?_, ?_, ?_, ?_, ?_, ?_, curve_new 0⟩
    · intro s hs t ht hb
      simp [terms, termsAll] at hs ht
      rcases hs with rfl | rfl | rfl <;> rcases ht with rfl | rfl | rfl <;> simp_all
    · intro t ht n V hb
      simp [terms, termsAll] at ht
      rcases ht with rfl | rfl | rfl <;> simp at hb <;> omega
    · intro s hs t ht n V Q hV hQ
      simp [terms, termsAll] at hs ht
      rcases hs with rfl | rfl | rfl <;> rcases ht with rfl | rfl | rfl <;> simp at hV hQ <;> omega
    · intro t ht V hb
      exact ⟨⟨.argument 0 7, [("trace_", 1)]⟩, by simp [terms, termsAll], 7, rfl⟩
    · intro t ht
      simp [terms, termsAll] at ht
      rcases ht with rfl | rfl | rfl
      · exact .inr ⟨.trace, 1, rfl, rfl, rfl, rfl⟩
      · exact .inl (curve_settled _ _)
      · exact .inr ⟨.trace, 1, rfl, rfl, rfl, rfl⟩
    · intro t ht k hk h
      have := hf ht h
      subst this
      rcases hk with h | h <;> cases h
    · intro s hs t ht h
      have := hf hs h
      cases this
    · intro t ht k h
      have := hf ht h
      subst this
      simp [terms, termsAll] at ht
      rcases ht with rfl | rfl | rfl
      · exact ⟨7, 8, _, .inl ⟨0, rfl⟩, rfl, rfl, rfl, rfl, fun n => curve_settled _ n⟩
      · exact absurd h (settled_not_fits rfl)
      · exact ⟨7, 8, _, .inr ⟨2, _, rfl, rfl⟩, rfl, rfl, rfl, rfl, fun n => curve_settled _ n⟩
  · have hf : ∀ {t : Term Nat} {k : Kind}, t ∈ terms (.node 0 [.term ⟨.argument 0 7, [("mean_", 2)]⟩,
        .term ⟨.argument 1 8, []⟩] : UExpr Nat) → Fits curveWorld 1 t k → k = .mean := by
      intro t k ht h
      simp [terms, termsAll] at ht
      rcases ht with rfl | rfl
      · exact hk (l := .mean) rfl h
      · exact absurd h (settled_not_fits rfl)
    refine ⟨?_, ?_, ?_, ?_, ?_, ?_, ?_, ?_, curve_new 1⟩
    · intro s hs t ht hb
      simp [terms, termsAll] at hs ht
      rcases hs with rfl | rfl <;> rcases ht with rfl | rfl <;> simp_all
    · intro t ht n V hb
      simp [terms, termsAll] at ht
      rcases ht with rfl | rfl <;> simp at hb <;> omega
    · intro s hs t ht n V Q hV hQ
      simp [terms, termsAll] at hs ht
      rcases hs with rfl | rfl <;> rcases ht with rfl | rfl <;> simp at hV hQ <;> omega
    · intro t ht V hb
      exact ⟨⟨.argument 0 7, [("mean_", 2)]⟩, by simp [terms, termsAll], 7, rfl⟩
    · intro t ht
      simp [terms, termsAll] at ht
      rcases ht with rfl | rfl
      · exact .inr ⟨.mean, 2, rfl, trivial⟩
      · exact .inl (curve_settled _ _)
    · intro t ht k hk h
      have := hf ht h
      subst this
      rcases hk with h | h <;> cases h
    · intro s hs t ht h
      have := hf hs h
      cases this
    · intro t ht k h
      have := hf ht h
      subst this
      simp [terms, termsAll] at ht
      rcases ht with rfl | rfl
      · exact ⟨7, 8, _, .inl ⟨0, rfl⟩, rfl, rfl, rfl, rfl, fun n => curve_settled _ n⟩
      · exact absurd h (settled_not_fits rfl)

/-- A form with a trace, a traced coefficient and a mean is assembled, whatever the order of the terminals. -/
example (order : List (Term Nat) → List (Term Nat)) (ho : ∀ l, (order l).Perm l) :
    ∃ t, assemble exSem order (assemblers curveWorld curveOps) 4 curveEnv curveForm = .ok t := by
  obtain ⟨t, ht, _⟩ := assembly_returns order ho curve_assemblable (fuel := 3) (by
    intro I hI t ht n V hb J hJ
    simp only [curveForm, List.mem_cons, List.not_mem_nil, or_false] at hI hJ
    rcases hI with rfl | rfl <;> rcases hJ with rfl | rfl <;> simp [terms, termsAll] at ht ⊢ <;> grind) (by
    intro I hI J hJ hr s hs t ht hb
    simp only [curveForm, List.mem_cons, List.not_mem_nil, or_false] at hI hJ
    rcases hI with rfl | rfl <;> rcases hJ with rfl | rfl <;> simp at hr <;> simp [terms, termsAll] at hs ht <;> grind) (by
    intro I hI
    simp only [curveForm, List.mem_cons, List.not_mem_nil, or_false] at hI
    rcases hI with rfl | rfl <;> decide)
  exact ⟨t, ht⟩

/-- Terminals of the integrals of the example of averages. -/
theorem rod_fits {rest : Nat} {t : Term Nat} {k : Kind}
    (ht : t.attrs = [] ∨ t.attrs = [("average_", 1)]) (h : Fits rodWorld rest t k) :
    k = .average ∧ t.attrs = [("average_", 1)] := by
  rcases ht with ht | ht
  · exact absurd h (settled_not_fits ht)
  · obtain ⟨v, hv, _⟩ := h
    rw [ht] at hv
    simp only [List.cons.injEq, Prod.mk.injEq] at hv
    exact ⟨(attr_inj (k := .average) hv.1.1).symm, ht⟩

theorem rod_settled {rest : Nat} {b : Base Nat} (h : rodWorld.tdim b ≤ rodWorld.idim rest) : Settled rodWorld rest ⟨b, []⟩ :=
  ⟨rfl, h, fun m hm => by simp [rodWorld] at hm⟩

theorem rod_new (rest i : Nat) : Settled rodWorld rest ⟨.other (2 * i + 1), []⟩ := by
  refine rod_settled ?_
  simp only [rodWorld]
  split <;> omega

theorem rod_target (rest n : Nat) : Settled rodWorld rest ⟨.argument n 8, []⟩ := by
  refine rod_settled ?_
  simp only [rodWorld]
  split <;> omega

/-- Integrals of the example. -/
theorem rod_assemblable {M : Mat ℚ} (hr : M.rows = 2) (hc : M.cols = 2) {I : Integral Nat}
    (h : I ∈ rodForm ∨ I ∈ rodForm' ∨ I ∈ rodTest ∨ ∃ Q ∈ [7, 8], I ∈ rodNull Q) :
    Assemblable rodSem rodWorld (rodOps (.ok M)) (fun _ => none) I := by
  have hattrs : ∀ t ∈ terms I.integrand, (t.attrs = [] ∧ Settled rodWorld I.rest t) ∨
      (t.attrs = [("average_", 1)] ∧ (∃ n, t.base = .argument n 7) ∧ I.rest = 0) := by
    intro t ht
    rcases h with h | h | h | ⟨Q, hQ, h⟩
    · simp only [rodForm, List.mem_singleton] at h
      subst h
      simp [terms, termsAll] at ht
      rcases ht with rfl | rfl
      · exact .inr ⟨rfl, ⟨_, rfl⟩, rfl⟩
      · exact .inl ⟨rfl, rod_target _ _⟩
    · simp only [rodForm', List.mem_singleton] at h
      subst h
      simp [terms, termsAll] at ht
      rcases ht with rfl | rfl
      · exact .inr ⟨rfl, ⟨_, rfl⟩, rfl⟩
      · exact .inl ⟨rfl, rod_target _ _⟩
    · simp only [rodTest, List.mem_singleton] at h
      subst h
      simp [terms] at ht
      subst ht
      exact .inl ⟨rfl, rod_target _ _⟩
    · simp only [rodNull, List.mem_singleton] at h
      subst h
      simp only [List.mem_cons, List.not_mem_nil, or_false] at hQ
      simp [terms, termsAll] at ht
      rcases ht with rfl | rfl
      · refine .inl ⟨rfl, rod_settled ?_⟩
        simp only [rodWorld]; split <;> split <;> omega
      · refine .inl ⟨rfl, rod_settled ?_⟩
        rcases hQ with rfl | rfl <;> decide
  have hfit : ∀ t ∈ terms I.integrand, ∀ k, Fits rodWorld I.rest t k →
      k = .average ∧ t.attrs = [("average_", 1)] ∧ ∃ n, t.base = .argument n 7 := by
    intro t ht k hf
    rcases hattrs t ht with ⟨h0, _⟩ | ⟨h0, h1, _⟩
    · exact absurd hf (settled_not_fits h0)
    · exact ⟨(rod_fits (.inr h0) hf).1, h0, h1⟩
  have hrest : Consistent I.integrand ∧ (∀ t ∈ terms I.integrand, ∀ n V, t.base = .argument n V → n ≤ 1) ∧
      (∀ s ∈ terms I.integrand, ∀ t ∈ terms I.integrand, ∀ n V Q, s.base = .argument n V → t.base = .argument n Q → V = Q) ∧
      (∀ t ∈ terms I.integrand, ∀ V, t.base = .argument 1 V → ∃ s ∈ terms I.integrand, ∃ Q, s.base = .argument 0 Q) := by
    rcases h with h | h | h | ⟨Q, hQ, h⟩
    · simp only [rodForm, List.mem_singleton] at h
      subst h
      clear hattrs hfit
      refine ⟨?_, ?_, ?_, ?_⟩ <;> simp [Consistent, terms, termsAll] <;> grind
    · simp only [rodForm', List.mem_singleton] at h
      subst h
      clear hattrs hfit
      refine ⟨?_, ?_, ?_, ?_⟩ <;> simp [Consistent, terms, termsAll] <;> grind
    · simp only [rodTest, List.mem_singleton] at h
      subst h
      refine ⟨?_, ?_, ?_, ?_⟩ <;> simp only [Consistent, terms] <;> grind
    · simp only [rodNull, List.mem_singleton] at h
      subst h
      refine ⟨?_, ?_, ?_, ?_⟩ <;> simp only [Consistent, terms, termsAll] <;> grind
  refine ⟨hrest.1, hrest.2.1, hrest.2.2.1, hrest.2.2.2, ?_, ?_, ?_, ?_, rod_new I.rest⟩
  · intro t ht
    rcases hattrs t ht with ⟨_, h0⟩ | ⟨h0, ⟨n, h1⟩, h2⟩
    · exact .inl h0
    · refine .inr ⟨.average, 1, h0, ?_, rfl⟩
      rw [h1, h2]; rfl
  · intro t ht k _ hf s hs hd
    obtain ⟨rfl, _, n, hb⟩ := hfit t ht k hf
    rcases hattrs s hs with ⟨_, h0⟩ | ⟨h0, ⟨n, h1⟩, h2⟩
    · have := h0.2.1; omega
    · exact ⟨1, h0, hd, rfl⟩
  · intro s hs t ht hf
    cases (hfit s hs _ hf).1
  · intro t ht k hf
    obtain ⟨rfl, h1, n, hb⟩ := hfit t ht k hf
    exact ⟨7, 8, M, .inl ⟨n, hb⟩, rfl, rfl, hr, hc, fun n => rod_target _ n⟩

/-- The program of the example of averages returns the solution; nothing is assumed about the assembly. -/
example (order : List (Term Nat) → List (Term Nat)) (ho : ∀ l, (order l).Perm l) (h : Heap ℚ) :
    ∃ f, ∀ k, f ≤ k → ∃ fs h', formProgram rodSem order (assemblers rodWorld (rodOps rodM)) 4 (fun _ => none) rodNull [7, 8]
        [rodForm, rodForm'] [rodTest] noTiny k oracle .none 1 true [⟨0, 2⟩, ⟨1, 2⟩] h = .ok (fs, h') ∧
      vectors h' fs = [[1, 1], [0, 0]] := by
  obtain ⟨M, hM, hr, hc, -⟩ := Average.average_general Average.exV_wf (by omega) lineL_wf (collide := Average.exCollide)
    (quad := fun x _ => .ok ([x - 1 / 2, x + 1 / 2], [1, 3]))
    (pts := fun t d => [lineL.coords d - 1 / 2, lineL.coords d + 1 / 2]) (ws := fun _ _ => [1, 3])
    (fun t _ d _ => ⟨rfl, rfl⟩)
  have hM' : rodM = .ok M := hM
  rw [hM']
  have hav := rod_isAveraged (.ok M) hM'.symm 1
  have htab : ∀ k attrs V rest TV T, (List.lookup (Kind.attr k) attrs).isSome →
      (rodOps (.ok M)).space k attrs ((rodOps (.ok M)).domain k attrs V) rest = .ok TV →
      (rodOps (.ok M)).matrix k attrs ((rodOps (.ok M)).domain k attrs V) TV rest = .ok T →
      (8, M) = (TV, T) ∧ T.rows = rodSem.dim TV ∧ T.cols = rodSem.dim V := by
    intro k attrs V rest TV T _ h1 h2
    cases h1
    cases k <;> simp only [rodOps] at h2 <;> try cases h2
    split at h2 <;> cases h2
    exact ⟨rfl, hr, hc⟩
  have hpl : ∀ V u, reduced rodSem (fun _ _ _ => (8, M)) 0 V [] u = rodR 0 V [] u := by
    intro V u
    rw [reduced, if_pos rfl, rodR, averaged, if_pos rfl]
  have hred : ∀ u, reduced rodSem (fun _ _ _ => (8, M)) 0 7 [("average_", 1)] u = rodR 0 7 [("average_", 1)] u := by
    intro u
    rw [reduced_average (red := fun _ _ _ => (8, M)) (fun k attrs V rest TV T a b c => ⟨(htab k attrs V rest TV T a b c).1,
      (htab k attrs V rest TV T a b c).2.1⟩) hav (by simp) u, rodR, averaged, if_neg (by simp)]
  obtain ⟨f, hf⟩ := forms_run (R := rodR) (fun rest V x => by rw [rodR, averaged, if_pos rfl]) rodWorld (O := rodOps (.ok M))
    (red := fun _ _ _ => (8, M)) htab ho (fuel := 3) (env := fun _ => none) (V := [7, 8]) (by simp) (by decide)
    (rodNull_ok rodR _) rod_added (by
      intro I hI
      have h0 : I ∈ rodForm ∨ I ∈ rodForm' ∨ I ∈ rodTest := by simpa using hI
      refine ⟨rod_assemblable hr hc (by tauto), ?_, ?_⟩
      · rcases h0 with h0 | h0 | h0
        · exact (rod_wellFormed (rodOps (.ok M)) I h0).linear
        · exact (rod_wellFormed' (rodOps (.ok M)) I h0).linear
        · exact (rodTest_wellFormed (rodOps (.ok M)) I h0).linear
      · rcases h0 with h0 | h0 | h0 <;> simp only [rodForm, rodForm', rodTest, List.mem_singleton] at h0 <;> subst h0 <;>
          decide)
    (fun Q hQ I hI => ⟨rod_assemblable hr hc (.inr (.inr (.inr ⟨Q, hQ, hI⟩))), by
      simp only [rodNull, List.mem_singleton] at hI
      subst hI
      simp [annotated, terms, termsAll]⟩)
    (by
      intro I hI J hJ _
      simp only [rodForm, rodForm', List.flatten_cons, List.flatten_nil, List.append_nil, List.cons_append, List.nil_append,
        List.mem_cons, List.not_mem_nil, or_false] at hI hJ
      rcases hI with rfl | rfl <;> rcases hJ with rfl | rfl <;> simp only [terms, termsAll] <;> grind)
    (by
      intro Q hQ I hI J hJ _
      simp only [rodNull, rodTest, List.flatten_cons, List.flatten_nil, List.append_nil, List.cons_append, List.nil_append,
        List.mem_cons, List.not_mem_nil, or_false] at hI hJ hQ
      rcases hI with rfl | rfl <;> rcases hJ with rfl | rfl <;> simp only [terms, termsAll] <;> grind)
    (by
      intro f hf I hI t ht V hV
      funext u
      simp only [List.cons_append, List.nil_append, List.mem_cons, List.not_mem_nil, or_false] at hf
      rcases hf with rfl | rfl | rfl <;> simp only [rodForm, rodForm', rodTest, List.mem_singleton] at hI <;> subst hI <;>
        simp [terms, termsAll] at ht
      · rcases ht with rfl | rfl
        · cases hV; exact hred u
        · exact hpl _ u
      · rcases ht with rfl | rfl
        · cases hV; exact hred u
        · exact hpl _ u
      · subst ht; exact hpl _ u)
    noTiny oracle_exact oracle_regular .none (fun k d v n h1 h2 => by simp at h1) (diag := 1) one_ne_zero true
    (U := [⟨0, 2⟩, ⟨1, 2⟩]) rfl ⟨_, (rod_variational _).2 rfl, fun y hy => (rod_variational y).1 hy⟩ h
  refine ⟨f, fun k hk => ?_⟩
  obtain ⟨fs, h', hrun, _, hsol, _⟩ := hf k hk
  exact ⟨fs, h', hrun, (rod_variational _).1 hsol⟩

end Verif.Assembly
