import Verif.Props.Coupling
import Verif.Props.Variational
/-! # Programs with any kind of reduction -/
namespace Verif.Program
open Verif Ufl BlockForm Reduced Dispatch BlockOps Collapse ApplyBc Workflow IIFunction Coupling Finset

section standing
variable {S K D : Type} [DecidableEq S] [Field K] [AddCommGroup D] [Module K D]

/-- The functions which terminals stand for, in a form with one test and one trial function. -/
theorem assembled_standing {sem : Sem S K D} {R : Standing S K D} (W : World S) {O : Ops S K} {red : Reduction S K}
    (htab : ∀ k attrs V rest TV T, (attrs.lookup k.attr).isSome →
      O.space k attrs (O.domain k attrs V) rest = .ok TV → O.matrix k attrs (O.domain k attrs V) TV rest = .ok T →
      red attrs V rest = (TV, T) ∧ T.rows = sem.dim TV)
    {order : List (Term S) → List (Term S)} (ho : ∀ l, (order l).Perm l) {fuel : Nat} {env : Env S K}
    {F : List (Integral S)} (hw : ∀ I ∈ F, WellFormed sem (assemblers W O) I) (hs : SameArguments F)
    (hR : ∀ I ∈ F, ∀ t ∈ terms I.integrand, ∀ V, functionSpace env t = .ok V →
      reduced sem red I.rest V t.attrs = R I.rest V t.attrs)
    {A : Tensor K} (hA : assemble sem order (assemblers W O) fuel env F = .ok A) (v u : Nat → K) :
    act v u A = total sem F (fun I => mixed sem R env (fun _ => v) (fun _ => u) I.rest) := by
  rw [assemble_represents_partial sem (assemblers W O) red ?_ order ho fuel env F A hw hs hA v u]
  · rw [← total_congr hR]
    refine Reduced.total_congr sem F _ _ (fun I hI t ht => ?_)
    obtain ⟨base, attrs⟩ := t
    match base with
    | .argument 0 V => rfl
    | .argument (n + 1) V => rfl
    | .other i => rfl
  · intro m hm'
    obtain ⟨k, _, rfl⟩ := List.mem_map.1 hm'
    exact ⟨fun attrs V rest TV T h1 h2 h3 => htab k attrs V rest TV T h1 h2 h3, fun rest t h => compatible_attr h⟩

/-- Programs from forms, when the reductions are described by `R`. -/
theorem forms_standing {sem : Sem S K D} {R : Standing S K D} (hR0 : ∀ rest V x, R rest V [] x = Reduced.fn sem V x)
    (W' : World S) {O : Ops S K} {red : Reduction S K}
    (htab : ∀ k attrs V rest TV T, (attrs.lookup k.attr).isSome →
      O.space k attrs (O.domain k attrs V) rest = .ok TV → O.matrix k attrs (O.domain k attrs V) TV rest = .ok T →
      red attrs V rest = (TV, T) ∧ T.rows = sem.dim TV ∧ T.cols = sem.dim V)
    {order : List (Term S) → List (Term S)} (ho : ∀ l, (order l).Perm l) {fuel : Nat} {env : Env S K} {V : List S}
    (hV : V ≠ []) {null : S → List (Integral S)}
    (hn : NullForms sem R env (assemblers W' O) V null) {as Ls : List (List (Integral S))}
    (hw : ∀ f ∈ as ++ Ls, ∀ I ∈ f, WellFormed sem (assemblers W' O) I)
    (hR : ∀ f ∈ as ++ Ls, ∀ I ∈ f, ∀ t ∈ terms I.integrand, ∀ V, functionSpace env t = .ok V →
      reduced sem red I.rest V t.attrs = R I.rest V t.attrs)
    (tiny : Tiny K) {solve : Solver K} (hs : Exact solve) {bcs : BcArg K} {data : List (List (Nat × K))}
    (hbc : BcsAre V.length bcs data) (hr : InRange (V.map sem.dim) data) {diag : K} (hd : diag ≠ 0) (sym : Bool)
    {U : List IIFunction.Space} (hU : U.map (fun s => s.dim) = V.map sem.dim) (h : Heap K) :
    (∃ f, ∀ k, f ≤ k → ∀ fs h',
      formProgram sem order (assemblers W' O) fuel env null V as Ls tiny k solve bcs diag sym U h = .ok (fs, h') →
      fs.map (fun f => f.space) = U ∧
        VariationalSolution sem R env V as.flatten Ls.flatten data (vectors h' fs) ∧
        ∀ p, p < h.next → h'.vec p = h.vec p) ∧
    (V.Nodup → Added V as Ls → ForForms (history (addOne2 V) (start2 V) as) (history (addOne1 V) (start1 null V) Ls)
        (fun F => ∃ t, assemble sem order (assemblers W' O) fuel env F = .ok t) → SolvesRegular solve →
      (∃! xs, VariationalSolution sem R env V as.flatten Ls.flatten data xs) →
      ∃ f, ∀ k, f ≤ k → ∃ r,
        formProgram sem order (assemblers W' O) fuel env null V as Ls tiny k solve bcs diag sym U h = .ok r) := by
  have hmods : ∀ m ∈ assemblers W' O, Implements m red sem ∧ Columns m sem := by
    intro m hm'
    obtain ⟨k, _, rfl⟩ := List.mem_map.1 hm'
    refine ⟨⟨fun attrs V rest TV T h1 h2 h3 => ?_, fun rest t h => compatible_attr h⟩,
      fun attrs V rest TV T h1 h2 h3 => (htab k attrs V rest TV T h1 h2 h3).2.2⟩
    obtain ⟨e1, e2, _⟩ := htab k attrs V rest TV T h1 h2 h3
    exact ⟨e1, e2⟩
  have hn' : NullForms sem (reduced sem red) env (assemblers W' O) V null := by
    refine ⟨hn.arguments, hn.linear, hn.wellFormed, hn.plain, fun Q hQ v u => ?_⟩
    rw [← hn.zero Q hQ v u]
    refine total_congr (fun I hI t ht P _ => ?_) v u
    funext x
    rw [hn.plain Q hQ I hI t ht, reduced, if_pos rfl, hR0]
  have hsol := fun xs => solution_congr (sem := sem) (R := reduced sem red) (R' := R) (env := env)
    (W := V) (a := as.flatten) (L := Ls.flatten) (data := data) (by
      intro I hI t ht Q hQ
      obtain ⟨f, hf, hIf⟩ : ∃ f ∈ as ++ Ls, I ∈ f := by
        rw [← List.flatten_append] at hI; exact List.mem_flatten.1 hI
      exact hR f hf I hIf t ht Q hQ) xs
  have hwa : ∀ f ∈ as, ∀ I ∈ f, WellFormed sem (assemblers W' O) I := fun f hf => hw f (List.mem_append_left _ hf)
  have hwL : ∀ f ∈ Ls, ∀ I ∈ f, WellFormed sem (assemblers W' O) I := fun f hf => hw f (List.mem_append_right _ hf)
  constructor
  · obtain ⟨f, hf⟩ := forms_solve ho (fun m h => (hmods m h).1) (fun m h => (hmods m h).2) (fuel := fuel) hV hn' hwa hwL
      tiny hs hbc hr hd sym hU h
    refine ⟨f, fun k hk fs h' hrun => ?_⟩
    obtain ⟨a1, a2, a3⟩ := hf k hk fs h' hrun
    exact ⟨a1, (hsol _).1 a2, a3⟩
  · rintro hnd had hasm hreg ⟨xs, h1, h2⟩
    exact forms_return ho (fun m h => (hmods m h).1) (fun m h => (hmods m h).2) (fuel := fuel) hV hnd hn' had hwa hwL
      hasm tiny hreg hbc hr hd sym ⟨xs, (hsol _).2 h1, fun ys hy => h2 ys ((hsol _).1 hy)⟩ U h

end standing
end Verif.Program
