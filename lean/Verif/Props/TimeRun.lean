import Verif.Props.TimeDep
import Verif.Props.Assembly
/-! # C102: time stepping from forms does not raise -/
namespace Verif.TimeDep
open Verif Ufl BlockOps BlockForm Collapse ApplyBc IIFunction Workflow Reduced Dispatch ListUtils Program Coupling Assembly Finset

variable {S K D : Type} [DecidableEq S] [Field K] [AddCommGroup D] [Module K D]

/-- Whether a form can be assembled depends neither on the time nor on the coefficients of `u0`. -/
theorem assemblable_atTime {sem : Sem S K D} {W : World S} {O : Ops S K} {env : Env S K} {i : Nat} {V : S} {I : Integral S}
    (h : Assemblable sem W O (withFn env i V []) I) (c : Nat → D) (u : List K) :
    Assemblable (atTime sem c) W O (withFn env i V u) I := by
  refine ⟨h.consistent, h.twoArguments, h.oneSpace, h.trialAndTest, h.terminals, h.averages, h.restrictions, ?_, h.new⟩
  intro t ht k hk
  obtain ⟨Q, TV, T, hQ, rest⟩ := h.reductions t ht k hk
  refine ⟨Q, TV, T, ?_, rest⟩
  rcases hQ with hQ | ⟨j, d, hj, hd⟩
  · exact Or.inl hQ
  · refine Or.inr ?_
    by_cases e : j = i
    · subst e
      have hV : V = Q := by
        simp only [withFn, setEnv, if_true, Option.some.injEq, Prod.mk.injEq] at hd
        exact hd.1
      subst hV
      exact ⟨j, _, hj, by simp only [withFn, setEnv, if_true]; rfl⟩
    · refine ⟨j, d, hj, ?_⟩
      simp only [withFn, setEnv, if_neg e] at hd ⊢
      exact hd

/-- **C102** Time stepping from forms in which functions are from the mesh of the integral or reduced to it returns after any
number of passes, if the discrete problems of all times have just one solution, and the functions found in each pass solve the
problem of the time of the pass. -/
theorem time_run {sem : Sem S K D} {R : Standing S K D} (W' : World S) {O : Ops S K} {red : Reduction S K}
    (htab : ∀ k attrs V rest TV T, (attrs.lookup k.attr).isSome →
      O.space k attrs (O.domain k attrs V) rest = .ok TV → O.matrix k attrs (O.domain k attrs V) TV rest = .ok T →
      red attrs V rest = (TV, T) ∧ T.rows = sem.dim TV ∧ T.cols = sem.dim V)
    {order : List (Term S) → List (Term S)} (ho : ∀ l, (order l).Perm l) {fuel : Nat} {env : Env S K} {i : Nat} {V : S}
    {W : List S} {a : List (List (Entry S))} {L : List (Entry S)} (hW : BlockForms W a L)
    (hforms : ForForms a L (fun F => SameArguments F ∧ AnnotatedAlike F ∧ ∀ I ∈ F,
      Assemblable sem W' O (withFn env i V []) I ∧ Linear sem I ∧ annotated I.integrand < fuel ∧
      ∀ t ∈ terms I.integrand, ∀ Q, functionSpace (withFn env i V []) t = .ok Q →
        reduced sem red I.rest Q t.attrs = R I.rest Q t.attrs))
    {c : Nat → Nat → D} (hc : Steady env i c a) (tiny : Tiny K) {solve : Solver K} (hs : Exact solve)
    (hreg : SolvesRegular solve)
    {bcs : Nat → List (List (List (Nat × K)))} (hn : (bcs 0).length = W.length) (hsame : ∀ k, SameDofs (bcs 0) (bcs k))
    (hr : InRange (W.map sem.dim) ((bcs 0).map List.flatten)) (hcon : Constrains ((bcs 0).map List.flatten))
    (huniq : ∀ k u, ∃! xs, DiscreteSolution (formValue sem R env i V (c (k + 1)) u) (W.map sem.dim) a L
      ((bcs (k + 1)).map List.flatten) xs)
    {U : List IIFunction.Space} (hU : U.map (fun s => s.dim) = W.map sem.dim) (h : Heap K) {u0 : Nat} (hu0 : u0 < h.next) :
    ∃ f, ∀ g, f ≤ g → ∀ n, ∃ hist,
      timeProgram sem order (assemblers W' O) (fuel + 1) env i V c a L tiny g solve (W.map sem.dim)
        (fun k => dirichlet (bcs k)) U u0 n h = .ok hist ∧
      hist.length = n ∧ Marches (fun k u => formValue sem R env i V (c (k + 1)) u) (W.map sem.dim) a L
        (fun k => (bcs (k + 1)).map List.flatten) 0 (h.vec u0) hist := by
  have hw : ForForms a L (fun F => (∀ I ∈ F, WellFormed sem (assemblers W' O) I) ∧ SameArguments F ∧
      ∀ I ∈ F, ∀ t ∈ terms I.integrand, ∀ Q, functionSpace (withFn env i V []) t = .ok Q →
        reduced sem red I.rest Q t.attrs = R I.rest Q t.attrs) :=
    ⟨fun row hrow F hF => have hh := hforms.1 row hrow F hF
      ⟨fun I hI => assemblable_wellFormed (hh.2.2 I hI).1 (hh.2.2 I hI).2.1, hh.1, fun I hI => (hh.2.2 I hI).2.2.2⟩,
     fun F hF => have hh := hforms.2 F hF
      ⟨fun I hI => assemblable_wellFormed (hh.2.2 I hI).1 (hh.2.2 I hI).2.1, hh.1, fun I hI => (hh.2.2 I hI).2.2.2⟩⟩
  have hasm : ∀ k u, ForForms a L (fun F =>
      ∃ t, assemble (atTime sem (c k)) order (assemblers W' O) (fuel + 1) (withFn env i V u) F = .ok t) := by
    intro k u
    have key : ∀ F, (SameArguments F ∧ AnnotatedAlike F ∧ ∀ I ∈ F,
        Assemblable sem W' O (withFn env i V []) I ∧ Linear sem I ∧ annotated I.integrand < fuel ∧
        ∀ t ∈ terms I.integrand, ∀ Q, functionSpace (withFn env i V []) t = .ok Q →
          reduced sem red I.rest Q t.attrs = R I.rest Q t.attrs) →
        ∃ t, assemble (atTime sem (c k)) order (assemblers W' O) (fuel + 1) (withFn env i V u) F = .ok t := by
      intro F hF
      obtain ⟨t, ht, _⟩ := assembly_returns order ho
        (fun I hI => assemblable_atTime (hF.2.2 I hI).1 (c k) u) hF.1 hF.2.1 (fun I hI => (hF.2.2 I hI).2.2.1)
      exact ⟨t, ht⟩
    exact ⟨fun row hrow F hF => key F (hforms.1 row hrow F hF), fun F hF => key F (hforms.2 F hF)⟩
  obtain ⟨f1, hf1⟩ := time_forms W' htab ho (fuel := fuel + 1) hW hw hc tiny hs hn hsame hr hcon hU h hu0
  obtain ⟨f2, hf2⟩ := time_forms_return W' htab ho (fuel := fuel + 1) hW hw hc hasm tiny hs hreg hn hsame hr hcon huniq hU h hu0
  refine ⟨max f1 f2, fun g hg n => ?_⟩
  obtain ⟨hist, hh⟩ := hf2 g (by omega) n
  exact ⟨hist, hh, hf1 g (by omega) n hist hh⟩

/-! ## The case of `Props/TimeDep` -/

section example_

theorem pair_settled (rest : Nat) (b : Base Nat) : Settled pairWorld rest ⟨b, []⟩ :=
  ⟨rfl, le_refl _, fun m h => by cases h⟩

theorem pair_not_fits {rest : Nat} {b : Base Nat} {k : Kind} : ¬ Fits pairWorld rest ⟨b, []⟩ k := by
  rintro ⟨v, h, _⟩; cases h

theorem pair_plain {I : Integral Nat} (hI : I ∈ pairA ∨ I ∈ pairL) {t : Term Nat} (ht : t ∈ terms I.integrand) :
    ∃ b, t = ⟨b, []⟩ ∧ (b = .argument 0 7 ∨ b = .argument 1 7 ∨ ∃ j, b = .other j) := by
  rcases hI with hI | hI
  · rcases pair_termsA ⟨I, hI, ht⟩ with rfl | rfl | rfl <;> simp
  · rcases pair_termsL ⟨I, hI, ht⟩ with rfl | rfl | rfl <;> simp

theorem pair_assemblable (env : Env Nat ℚ) {I : Integral Nat} (hI : I ∈ pairA ∨ I ∈ pairL) :
    Assemblable pairSem pairWorld pairOps env I where
  consistent := (pair_wellFormed I hI).consistent
  twoArguments t ht n V hb := by
    obtain ⟨b, rfl, h⟩ := pair_plain hI ht
    rcases h with rfl | rfl | ⟨j, rfl⟩ <;> cases hb <;> decide
  oneSpace s hs t ht n V Q h1 h2 := by
    obtain ⟨b, rfl, h⟩ := pair_plain hI hs
    obtain ⟨b', rfl, h'⟩ := pair_plain hI ht
    rcases h with rfl | rfl | ⟨j, rfl⟩ <;> rcases h' with rfl | rfl | ⟨j', rfl⟩ <;> cases h1 <;> cases h2 <;> rfl
  trialAndTest t ht V hb := by
    rcases hI with hI | hI
    · simp only [pairA, List.mem_singleton] at hI
      subst hI
      exact ⟨⟨.argument 0 7, []⟩, by simp [terms, termsAll], 7, rfl⟩
    · rcases pair_termsL ⟨I, hI, ht⟩ with rfl | rfl | rfl <;> simp at hb
  terminals t ht := by
    obtain ⟨b, rfl, -⟩ := pair_plain hI ht
    exact Or.inl (pair_settled _ b)
  averages t ht k _ hf := by
    obtain ⟨b, rfl, -⟩ := pair_plain hI ht
    exact absurd hf pair_not_fits
  restrictions s hs t _ hf := by
    obtain ⟨b, rfl, -⟩ := pair_plain hI hs
    exact absurd hf pair_not_fits
  reductions t ht k hf := by
    obtain ⟨b, rfl, -⟩ := pair_plain hI ht
    exact absurd hf pair_not_fits
  new i := pair_settled _ _

/-- Any number of passes, in any order of terminals. -/
example (order : List (Term Nat) → List (Term Nat)) (ho : ∀ l, (order l).Perm l) (h : Heap ℚ) (hnext : 0 < h.next) :
    ∃ f, ∀ g, f ≤ g → ∀ n, ∃ hist,
      timeProgram pairSem order (assemblers pairWorld pairOps) 2 (fun _ => none) 0 7 pairC [[.form pairA]] [.form pairL] noTiny g
        oracle ([7].map pairSem.dim) (fun k => dirichlet (pairBcs k)) [⟨0, 2⟩] 0 n h = .ok hist ∧ hist.length = n := by
  have hal : ∀ F, F = pairA ∨ F = pairL → AnnotatedAlike F := by
    intro F hF I hI J hJ _ s hs t ht e
    obtain ⟨b, rfl, -⟩ := pair_plain (I := I) (by rcases hF with rfl | rfl <;> simp [hI]) hs
    obtain ⟨b', rfl, -⟩ := pair_plain (I := J) (by rcases hF with rfl | rfl <;> simp [hJ]) ht
    cases e; rfl
  have hone : ∀ F, F = pairA ∨ F = pairL → ∀ red : Reduction Nat ℚ, SameArguments F ∧ AnnotatedAlike F ∧ ∀ I ∈ F,
      Assemblable pairSem pairWorld pairOps (withFn (fun _ => none) 0 7 []) I ∧ Linear pairSem I ∧ annotated I.integrand < 1 ∧
      ∀ t ∈ terms I.integrand, ∀ Q, functionSpace (withFn (K := ℚ) (fun _ => none) 0 7 []) t = .ok Q →
        reduced pairSem red I.rest Q t.attrs = pairR I.rest Q t.attrs := by
    intro F hF red
    refine ⟨by rcases hF with rfl | rfl <;> [exact pair_sameArguments.1; exact pair_sameArguments.2], hal F hF, fun I hI => ?_⟩
    have hI' : I ∈ pairA ∨ I ∈ pairL := by rcases hF with rfl | rfl <;> simp [hI]
    refine ⟨pair_assemblable _ hI', (pair_wellFormed I hI').linear, ?_, fun t ht Q _ => ?_⟩
    · simp only [pairA, pairL, List.mem_cons, List.not_mem_nil, or_false] at hI'
      rcases hI' with rfl | rfl | rfl <;> decide
    · obtain ⟨b, rfl, -⟩ := pair_plain hI' ht
      funext x; rfl
  have hc : Steady (K := ℚ) (fun _ : Nat => (none : Option (Nat × (Nat → ℚ)))) 0 pairC [[Entry.form pairA]] := by
    intro row hrow F hF I hI t ht j hj
    simp at hrow; subst hrow; simp at hF; subst hF
    rcases pair_termsA ⟨I, hI, ht⟩ with rfl | rfl | rfl <;> simp at hj
    subst hj
    exact ⟨by decide, fun _ k => rfl⟩
  have hr : InRange ([7].map pairSem.dim) ((pairBcs 0).map List.flatten) := by
    intro k d v n h1 h2
    match k with
    | 0 => simp [pairBcs, pairSem] at h1 h2; omega
    | k + 1 => simp at h2
  have hcon : Constrains ((pairBcs 0).map List.flatten) := ⟨[(0, 0)], by simp [pairBcs], by simp⟩
  have htab' : ∀ (k : Kind) attrs V rest TV T, (attrs.lookup k.attr).isSome →
      pairOps.space k attrs (pairOps.domain k attrs V) rest = .ok TV →
      pairOps.matrix k attrs (pairOps.domain k attrs V) TV rest = .ok T →
      (fun _ _ _ => (0, Mat.of 0 0 (fun _ _ => 0)) : Reduction Nat ℚ) attrs V rest = (TV, T) ∧ T.rows = pairSem.dim TV ∧
        T.cols = pairSem.dim V := by
    intro k attrs V rest TV T _ h1; cases h1
  obtain ⟨f, hf⟩ := time_run (fuel := 1) (i := 0) (V := 7) (env := fun _ => none) (c := pairC) (bcs := pairBcs) pairWorld
    htab' ho pair_blockForms (R := pairR)
    ⟨fun row hrow F hF => hone F (by simp at hrow; subst hrow; simp at hF; exact Or.inl hF) _,
      fun F hF => hone F (by simp at hF; exact Or.inr hF) _⟩ hc noTiny oracle_exact oracle_regular rfl (fun _ => rfl) hr hcon
    (fun k u => ⟨_, (pair_solution (k + 1) u _).2 rfl, fun y hy => (pair_solution (k + 1) u y).1 hy⟩)
    (U := [⟨0, 2⟩]) rfl h hnext
  refine ⟨f, fun g hg n => ?_⟩
  obtain ⟨hist, h1, h2, _⟩ := hf g hg n
  exact ⟨hist, h1, h2⟩

end example_

end Verif.TimeDep
