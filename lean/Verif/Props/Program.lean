import Verif.Lemmas.Program
import Verif.Props.Coupling
/-! # From block forms to the solution of the discrete problem (C86) -/
namespace Verif.Program
open Verif Ufl BlockOps BlockForm Collapse ApplyBc IIFunction Workflow Reduced ListUtils Finset

variable {S K D : Type} [DecidableEq S] [Field K] [AddCommGroup D] [Module K D]

theorem act_mat (A : Mat K) (v u : Nat → K) : act v u (.mat A) = ∑ d ∈ range A.rows, v d * A.act u d := by
  simp only [act, Mat.act, mul_sum]
  exact sum_congr rfl (fun i _ => sum_congr rfl (fun j _ => by ring))

/-- The assembled system represents the forms. -/
theorem system_represents {sem : Sem S K D} {order : List (Term S) → List (Term S)} {mods : List (Assembler S K)}
    {fuel : Nat} {env : Env S K} {W : List S} {a : List (List (Entry S))} {L : List (Entry S)} (hW : BlockForms W a L)
    {val : List (Integral S) → (Nat → K) → (Nat → K) → K}
    (hval : ForForms a L (fun F => ∀ t, assemble sem order mods fuel env F = .ok t →
      Reduced.Shaped sem F t ∧ ∀ v u, act v u t = val F v u))
    {A : List (List (Expr K))} {b : List (List K)} (h : assembleSystem sem order mods fuel env a L = .ok (A, b)) :
    Represents val (W.map sem.dim) a L A b := by
  obtain ⟨hA, hb⟩ := assembleSystem_ok hW h
  have block : ∀ (i j : Nat) row e Arow x V Q, a[i]? = some row → row[j]? = some e → A[i]? = some Arow →
      Arow[j]? = some x → W[i]? = some V → W[j]? = some Q →
      BlockOk i j (sem.dim V) (sem.dim Q) x ∧
        ∀ v u, ∑ d ∈ range (sem.dim V), v d * x.act u d = value val (sem.dim V) v u e := by
    intro i j row e Arow x V Q hrow he hArow hx hV hQ
    obtain ⟨Arow', h1, h2⟩ := Extension.forall₂_get hA hrow
    rw [hArow] at h1; cases h1
    obtain ⟨x', h3, t, h4, h5⟩ := Extension.forall₂_get h2 he
    rw [hx] at h3; cases h3
    cases e with
    | num c =>
        cases h4; cases h5
        constructor
        · rcases hW.numbers i j row c hrow he with rfl | rfl
          · exact Or.inr (Or.inl (by simp))
          · rw [hV] at hQ; cases hQ
            exact Or.inr (Or.inr ⟨⟨_, rfl⟩, rfl, rfl⟩)
        · intro v u
          simp only [Expr.act, value, mul_sum]
          exact sum_congr rfl (fun d _ => by ring)
    | form F =>
        obtain ⟨V', Q', g1, g2, ⟨⟨I, hI, s, hs, hsb⟩, a2⟩, ⟨⟨J, hJ, r, hr, hrb⟩, a4⟩⟩ := hW.fits i j row _ hrow he
        rw [hV] at g1; cases g1
        rw [hQ] at g2; cases g2
        obtain ⟨hsh, hact⟩ := hval.1 row (List.mem_of_getElem? hrow) F (List.mem_of_getElem? he) t h4
        cases t with
        | num c => exact absurd ⟨I, hI, s, hs, hsb⟩ (hsh 0 V)
        | vec n b => cases h5
        | mat M =>
            cases h5
            obtain ⟨V', Q', ⟨I', hI', s', hs', hsb'⟩, ⟨J', hJ', r', hr', hrb'⟩, hr, hc⟩ := hsh
            obtain rfl := a2 I' hI' s' hs' V' hsb'
            obtain rfl := a4 J' hJ' r' hr' Q' hrb'
            refine ⟨Or.inl ?_, fun v u => ?_⟩
            · rw [← hr, ← hc]; exact .mat M
            · rw [value, ← hact v u, act_mat, hr]; rfl
  have rhs : ∀ (k : Nat) V, W[k]? = some V → ∃ F bk, L[k]? = some (.form F) ∧ b[k]? = some bk ∧
      bk.length = sem.dim V ∧ ∀ v, ∑ d ∈ range (sem.dim V), v d * fnOf bk d = val F v 0 := by
    intro k V hV
    have hk : k < L.length := by rw [hW.rhs]; exact (List.getElem?_eq_some_iff.1 hV).1
    obtain ⟨F, V', hF, hV', ⟨⟨I, hI, s, hs, hsb⟩, a2⟩, a3⟩ := hW.linear k _ (List.getElem?_eq_getElem hk)
    rw [hV] at hV'; cases hV'
    have hLk : L[k]? = some (.form F) := by rw [List.getElem?_eq_getElem hk, hF]
    obtain ⟨bk, h1, t, h4, h5⟩ := Extension.forall₂_get hb hLk
    obtain ⟨hsh, hact⟩ := hval.2 F (List.mem_of_getElem? hLk) t h4
    refine ⟨F, bk, hLk, h1, ?_⟩
    cases t with
    | num c => cases h5
    | mat M => cases h5
    | vec n c =>
        cases h5
        obtain ⟨V', ⟨I', hI', s', hs', hsb'⟩, rfl, _⟩ := hsh
        obtain rfl := a2 I' hI' s' hs' V' hsb'
        refine ⟨by simp, fun v => ?_⟩
        rw [← hact v 0, act]
        refine sum_congr rfl (fun d hd => ?_)
        simp [fnOf, mem_range.1 hd]
  have hlenA : A.length = W.length := by rw [← hA.length_eq, hW.rows]
  have hlenb : b.length = W.length := by rw [← hb.length_eq, hW.rhs]
  have hrowlen : ∀ {i : Nat} {row Arow}, a[i]? = some row → A[i]? = some Arow → row.length = W.length ∧
      List.Forall₂ (BlockOf (assembleItem sem order mods fuel env)) row Arow := by
    intro i row Arow h1 h2
    obtain ⟨Arow', h3, h4⟩ := Extension.forall₂_get hA h1
    rw [h2] at h3; cases h3
    exact ⟨hW.square row (List.mem_of_getElem? h1), h4⟩
  refine ⟨⟨by simp [hlenA], ?_⟩, ?_, ?_, ?_⟩
  · intro i Arow r hArow hr
    rw [List.getElem?_map, Option.map_eq_some_iff] at hr
    obtain ⟨V, hV, rfl⟩ := hr
    have hi : i < a.length := by rw [hW.rows]; exact (List.getElem?_eq_some_iff.1 hV).1
    obtain ⟨h1, h2⟩ := hrowlen (List.getElem?_eq_getElem hi) hArow
    refine ⟨by simp [← h2.length_eq, h1], ?_⟩
    intro j x c hx hc
    rw [List.getElem?_map, Option.map_eq_some_iff] at hc
    obtain ⟨Q, hQ, rfl⟩ := hc
    have hj : j < a[i].length := by rw [h1]; exact (List.getElem?_eq_some_iff.1 hQ).1
    exact (block i j _ _ Arow x V Q (List.getElem?_eq_getElem hi) (List.getElem?_eq_getElem hj) hArow hx hV hQ).1
  · refine List.ext_getElem? (fun k => ?_)
    rw [List.getElem?_map, List.getElem?_map]
    cases hV : W[k]? with
    | none =>
        rw [List.getElem?_eq_none_iff] at hV
        rw [List.getElem?_eq_none (by omega)]; rfl
    | some V =>
        obtain ⟨F, bk, _, h2, h3, _⟩ := rhs k V hV
        rw [h2]; simp [h3]
  · intro k n hn v
    rw [List.getElem?_map, Option.map_eq_some_iff] at hn
    obtain ⟨V, hV, rfl⟩ := hn
    have hk : k < W.length := (List.getElem?_eq_some_iff.1 hV).1
    have hi : k < a.length := by rw [hW.rows]; exact hk
    have hi' : k < A.length := by omega
    obtain ⟨h1, h2⟩ := hrowlen (List.getElem?_eq_getElem hi) (List.getElem?_eq_getElem hi')
    refine ⟨_, _, List.getElem?_eq_getElem hi, List.getElem?_eq_getElem hi', ?_⟩
    rw [List.forall₂_iff_get]
    refine ⟨h2.length_eq, fun j hj hj' => ?_⟩
    have hjW : j < W.length := by omega
    intro u
    exact (block k j _ _ _ _ V W[j] (List.getElem?_eq_getElem hi) (List.getElem?_eq_getElem hj)
      (List.getElem?_eq_getElem hi') (List.getElem?_eq_getElem hj') hV (List.getElem?_eq_getElem hjW)).2 v u
  · intro k n hn
    rw [List.getElem?_map, Option.map_eq_some_iff] at hn
    obtain ⟨V, hV, rfl⟩ := hn
    obtain ⟨F, bk, h1, h2, _, h3⟩ := rhs k V hV
    exact ⟨F, bk, h1, h2, h3⟩

/-- What is computed from assembled forms whose values are `val`. -/
theorem solves_of_values {sem : Sem S K D} {order : List (Term S) → List (Term S)} {mods : List (Assembler S K)}
    {fuel : Nat} {env : Env S K} {W : List S} {a : List (List (Entry S))} {L : List (Entry S)} (hW : BlockForms W a L)
    {val : List (Integral S) → (Nat → K) → (Nat → K) → K}
    (hval : ForForms a L (fun F => ∀ t, assemble sem order mods fuel env F = .ok t →
      Reduced.Shaped sem F t ∧ ∀ v u, act v u t = val F v u))
    (tiny : Tiny K) {solve : Solver K} (hs : Exact solve) {bcs : BcArg K} {data : List (List (Nat × K))}
    (hbc : BcsAre W.length bcs data) (hr : InRange (W.map sem.dim) data) {diag : K} (hd : diag ≠ 0) (sym : Bool)
    {U : List IIFunction.Space} (hU : U.map (fun s => s.dim) = W.map sem.dim) (h : Heap K) :
    ∃ f, ∀ g, f ≤ g → ∀ fs h',
      program sem order mods fuel env a L tiny g solve (W.map sem.dim) bcs diag sym U h = .ok (fs, h') →
      fs.map (fun f => f.space) = U ∧ DiscreteSolution val (W.map sem.dim) a L data (vectors h' fs) ∧
        ∀ p, p < h.next → h'.vec p = h.vec p := by
  cases hsys : assembleSystem sem order mods fuel env a L with
  | error e =>
      refine ⟨0, fun g _ fs h' hrun => ?_⟩
      rw [program, hsys, py_bind_error] at hrun; cases hrun
  | ok s =>
      obtain ⟨A, b⟩ := s
      have hrep := system_represents hW hval hsys
      obtain ⟨f, hf⟩ := Workflow.program_solves tiny hs hrep.conforming hrep.sizes (by simpa using hbc) hr hd sym hU h
      refine ⟨f, fun g hg fs h' hrun => ?_⟩
      rw [program, hsys, py_bind_ok] at hrun
      obtain ⟨h1, h2, h3, h4⟩ := hf g hg fs h' hrun
      exact ⟨h1, (discrete_iff hrep h2).1 h3, h4⟩

/-- The program returns if the problem with the values `val` has just one solution. -/
theorem returns_of_values {sem : Sem S K D} {order : List (Term S) → List (Term S)} {mods : List (Assembler S K)}
    {fuel : Nat} {env : Env S K} {W : List S} {a : List (List (Entry S))} {L : List (Entry S)} (hW : BlockForms W a L)
    {val : List (Integral S) → (Nat → K) → (Nat → K) → K}
    (hval : ForForms a L (fun F => ∀ t, assemble sem order mods fuel env F = .ok t →
      Reduced.Shaped sem F t ∧ ∀ v u, act v u t = val F v u))
    (hasm : ForForms a L (fun F => ∃ t, assemble sem order mods fuel env F = .ok t))
    (tiny : Tiny K) {solve : Solver K} (hs : SolvesRegular solve) {bcs : BcArg K} {data : List (List (Nat × K))}
    (hbc : BcsAre W.length bcs data) (hr : InRange (W.map sem.dim) data) {diag : K} (hd : diag ≠ 0) (sym : Bool)
    (huniq : ∃! xs, DiscreteSolution val (W.map sem.dim) a L data xs) (U : List IIFunction.Space) (h : Heap K) :
    ∃ f, ∀ g, f ≤ g → ∃ r,
      program sem order mods fuel env a L tiny g solve (W.map sem.dim) bcs diag sym U h = .ok r := by
  have ha : ∀ row ∈ a, ∀ e ∈ row, ∃ x, BlockOf (assembleItem sem order mods fuel env) e x := by
    intro row hrow e he
    cases e with
    | num c => exact ⟨_, _, rfl, rfl⟩
    | form F =>
        obtain ⟨t, ht⟩ := hasm.1 row hrow F he
        obtain ⟨hsh, _⟩ := hval.1 row hrow F he t ht
        obtain ⟨i, hi, rfl⟩ := List.getElem_of_mem hrow
        obtain ⟨j, hj, hij⟩ := List.getElem_of_mem he
        obtain ⟨V, Q, _, _, ⟨hV, _⟩, ⟨hQ, _⟩⟩ := hW.fits i j _ (.form F) (List.getElem?_eq_getElem hi)
          (by rw [List.getElem?_eq_getElem hj, hij])
        cases t with
        | num c => exact absurd hV (hsh 0 V)
        | vec n b =>
            obtain ⟨_, _, _, hno⟩ := hsh
            exact absurd hQ (hno Q)
        | mat M => exact ⟨_, _, ht, rfl⟩
  have hb : ∀ e ∈ L, ∃ x, EntriesOf (assembleItem sem order mods fuel env) e x := by
    intro e he
    obtain ⟨i, hi, hie⟩ := List.getElem_of_mem he
    obtain ⟨F, V, rfl, _, ⟨hV, _⟩, hno⟩ := hW.linear i e (by rw [List.getElem?_eq_getElem hi, hie])
    obtain ⟨t, ht⟩ := hasm.2 F he
    obtain ⟨hsh, _⟩ := hval.2 F he t ht
    cases t with
    | num c => exact absurd hV (hsh 0 V)
    | vec n b => exact ⟨_, _, ht, rfl⟩
    | mat M =>
        obtain ⟨_, Q, _, ⟨I, hI, s, hs, hsb⟩, _⟩ := hsh
        exact absurd hsb (hno I hI s hs Q)
  obtain ⟨A, b, hsys⟩ := assembleSystem_returns hW ha hb
  have hrep := system_represents hW hval hsys
  obtain ⟨xs, h1, h2⟩ := huniq
  obtain ⟨f, hf⟩ := Workflow.program_returns tiny hs hrep.conforming hrep.sizes (by simpa using hbc) hr hd sym
    ⟨xs, ⟨h1.sizes, (discrete_iff hrep h1.sizes).2 h1⟩, fun ys hy => h2 ys ((discrete_iff hrep hy.1).1 hy.2)⟩ U h
  refine ⟨f, fun g hg => ?_⟩
  obtain ⟨r, hr⟩ := hf g hg
  exact ⟨r, by rw [program, hsys, py_bind_ok, hr]⟩

theorem values_reduced {sem : Sem S K D} {order : List (Term S) → List (Term S)} (ho : ∀ l, (order l).Perm l)
    {mods : List (Assembler S K)} {red : Reduction S K} (hmods : ∀ m ∈ mods, Implements m red sem)
    (hcol : ∀ m ∈ mods, Columns m sem) {fuel : Nat} {env : Env S K} {a : List (List (Entry S))} {L : List (Entry S)}
    (hforms : ForForms a L (fun F => (∀ I ∈ F, WellFormed sem mods I) ∧ SameArguments F)) :
    ForForms a L (fun F => ∀ t, assemble sem order mods fuel env F = .ok t →
      Reduced.Shaped sem F t ∧ ∀ v u, act v u t = total sem F (fun I => meaning sem red env v u I.rest)) :=
  have key : ∀ F, ((∀ I ∈ F, WellFormed sem mods I) ∧ SameArguments F) → ∀ t,
      assemble sem order mods fuel env F = .ok t → Reduced.Shaped sem F t ∧
        ∀ v u, act v u t = total sem F (fun I => meaning sem red env v u I.rest) := fun F hF t ht =>
    ⟨assemble_shaped sem mods red hmods hcol order ho fuel env F t hF.1 hF.2 ht,
      assemble_represents_partial sem mods red hmods order ho fuel env F t hF.1 hF.2 ht⟩
  ⟨fun row hrow F hF => key F (hforms.1 row hrow F hF), fun F hF => key F (hforms.2 F hF)⟩

/-- **C86** From block forms to the solution: the functions which the program returns are in the spaces given, have the
prescribed values, and solve the discrete problem: for every row and every test function which vanishes where values are
prescribed, the sum of the integrals of the row equals the integrals of the right-hand side, annotated functions being
replaced by the functions to which they reduce.  Other functions are not changed. -/
theorem program_solves {sem : Sem S K D} {order : List (Term S) → List (Term S)} (ho : ∀ l, (order l).Perm l)
    {mods : List (Assembler S K)} {red : Reduction S K} (hmods : ∀ m ∈ mods, Implements m red sem)
    (hcol : ∀ m ∈ mods, Columns m sem) {fuel : Nat} {env : Env S K} {W : List S} {a : List (List (Entry S))}
    {L : List (Entry S)} (hW : BlockForms W a L)
    (hforms : ForForms a L (fun F => (∀ I ∈ F, WellFormed sem mods I) ∧ SameArguments F))
    (tiny : Tiny K) {solve : Solver K} (hs : Exact solve) {bcs : BcArg K} {data : List (List (Nat × K))}
    (hbc : BcsAre W.length bcs data) (hr : InRange (W.map sem.dim) data) {diag : K} (hd : diag ≠ 0) (sym : Bool)
    {U : List IIFunction.Space} (hU : U.map (fun s => s.dim) = W.map sem.dim) (h : Heap K) :
    ∃ f, ∀ g, f ≤ g → ∀ fs h',
      program sem order mods fuel env a L tiny g solve (W.map sem.dim) bcs diag sym U h = .ok (fs, h') →
      fs.map (fun f => f.space) = U ∧
        DiscreteSolution (fun F v u => total sem F (fun I => meaning sem red env v u I.rest)) (W.map sem.dim) a L data
          (vectors h' fs) ∧
        ∀ p, p < h.next → h'.vec p = h.vec p := by
  exact solves_of_values hW (values_reduced ho hmods hcol hforms) tiny hs hbc hr hd sym hU h

/-- **C86** If every form can be assembled and the discrete problem has just one solution, the program returns. -/
theorem program_returns {sem : Sem S K D} {order : List (Term S) → List (Term S)} (ho : ∀ l, (order l).Perm l)
    {mods : List (Assembler S K)} {red : Reduction S K} (hmods : ∀ m ∈ mods, Implements m red sem)
    (hcol : ∀ m ∈ mods, Columns m sem) {fuel : Nat} {env : Env S K} {W : List S} {a : List (List (Entry S))}
    {L : List (Entry S)} (hW : BlockForms W a L)
    (hforms : ForForms a L (fun F => (∀ I ∈ F, WellFormed sem mods I) ∧ SameArguments F))
    (hasm : ForForms a L (fun F => ∃ t, assemble sem order mods fuel env F = .ok t))
    (tiny : Tiny K) {solve : Solver K} (hs : SolvesRegular solve) {bcs : BcArg K} {data : List (List (Nat × K))}
    (hbc : BcsAre W.length bcs data) (hr : InRange (W.map sem.dim) data) {diag : K} (hd : diag ≠ 0) (sym : Bool)
    (huniq : ∃! xs, DiscreteSolution (fun F v u => total sem F (fun I => meaning sem red env v u I.rest))
      (W.map sem.dim) a L data xs)
    (U : List IIFunction.Space) (h : Heap K) :
    ∃ f, ∀ g, f ≤ g → ∃ r,
      program sem order mods fuel env a L tiny g solve (W.map sem.dim) bcs diag sym U h = .ok r :=
  returns_of_values hW (values_reduced ho hmods hcol hforms) hasm tiny hs hbc hr hd sym huniq U h

section traces
open Dispatch DofMat Trace Embedding TransposeTrace TraceForm Coupling

variable {X : Type} {g : Nat} {C : Meshes} {marking : Option (List Nat)} {id : Nat} {dom : Nat → Prop} {On : Nat → X → Prop}
  {sem : Sem S K (Pts dom On → K)} {sp : S → DofMat.Space K X} {side : Nat → Nat}

theorem values_traces (hC : TraceForm.Conforming C id)
    (hm : (marksOf marking C.numCells).length = C.numCells) (hside : ∀ k, dom k → FacetOf C id k (side k)) (W' : World S)
    {O : Ops S K} {red : Reduction S K}
    (htab : ∀ k attrs V rest TV T, (attrs.lookup k.attr).isSome →
      O.space k attrs (O.domain k attrs V) rest = .ok TV → O.matrix k attrs (O.domain k attrs V) TV rest = .ok T →
      red attrs V rest = (TV, T) ∧ T.rows = sem.dim TV ∧ T.cols = sem.dim V)
    {order : List (Term S) → List (Term S)} (ho : ∀ l, (order l).Perm l) {fuel : Nat} {env : Env S K}
    {a : List (List (Entry S))} {L : List (Entry S)}
    (hforms : ForForms a L (fun F => (∀ I ∈ F, WellFormed sem (assemblers W' O) I) ∧ SameArguments F ∧
      ∀ I ∈ F, ∀ t ∈ terms I.integrand, t.attrs ≠ [] → ∀ V, functionSpace env t = .ok V →
        Traced g O C marking id sem sp I.rest V t.attrs)) :
    ForForms a L (fun F => ∀ t, assemble sem order (assemblers W' O) fuel env F = .ok t →
      Reduced.Shaped sem F t ∧ ∀ v u, act v u t = total sem F (fun _ => meant sem sp side env v u)) := by
  have hmods : ∀ m ∈ assemblers W' O, Implements m red sem ∧ Columns m sem := by
    intro m hm'
    obtain ⟨k, _, rfl⟩ := List.mem_map.1 hm'
    refine ⟨⟨fun attrs V rest TV T h1 h2 h3 => ?_, fun rest t h => compatible_attr h⟩,
      fun attrs V rest TV T h1 h2 h3 => (htab k attrs V rest TV T h1 h2 h3).2.2⟩
    obtain ⟨e1, e2, _⟩ := htab k attrs V rest TV T h1 h2 h3
    exact ⟨e1, e2⟩
  have key : ∀ F, ((∀ I ∈ F, WellFormed sem (assemblers W' O) I) ∧ SameArguments F ∧
      ∀ I ∈ F, ∀ t ∈ terms I.integrand, t.attrs ≠ [] → ∀ V, functionSpace env t = .ok V →
        Traced g O C marking id sem sp I.rest V t.attrs) → ∀ t,
      assemble sem order (assemblers W' O) fuel env F = .ok t → Reduced.Shaped sem F t ∧
        ∀ v u, act v u t = total sem F (fun _ => meant sem sp side env v u) := fun F hF t ht =>
    ⟨assemble_shaped sem _ red (fun m h => (hmods m h).1) (fun m h => (hmods m h).2) order ho fuel env F t hF.1 hF.2.1 ht,
      fun v u => coupled_integrals hC hm hside W' (fun k attrs V rest TV T h1 h2 h3 =>
        ⟨(htab k attrs V rest TV T h1 h2 h3).1, (htab k attrs V rest TV T h1 h2 h3).2.1⟩) ho hF.1 hF.2.1 hF.2.2 ht v u⟩
  exact ⟨fun row hrow F hF => key F (hforms.1 row hrow F hF), fun F hF => key F (hforms.2 F hF)⟩

/-- **C86** The same for forms which couple functions through traces: the discrete problem is the one with the
restrictions of functions to the trace mesh, and the program returns if it has just one solution. -/
theorem coupled_program (hC : TraceForm.Conforming C id)
    (hm : (marksOf marking C.numCells).length = C.numCells) (hside : ∀ k, dom k → FacetOf C id k (side k)) (W' : World S)
    {O : Ops S K} {red : Reduction S K}
    (htab : ∀ k attrs V rest TV T, (attrs.lookup k.attr).isSome →
      O.space k attrs (O.domain k attrs V) rest = .ok TV → O.matrix k attrs (O.domain k attrs V) TV rest = .ok T →
      red attrs V rest = (TV, T) ∧ T.rows = sem.dim TV ∧ T.cols = sem.dim V)
    {order : List (Term S) → List (Term S)} (ho : ∀ l, (order l).Perm l) {fuel : Nat} {env : Env S K} {W : List S}
    {a : List (List (Entry S))} {L : List (Entry S)} (hW : BlockForms W a L)
    (hforms : ForForms a L (fun F => (∀ I ∈ F, WellFormed sem (assemblers W' O) I) ∧ SameArguments F ∧
      ∀ I ∈ F, ∀ t ∈ terms I.integrand, t.attrs ≠ [] → ∀ V, functionSpace env t = .ok V →
        Traced g O C marking id sem sp I.rest V t.attrs))
    (tiny : Tiny K) {solve : Solver K} (hs : Exact solve) {bcs : BcArg K} {data : List (List (Nat × K))}
    (hbc : BcsAre W.length bcs data) (hr : InRange (W.map sem.dim) data) {diag : K} (hd : diag ≠ 0) (sym : Bool)
    {U : List IIFunction.Space} (hU : U.map (fun s => s.dim) = W.map sem.dim) (h : Heap K) :
    (∃ f, ∀ k, f ≤ k → ∀ fs h',
      program sem order (assemblers W' O) fuel env a L tiny k solve (W.map sem.dim) bcs diag sym U h = .ok (fs, h') →
      fs.map (fun f => f.space) = U ∧
        DiscreteSolution (fun F v u => total sem F (fun _ => meant sem sp side env v u)) (W.map sem.dim) a L data
          (vectors h' fs) ∧
        ∀ p, p < h.next → h'.vec p = h.vec p) ∧
    (ForForms a L (fun F => ∃ t, assemble sem order (assemblers W' O) fuel env F = .ok t) → SolvesRegular solve →
      (∃! xs, DiscreteSolution (fun F v u => total sem F (fun _ => meant sem sp side env v u)) (W.map sem.dim) a L
        data xs) →
      ∃ f, ∀ k, f ≤ k → ∃ r,
        program sem order (assemblers W' O) fuel env a L tiny k solve (W.map sem.dim) bcs diag sym U h = .ok r) :=
  have hv := values_traces hC hm hside W' htab ho hforms
  ⟨solves_of_values hW hv tiny hs hbc hr hd sym hU h,
    fun hasm hreg huniq => returns_of_values hW hv hasm tiny hreg hbc hr hd sym huniq U h⟩

end traces

/-! ## A case: `u + λ` on the edges

Linear functions on two triangles (space 7) and on two of their edges (space 8). -/

section example_
open Dispatch DofMat Trace Embedding TransposeTrace TraceForm Coupling

/-- `[[1, ∫ T v λ], [0, 1]]`. -/
def linearA : List (List (Entry Nat)) := [[.num 1, .form linearForm], [.num 0, .num 1]]

/-- The integral of a test function. -/
def linearTest (V : Nat) : List (Integral Nat) := [⟨.term ⟨.argument 0 V, []⟩, if V = 7 then 1 else 0⟩]

/-- `[∫ v, ∫ μ]`. -/
def linearL : List (Entry Nat) := [.form (linearTest 7), .form (linearTest 8)]

theorem linear_blockForms : BlockForms [7, 8] linearA linearL where
  nonempty := by simp
  rows := rfl
  square := by simp [linearA]
  fits := by
    intro i j row e hi hj
    match i, j with
    | 0, 0 => simp [linearA] at hi; subst hi; simp at hj; subst hj; trivial
    | 0, 1 =>
        simp [linearA] at hi; subst hi; simp at hj; subst hj
        refine ⟨7, 8, rfl, rfl, ⟨⟨_, List.mem_singleton.2 rfl, ⟨.argument 0 7, [("trace_", 1)]⟩, by simp [terms, termsAll],
          rfl⟩, ?_⟩, ⟨⟨_, List.mem_singleton.2 rfl, ⟨.argument 1 8, []⟩, by simp [terms, termsAll], rfl⟩, ?_⟩⟩ <;>
        · intro I hI t ht Q hb
          simp only [linearForm, List.mem_singleton] at hI
          subst hI
          simp [terms, termsAll] at ht
          rcases ht with rfl | rfl <;> simp at hb <;> omega
    | 0, j + 2 => simp [linearA] at hi; subst hi; simp at hj
    | 1, 0 => simp [linearA] at hi; subst hi; simp at hj; subst hj; trivial
    | 1, 1 => simp [linearA] at hi; subst hi; simp at hj; subst hj; trivial
    | 1, j + 2 => simp [linearA] at hi; subst hi; simp at hj
    | i + 2, j => simp [linearA] at hi
  numbers := by
    intro i j row c hi hj
    match i, j with
    | 0, 0 => right; rfl
    | 0, 1 => simp [linearA] at hi; subst hi; simp at hj
    | 0, j + 2 => simp [linearA] at hi; subst hi; simp at hj
    | 1, 0 => left; simp [linearA] at hi; subst hi; simp at hj; exact hj.symm
    | 1, 1 => right; rfl
    | 1, j + 2 => simp [linearA] at hi; subst hi; simp at hj
    | i + 2, j => simp [linearA] at hi
  rhs := rfl
  linear := by
    intro i e hi
    have key : ∀ V, FormArg 0 V (linearTest V) ∧ ∀ I ∈ linearTest V, NoArg 1 I := by
      intro V
      refine ⟨⟨⟨_, List.mem_singleton.2 rfl, ⟨.argument 0 V, []⟩, by simp [terms], rfl⟩, ?_⟩, ?_⟩
      · intro I hI t ht Q hb
        simp only [linearTest, List.mem_singleton] at hI
        subst hI
        simp [terms] at ht; subst ht; simpa using hb.symm
      · intro I hI t ht Q hb
        simp only [linearTest, List.mem_singleton] at hI
        subst hI
        simp [terms] at ht; subst ht; simp at hb
    match i with
    | 0 => simp [linearL] at hi; subst hi; exact ⟨_, 7, rfl, rfl, key 7⟩
    | 1 => simp [linearL] at hi; subst hi; exact ⟨_, 8, rfl, rfl, key 8⟩
    | i + 2 => simp [linearL] at hi

theorem linear_forForms {P : List (Integral Nat) → Prop} (h1 : P linearForm) (h2 : P (linearTest 7))
    (h3 : P (linearTest 8)) :
    ForForms linearA linearL P := by
  constructor
  · intro row hrow F hF
    simp [linearA] at hrow
    rcases hrow with rfl | rfl <;> simp at hF
    subst hF; exact h1
  · intro F hF
    simp [linearL] at hF
    rcases hF with rfl | rfl
    · exact h2
    · exact h3

theorem linearTest_wellFormed (V : Nat) (O : Ops Nat ℚ) :
    ∀ I ∈ linearTest V, WellFormed linearSem (assemblers linearWorld O) I := by
  intro I hI
  simp only [linearTest, List.mem_singleton] at hI
  subst hI
  have ht : ∀ {t}, t ∈ terms (.term ⟨.argument 0 V, []⟩ : UExpr Nat) → t = ⟨.argument 0 V, []⟩ := by
    intro t h; simpa [terms] using h
  refine ⟨?_, ?_, ?_, ?_⟩
  · intro s hs t ht' _; rw [ht hs, ht ht']
  · intro t h hne; rw [ht h] at hne; exact absurd rfl hne
  · intro t h n Q hb val
    rw [ht h]
    constructor
    · intro x y; simp [den, linearSem]; ring
    · intro c x; simp [den, linearSem]; ring
  · intro t h n Q hb
    rw [ht h] at hb; simp at hb; omega

theorem linearTest_assembles {V : Nat} (hV : V = 7 ∨ V = 8) (O : Ops Nat ℚ) (fuel : Nat) :
    ∃ t, assemble linearSem id (assemblers linearWorld O) (fuel + 1) (fun _ => none) (linearTest V) = .ok t := by
  rw [assemble_ignores_unrecognised]
  · have : arguments (linearTest V) = .ok [(0, V)] := by rcases hV with rfl | rfl <;> decide +kernel
    rw [this]
    exact ⟨_, rfl⟩
  · intro m hm I hI
    obtain ⟨k, _, rfl⟩ := List.mem_map.1 hm
    simp only [linearTest, List.mem_singleton] at hI
    subst hI
    rcases hV with rfl | rfl <;> cases k <;> rfl

/-- The values of the forms. -/
noncomputable def linearVal (F : List (Integral Nat)) (v u : Nat → ℚ) : ℚ :=
  total linearSem F (fun _ => meant linearSem (fun V => if V = 7 then bulkP1 else edgeP1) (fun _ => 1) (fun _ => none) v u)

theorem linearVal_form (v u : Nat → ℚ) :
    linearVal linearForm v u = (v 1 * u 0 + v 2 * u 1) / 2 + (v 1 * u 0 + v 3 * u 2) / 2 := by
  simp [linearVal, total, linearForm, den, denAll, linearSem, meant, meant.value, restriction, fnOn, bulkP1, Reduced.fn,
      sum_range_succ, pt, edgeP1]

theorem linearVal_seven (v u : Nat → ℚ) : linearVal (linearTest 7) v u = 0 := by
  simp [linearVal, total, linearTest, den, linearSem, meant, meant.value, Reduced.fn]

theorem linearVal_eight (v u : Nat → ℚ) : linearVal (linearTest 8) v u = (v 0 + v 1) / 2 + (v 0 + v 2) / 2 := by
  simp [linearVal, total, linearTest, den, linearSem, meant, meant.value, Reduced.fn, sum_range_succ, pt, edgeP1]

theorem linear_discrete (x : List (List ℚ)) :
    DiscreteSolution linearVal ([7, 8].map linearSem.dim) linearA linearL [] x ↔
    x = [[0, -1, -1 / 4, -1 / 4], [1, 1 / 2, 1 / 2]] := by
  have hdim : [7, 8].map linearSem.dim = [4, 3] := by simp [linearSem]
  rw [hdim]
  constructor
  · rintro ⟨h1, _, h3⟩
    match x, h1 with
    | [[x0, x1, x2, x3], [y0, y1, y2]], _ =>
        have r1 : ∀ v : Nat → ℚ, _ := fun v => h3 1 _ _ 3 rfl rfl rfl v (by simp [prescribed, lastVal])
        have r0 : ∀ v : Nat → ℚ, _ := fun v => h3 0 _ _ 4 rfl rfl rfl v (by simp [prescribed, lastVal])
        simp only [List.zip_cons_cons, List.zip_nil_right, List.map_cons, List.map_nil, List.sum_cons, List.sum_nil, value,
          linearVal_form, linearVal_seven, linearVal_eight, fnOf, sum_range_succ, range_zero, sum_empty] at r0 r1
        have a0 := r1 (fun i => if i = 0 then 1 else 0)
        have a1 := r1 (fun i => if i = 1 then 1 else 0)
        have a2 := r1 (fun i => if i = 2 then 1 else 0)
        have b0 := r0 (fun i => if i = 0 then 1 else 0)
        have b1 := r0 (fun i => if i = 1 then 1 else 0)
        have b2 := r0 (fun i => if i = 2 then 1 else 0)
        have b3 := r0 (fun i => if i = 3 then 1 else 0)
        simp at a0 a1 a2 b0 b1 b2 b3
        have e0 : y0 = 1 := by linarith
        have e1 : y1 = 1 / 2 := by linarith
        have e2 : y2 = 1 / 2 := by linarith
        subst e0 e1 e2
        have f1 : x1 = -1 := by linarith
        have f2 : x2 = -1 / 4 := by linarith
        have f3 : x3 = -1 / 4 := by linarith
        subst b0 f1 f2 f3
        rfl
  · rintro rfl
    refine ⟨rfl, by simp [prescribed, lastVal], ?_⟩
    intro k row F n h1 h2 h3 v _
    match k with
    | 0 =>
        simp [linearA, linearL] at h1 h2 h3
        subst h1 h2 h3
        simp [value, linearVal_form, linearVal_seven, fnOf, sum_range_succ]
        ring
    | 1 =>
        simp [linearA, linearL] at h1 h2 h3
        subst h1 h2 h3
        simp [value, linearVal_eight, fnOf, sum_range_succ]
        ring
    | k + 2 => simp at h3

/-- The trace is computed, the forms are assembled and the system is solved. -/
example (h : Heap ℚ) : ∃ f, ∀ k, f ≤ k → ∃ fs h',
    program linearSem id (assemblers linearWorld (linearOps (traceCall edges none 5 linearCall ⟨none, none⟩).1)) 3
      (fun _ => none) linearA linearL noTiny k oracle ([7, 8].map linearSem.dim) .none 1 true [⟨0, 4⟩, ⟨1, 3⟩] h =
        .ok (fs, h') ∧ vectors h' fs = [[0, -1, -1 / 4, -1 / 4], [1, 1 / 2, 1 / 2]] := by
  have hside : ∀ k, k < 2 → FacetOf edges 5 k 1 := by
    intro k hk
    obtain ⟨e, he⟩ := edges_conforming.lies k hk
    interval_cases k
    · obtain rfl := edges_lies he
      exact ⟨2, he, by decide⟩
    · obtain rfl := edges_lies_one he
      exact ⟨3, he, by decide⟩
  obtain ⟨M, hM, hr, hc, -⟩ := trace_restricts (g := 1) (marking := none) edges_conforming (by decide) (t := ⟨none, none⟩)
    (.inl ⟨rfl, rfl⟩) [] linear_traceOk (side := fun _ => 1) hside
  change (traceCall edges none 5 linearCall ⟨none, none⟩).1 = .ok M at hM
  obtain ⟨A, hA⟩ := linear_assembles M hr
  rw [hM]
  have same : ∀ {F : List (Integral Nat)} {I : Integral Nat}, F = [I] → SameArguments F := by
    rintro F I rfl I' hI t ht n V hb J hJ
    simp only [List.mem_singleton] at hI hJ
    subst hI; subst hJ
    exact ⟨t, ht, hb⟩
  have plain : ∀ V, ∀ I ∈ linearTest V, ∀ t ∈ terms I.integrand, t.attrs ≠ [] → ∀ Q,
      functionSpace (K := ℚ) (fun _ => none) t = .ok Q →
      Traced 1 (linearOps (.ok M)) edges none 5 linearSem (fun V => if V = 7 then bulkP1 else edgeP1) I.rest Q t.attrs := by
    intro V I hI t ht hne
    simp only [linearTest, List.mem_singleton] at hI
    subst hI
    simp only [terms, List.mem_singleton] at ht
    subst ht; exact absurd rfl hne
  have traced : ∀ I ∈ linearForm, ∀ t ∈ terms I.integrand, t.attrs ≠ [] → ∀ V,
      functionSpace (K := ℚ) (fun _ => none) t = .ok V →
      Traced 1 (linearOps (.ok M)) edges none 5 linearSem (fun V => if V = 7 then bulkP1 else edgeP1) I.rest V t.attrs := by
    intro I hI t ht hne V hV
    simp only [linearForm, List.mem_cons, List.not_mem_nil, or_false] at hI
    subst hI
    simp only [terms, termsAll, List.append_nil, List.singleton_append, List.mem_cons, List.not_mem_nil, or_false] at ht
    rcases ht with rfl | rfl
    · cases hV
      exact ⟨rfl, 8, linearCall, [], ⟨none, none⟩, .inl ⟨rfl, rfl⟩, rfl, rfl, linear_traceOk, ⟨rfl, fun i p => rfl⟩, rfl,
        hM.symm⟩
    · exact absurd rfl hne
  obtain ⟨⟨f1, h1⟩, h2⟩ := coupled_program (g := 1) (sp := fun V => if V = 7 then bulkP1 else edgeP1) (marking := none)
    (red := fun _ _ _ => (8, M)) edges_conforming (by decide) hside linearWorld (O := linearOps (.ok M)) (by
      intro k attrs V rest TV T _ h1 h2
      cases h1
      cases k <;> simp only [linearOps] at h2 <;> try cases h2
      split at h2 <;> cases h2
      rename_i hV
      exact ⟨rfl, hr, by rw [hc, hV]; rfl⟩)
    (fun l => .refl (id l)) (fuel := 3) (env := fun _ => none)
    linear_blockForms (linear_forForms ⟨linear_wellFormed _, same rfl, traced⟩ ⟨linearTest_wellFormed 7 _, same rfl, plain 7⟩
      ⟨linearTest_wellFormed 8 _, same rfl, plain 8⟩) noTiny oracle_exact (bcs := .none) (data := []) .none
      (by intro k d v n h; simp at h) (diag := 1) one_ne_zero true (U := [⟨0, 4⟩, ⟨1, 3⟩]) (by simp [linearSem]) h
  obtain ⟨f2, h2⟩ := h2 (linear_forForms ⟨A, hA⟩ (linearTest_assembles (.inl rfl) _ 2) (linearTest_assembles (.inr rfl) _ 2))
    oracle_regular ⟨_, (linear_discrete _).2 rfl, fun y hy => (linear_discrete y).1 hy⟩
  refine ⟨max f1 f2, fun k hk => ?_⟩
  obtain ⟨⟨fs, h'⟩, hrun⟩ := h2 k (le_trans (le_max_right _ _) hk)
  obtain ⟨_, a2, _⟩ := h1 k (le_trans (le_max_left _ _) hk) fs h' hrun
  exact ⟨fs, h', hrun, (linear_discrete _).1 a2⟩

end example_

end Verif.Program
