import Verif.Spec.TimeDep
import Verif.Lemmas.Standing
import Mathlib.Algebra.Module.Prod
/-! # C102: time stepping from forms -/
namespace Verif.TimeDep
open Verif Ufl BlockOps BlockForm Collapse ApplyBc IIFunction Workflow Reduced Dispatch ListUtils Program Coupling Finset

section march
variable {K : Type} [Field K]

/-- As `Workflow.Evolves`, with right-hand sides which may fail to assemble. -/
def Evolves (ns : List Nat) (A : List (List (Expr K))) (rhs : Nat → List K → Py (List (List K)))
    (data : Nat → List (List (Nat × K))) : Nat → List K → List (List (List K)) → Prop
  | _, _, [] => True
  | k, u, xs :: hist =>
      (∃ b, rhs k u = .ok b ∧ xs.map List.length = ns ∧ IsConstrainedSolution ns A b (data k) xs) ∧
        ∃ v, xs.head? = some v ∧ Evolves ns A rhs data (k + 1) v hist

theorem passes_solve (tiny : Tiny K) {solve : Solver K} (hs : Exact solve) {ns : List Nat}
    {A : List (List (Expr K))} (hA : Conforming ns ns A) {b : List (List K)} (hb : b.map List.length = ns)
    {bcs : List (List (List (Nat × K)))} {bcsAt : Nat → List (List (List (Nat × K)))} (hn : bcs.length = ns.length)
    (hsame : ∀ k, SameDofs bcs (bcsAt k)) (hr : InRange ns (bcs.map List.flatten))
    (hcon : Constrains (bcs.map List.flatten))
    {g : Nat} {A' : List (List (Mat K))} {b' : List (List K)} {u : Updater K} {M : Mat K}
    (happ : ∀ k, g ≤ k →
      applyBc tiny k (.block ns ns A) (.block b) (.list (dirichlet bcs)) 1 true true = .ok (.triple A' b' u))
    (hlay : MatLayout ns A')
    (m1 : M.rows = ns.sum) (m2 : M.cols = ns.sum)
    (hact : ∀ xs : List (List K), xs.map List.length = ns →
        ∀ i, M.act (fnOf (convertVec xs)) i = fnOf (convertVec (blockAct ns (matBlocks A') xs)) i)
    {wh : List Fn} (hu : Unshared wh) {u0 : Nat} (hu0 : ∀ f ∈ wh, f.addr ≠ u0)
    {rhs : Nat → List K → Py (List (List K))} (hrhs : ∀ k v b, rhs k v = .ok b → b.map List.length = ns) :
    ∀ (n k : Nat) (h : Heap K) (hist : List (List (List K))), (vectors h wh).map List.length = ns →
      passes solve u M wh u0 rhs (fun k => dirichlet (bcsAt k)) n k h = .ok hist →
      hist.length = n ∧ Evolves ns A rhs (fun k => (bcsAt k).map List.flatten) k (h.vec u0) hist
  | 0, k, h, hist, _, hl => by
      obtain rfl : [] = hist := by simpa [passes] using hl
      exact ⟨rfl, trivial⟩
  | n + 1, k, h, hist, hsz, hl => by
      rw [passes] at hl
      obtain ⟨bb, h0, hl⟩ := py_bind_eq_ok.1 hl
      obtain ⟨h', h1, hl⟩ := py_bind_eq_ok.1 hl
      obtain ⟨rest, h2, hl⟩ := py_bind_eq_ok.1 hl
      obtain rfl : vectors h' wh :: rest = hist := by simpa using hl
      obtain ⟨s1, s2, s3⟩ := step_solves tiny hs hA hb (hrhs k _ _ h0) hn (hsame k) hr hcon happ hlay m1 m2 hact hu hsz hu0
        rfl h1
      obtain ⟨t1, t2⟩ := passes_solve tiny hs hA hb hn hsame hr hcon happ hlay m1 m2 hact hu hu0 hrhs n (k + 1) h' rest
        s1 h2
      exact ⟨by simp [t1], ⟨bb, h0, s1, s2⟩, _, s3, t2⟩

theorem marching_solves (tiny : Tiny K) {solve : Solver K} (hs : Exact solve) {ns : List Nat}
    {A : List (List (Expr K))} (hA : Conforming ns ns A) {b : List (List K)} (hb : b.map List.length = ns)
    {bcs : List (List (List (Nat × K)))} {bcsAt : Nat → List (List (List (Nat × K)))} (hn : bcs.length = ns.length)
    (hsame : ∀ k, SameDofs bcs (bcsAt k)) (hr : InRange ns (bcs.map List.flatten))
    (hcon : Constrains (bcs.map List.flatten)) {W : List IIFunction.Space} (hW : W.map (fun s => s.dim) = ns)
    {rhs : Nat → List K → Py (List (List K))} (hrhs : ∀ k v b, rhs k v = .ok b → b.map List.length = ns) (h : Heap K)
    {u0 : Nat} (hu0 : u0 < h.next) :
    ∃ f, ∀ g, f ≤ g → ∀ n hist,
      marching tiny g solve ns A b (.list (dirichlet bcs)) W u0 rhs (fun k => dirichlet (bcsAt k)) n h = .ok hist →
      hist.length = n ∧ Evolves ns A rhs (fun k => (bcsAt k).map List.flatten) 0 (h.vec u0) hist := by
  obtain ⟨A', b', u, f1, hlay, hl, hf1⟩ := applyBc_contract_partial tiny ns A hA (.block b) b (.block hb)
    (.list (dirichlet bcs)) (bcs.map List.flatten) (.list (by simpa [dirichlet] using hn) (dirichlet_data bcs)) hr hcon
    1 true
  obtain ⟨M, m1, m2, ⟨f2, hf2⟩, hact⟩ := convert_acts_partial tiny ns ns _ (layout_conforming hlay)
  refine ⟨max f1 f2, fun g hg n hist hrun => ?_⟩
  obtain ⟨u1, u2, u3, u4⟩ := create_sizes W h
  rw [marching, (hf1 g (le_trans (le_max_left _ _) hg)).2 rfl] at hrun
  dsimp only at hrun
  have hm := hf2 g (le_trans (le_max_right _ _) hg)
  simp only [matBlocks] at hm
  rw [init, py_bind_ok, hm, py_bind_ok] at hrun
  have := passes_solve tiny hs hA hb hn hsame hr hcon (fun k hk => (hf1 k hk).2 rfl) hlay m1 m2 hact u1
    (fun f hf => by have := u3 f hf; omega) hrhs n 0 _ hist (u2.trans hW) hrun
  rwa [u4 u0 hu0] at this

theorem marching_returns (tiny : Tiny K) {solve : Solver K} (hex : Exact solve) (hs : SolvesRegular solve)
    {ns : List Nat} {A : List (List (Expr K))} (hA : Conforming ns ns A) {b : List (List K)}
    (hb : b.map List.length = ns)
    {bcs : List (List (List (Nat × K)))} {bcsAt : Nat → List (List (List (Nat × K)))} (hn : bcs.length = ns.length)
    (hsame : ∀ k, SameDofs bcs (bcsAt k)) (hr : InRange ns (bcs.map List.flatten))
    (hcon : Constrains (bcs.map List.flatten)) {W : List IIFunction.Space} (hW : W.map (fun s => s.dim) = ns)
    {rhs : Nat → List K → Py (List (List K))}
    (hrhs : ∀ k v, ∃ b, rhs k v = .ok b ∧ b.map List.length = ns ∧
      ∃! xs : List (List K), xs.map List.length = ns ∧ IsConstrainedSolution ns A b ((bcsAt k).map List.flatten) xs)
    (h : Heap K) {u0 : Nat} (hu0 : u0 < h.next) :
    ∃ f, ∀ g, f ≤ g → ∀ n, ∃ hist,
      marching tiny g solve ns A b (.list (dirichlet bcs)) W u0 rhs (fun k => dirichlet (bcsAt k)) n h = .ok hist := by
  obtain ⟨A', b', u, f1, hlay, hl, hf1⟩ := applyBc_contract_partial tiny ns A hA (.block b) b (.block hb)
    (.list (dirichlet bcs)) (bcs.map List.flatten) (.list (by simpa [dirichlet] using hn) (dirichlet_data bcs)) hr hcon
    1 true
  obtain ⟨M, m1, m2, ⟨f2, hf2⟩, hact⟩ := convert_acts_partial tiny ns ns _ (layout_conforming hlay)
  refine ⟨max f1 f2, fun g hg n => ?_⟩
  obtain ⟨u1, u2, u3, u4⟩ := create_sizes W h
  rw [marching, (hf1 g (le_trans (le_max_left _ _) hg)).2 rfl]
  dsimp only
  have hm := hf2 g (le_trans (le_max_right _ _) hg)
  simp only [matBlocks] at hm
  rw [init, py_bind_ok, hm, py_bind_ok]
  have hwh : (create W h).1 ≠ [] := by
    intro e
    have hW0 : W = [] := by rw [← (create_spec W h).1, e]; rfl
    subst hW0
    obtain ⟨l, hl, _⟩ := hcon
    have : bcs = [] := by
      apply List.length_eq_zero_iff.mp
      rw [hn, ← hW]; rfl
    simp [this] at hl
  have hdis : ∀ f ∈ (create W h).1, f.addr ≠ u0 := fun f hf => by have := u3 f hf; omega
  have key : ∀ (n k : Nat) (h' : Heap K), (vectors h' (create W h).1).map List.length = ns →
      ∃ hist, passes solve u M (create W h).1 u0 rhs (fun k => dirichlet (bcsAt k)) n k h' = .ok hist := by
    intro n
    induction n with
    | zero => exact fun k h' _ => ⟨_, rfl⟩
    | succ n ih =>
        intro k h' hsz
        obtain ⟨bb, r1, r2, r3⟩ := hrhs k (h'.vec u0)
        obtain ⟨h'', hst⟩ := step_returns tiny hs hA hb r2 hn (hsame k) hr hcon (fun k hk => (hf1 k hk).2 rfl)
          hlay m1 m2 hact r3 hwh (h := h') (u0 := u0) (rhs := fun _ => bb) rfl
        have hsz' := (step_solves tiny hex hA hb r2 hn (hsame k) hr hcon (fun k hk => (hf1 k hk).2 rfl)
          hlay m1 m2 hact u1 hsz hdis rfl hst).1
        obtain ⟨hist, hh⟩ := ih (k + 1) h'' hsz'
        rw [passes, r1, py_bind_ok, hst, py_bind_ok, hh, py_bind_ok]
        exact ⟨_, rfl⟩
  exact key n 0 _ (u2.trans hW)

end march

section forms
variable {S K D : Type} [DecidableEq S] [Field K] [AddCommGroup D] [Module K D]

/-- The right-hand side is assembled as with the matrix. -/
theorem assembleRhs_iff {sem : Sem S K D} {order : List (Term S) → List (Term S)} {mods : List (Assembler S K)}
    {fuel : Nat} {env : Env S K} {L : List (Entry S)} (hL : L ≠ []) {b : List (List K)} :
    assembleRhs sem order mods fuel env L = .ok b ↔
      List.Forall₂ (EntriesOf (assembleItem sem order mods fuel env)) L b := by
  rw [assembleRhs]
  constructor
  · intro h
    obtain ⟨y, hy, h⟩ := py_bind_eq_ok.1 h
    obtain ⟨us, hus, rfl⟩ := (nested1_iff hL).1 hy
    simp only [nested1, blockVec] at h
    rw [pyMap_eq_ok, forall₂_map_left] at h
    exact forall₂_trans (fun e t x h1 h2 => ⟨t, h1, h2⟩) hus h
  · intro h
    obtain ⟨us, h1, h2⟩ : ∃ us, List.Forall₂ (fun e t => assembleItem sem order mods fuel env e = .ok t) L us ∧
        List.Forall₂ (fun t x => toEntries (.leaf t) = .ok x) us b := by
      clear hL
      induction h with
      | nil => exact ⟨[], .nil, .nil⟩
      | cons h _ ih =>
          obtain ⟨t, a1, a2⟩ := h
          obtain ⟨us, b1, b2⟩ := ih
          exact ⟨t :: us, .cons a1 b1, .cons a2 b2⟩
    rw [(nested1_iff hL).2 ⟨us, h1, rfl⟩, py_bind_ok]
    simp only [nested1, blockVec]
    rw [pyMap_eq_ok, forall₂_map_left]; exact h2

theorem den_atTime (sem : Sem S K D) (c : Nat → D) (val : Term S → D) :
    ∀ e : UExpr S, den (atTime sem c) val e = den sem val e
  | .term t => rfl
  | .node k ops => by
      rw [den, den, denAll_atTime sem c val ops]; rfl
where
  denAll_atTime (sem : Sem S K D) (c : Nat → D) (val : Term S → D) :
      ∀ es : List (UExpr S), denAll (atTime sem c) val es = denAll sem val es
    | [] => rfl
    | e :: es => by rw [denAll, denAll, den_atTime sem c val e, denAll_atTime sem c val es]

theorem total_atTime (sem : Sem S K D) (c : Nat → D) (F : List (Integral S)) (val : Integral S → Term S → D) :
    total (atTime sem c) F val = total sem F val := by
  simp only [total]
  refine congrArg List.sum (List.map_congr_left (fun I _ => ?_))
  rw [den_atTime]; rfl

theorem wellFormed_atTime {sem : Sem S K D} {mods : List (Assembler S K)} {I : Integral S} (h : WellFormed sem mods I)
    (c : Nat → D) : WellFormed (atTime sem c) mods I := by
  refine ⟨h.consistent, h.recognised, fun t ht n V hb val => ?_, h.twoArguments⟩
  have := h.linear t ht n V hb val
  simp only [den_atTime]
  exact this

/-- The assembled right-hand side represents the linear forms. -/
theorem rhs_represents {sem : Sem S K D} {order : List (Term S) → List (Term S)} {mods : List (Assembler S K)}
    {fuel : Nat} {env : Env S K} {W : List S} {a : List (List (Entry S))} {L : List (Entry S)} (hW : BlockForms W a L)
    {val : List (Integral S) → (Nat → K) → (Nat → K) → K}
    (hval : ∀ F, Entry.form F ∈ L → ∀ t, assemble sem order mods fuel env F = .ok t →
      Reduced.Shaped sem F t ∧ ∀ v u, act v u t = val F v u)
    {b : List (List K)} (hb : List.Forall₂ (EntriesOf (assembleItem sem order mods fuel env)) L b) :
    b.map List.length = W.map sem.dim ∧
      ∀ (k : Nat) n, (W.map sem.dim)[k]? = some n → ∃ F bk, L[k]? = some (.form F) ∧ b[k]? = some bk ∧
        ∀ v, ∑ d ∈ range n, v d * fnOf bk d = val F v 0 := by
  have rhs : ∀ (k : Nat) V, W[k]? = some V → ∃ F bk, L[k]? = some (.form F) ∧ b[k]? = some bk ∧
      bk.length = sem.dim V ∧ ∀ v, ∑ d ∈ range (sem.dim V), v d * fnOf bk d = val F v 0 := by
    intro k V hV
    have hk : k < L.length := by rw [hW.rhs]; exact (List.getElem?_eq_some_iff.1 hV).1
    obtain ⟨F, V', hF, hV', ⟨⟨I, hI, s, hs, hsb⟩, a2⟩, a3⟩ := hW.linear k _ (List.getElem?_eq_getElem hk)
    rw [hV] at hV'; cases hV'
    have hLk : L[k]? = some (.form F) := by rw [List.getElem?_eq_getElem hk, hF]
    obtain ⟨bk, h1, t, h4, h5⟩ := Extension.forall₂_get hb hLk
    obtain ⟨hsh, hact⟩ := hval F (List.mem_of_getElem? hLk) t h4
    refine ⟨F, bk, hLk, h1, ?_⟩
    cases t with
    | num c => cases h5
    | mat M => cases h5
    | vec n c =>
        cases h5
        obtain ⟨V', ⟨I', hI', s', hs', hsb'⟩, rfl, _⟩ := hsh
        obtain rfl := a2 I' hI' s' hs' V' hsb'
        refine ⟨by simp, fun v => ?_⟩
        rw [← hact v 0, act]
        refine sum_congr rfl (fun d hd => ?_)
        simp [fnOf, mem_range.1 hd]
  have hlenb : b.length = W.length := by rw [← hb.length_eq, hW.rhs]
  refine ⟨List.ext_getElem? (fun k => ?_), fun k n hn => ?_⟩
  · rw [List.getElem?_map, List.getElem?_map]
    cases hV : W[k]? with
    | none =>
        rw [List.getElem?_eq_none_iff] at hV
        rw [List.getElem?_eq_none (by omega)]; rfl
    | some V =>
        obtain ⟨F, bk, _, h2, h3, _⟩ := rhs k V hV
        rw [h2]; simp [h3]
  · rw [List.getElem?_map, Option.map_eq_some_iff] at hn
    obtain ⟨V, hV, rfl⟩ := hn
    obtain ⟨F, bk, h1, h2, _, h3⟩ := rhs k V hV
    exact ⟨F, bk, h1, h2, h3⟩

theorem formValue_eq (sem : Sem S K D) (R : Standing S K D) (env : Env S K) (i : Nat) (V : S) (c : Nat → D) (u : List K)
    (F : List (Integral S)) (v w : Nat → K) :
    total (atTime sem c) F (fun I => mixed (atTime sem c) R (withFn env i V u) (fun _ => v) (fun _ => w) I.rest) =
      formValue sem R env i V c u F v w := by
  rw [total_atTime, formValue]
  refine Reduced.total_congr sem F _ _ (fun I _ t _ => ?_)
  obtain ⟨base, attrs⟩ := t
  match base with
  | .argument 0 V => rfl
  | .argument (n + 1) V => rfl
  | .other j =>
      simp only [mixed, withFn, setEnv]
      by_cases hj : j = i
      · rw [if_pos hj, if_pos hj]; rfl
      · rw [if_neg hj, if_neg hj]; rfl

/-- Steady forms have the same values at all times. -/
theorem formValue_steady {sem : Sem S K D} {R : Standing S K D} {env : Env S K} {i : Nat} {V : S} {c : Nat → Nat → D}
    {F : List (Integral S)} (h : ∀ I ∈ F, ∀ t ∈ terms I.integrand, ∀ j, t.base = .other j →
      j ≠ i ∧ (env j = none → ∀ k, c k j = c 0 j)) (k l : Nat) (u u' : List K) (v w : Nat → K) :
    formValue sem R env i V (c k) u F v w = formValue sem R env i V (c l) u' F v w := by
  rw [formValue, formValue]
  refine Reduced.total_congr sem F _ _ (fun I hI t ht => ?_)
  have := h I hI t ht
  obtain ⟨base, attrs⟩ := t
  match base with
  | .argument 0 V => rfl
  | .argument (n + 1) V => rfl
  | .other j =>
      obtain ⟨h1, h2⟩ := this j rfl
      dsimp only
      rw [if_neg h1, if_neg h1]
      cases he : env j with
      | none => dsimp only; rw [h2 he k, h2 he l]
      | some p => rfl

/-- Values of the assembled tensors at any time. -/
theorem values_atTime {sem : Sem S K D} {R : Standing S K D} (W' : World S) {O : Ops S K} {red : Reduction S K}
    (htab : ∀ k attrs V rest TV T, (attrs.lookup k.attr).isSome →
      O.space k attrs (O.domain k attrs V) rest = .ok TV → O.matrix k attrs (O.domain k attrs V) TV rest = .ok T →
      red attrs V rest = (TV, T) ∧ T.rows = sem.dim TV ∧ T.cols = sem.dim V)
    {order : List (Term S) → List (Term S)} (ho : ∀ l, (order l).Perm l) {fuel : Nat} {env : Env S K} {i : Nat} {V : S}
    {F : List (Integral S)} (hF : (∀ I ∈ F, WellFormed sem (assemblers W' O) I) ∧ SameArguments F ∧
      ∀ I ∈ F, ∀ t ∈ terms I.integrand, ∀ Q, functionSpace (withFn env i V []) t = .ok Q →
        reduced sem red I.rest Q t.attrs = R I.rest Q t.attrs)
    (c : Nat → D) (u : List K) {t : Tensor K}
    (ht : assemble (atTime sem c) order (assemblers W' O) fuel (withFn env i V u) F = .ok t) :
    Reduced.Shaped (atTime sem c) F t ∧ ∀ v w, act v w t = formValue sem R env i V c u F v w := by
  obtain ⟨hw, hs, hR⟩ := hF
  have hmods : ∀ m ∈ assemblers W' O, Implements m red (atTime sem c) ∧ Columns m (atTime sem c) := by
    intro m hm'
    obtain ⟨k, _, rfl⟩ := List.mem_map.1 hm'
    refine ⟨⟨fun attrs V rest TV T h1 h2 h3 => ?_, fun rest t h => compatible_attr h⟩,
      fun attrs V rest TV T h1 h2 h3 => (htab k attrs V rest TV T h1 h2 h3).2.2⟩
    obtain ⟨e1, e2, _⟩ := htab k attrs V rest TV T h1 h2 h3
    exact ⟨e1, e2⟩
  refine ⟨assemble_shaped _ _ red (fun m h => (hmods m h).1) (fun m h => (hmods m h).2) order ho fuel _ F t
    (fun I hI => wellFormed_atTime (hw I hI) c) hs ht, fun v w => ?_⟩
  rw [← formValue_eq]
  refine assembled_standing (sem := atTime sem c) (red := red) W' (fun k attrs V rest TV T h1 h2 h3 => ?_) ho
    (fun I hI => wellFormed_atTime (hw I hI) c) hs (fun I hI t ht Q hQ => ?_) ht v w
  · obtain ⟨e1, e2, _⟩ := htab k attrs V rest TV T h1 h2 h3
    exact ⟨e1, e2⟩
  · refine hR I hI t ht Q ?_
    obtain ⟨base, attrs⟩ := t
    match base with
    | .argument n V => exact hQ
    | .other j =>
        simp only [functionSpace, withFn, setEnv] at hQ ⊢
        by_cases hj : j = i
        · rw [if_pos hj] at hQ ⊢; exact hQ
        · rw [if_neg hj] at hQ ⊢; exact hQ

/-- The matrix of the initial time and the right-hand side of any time represent the forms at this time. -/
theorem represents_atTime {sem : Sem S K D} {R : Standing S K D} (W' : World S) {O : Ops S K} {red : Reduction S K}
    (htab : ∀ k attrs V rest TV T, (attrs.lookup k.attr).isSome →
      O.space k attrs (O.domain k attrs V) rest = .ok TV → O.matrix k attrs (O.domain k attrs V) TV rest = .ok T →
      red attrs V rest = (TV, T) ∧ T.rows = sem.dim TV ∧ T.cols = sem.dim V)
    {order : List (Term S) → List (Term S)} (ho : ∀ l, (order l).Perm l) {fuel : Nat} {env : Env S K} {i : Nat} {V : S}
    {W : List S} {a : List (List (Entry S))} {L : List (Entry S)} (hW : BlockForms W a L)
    (hforms : ForForms a L (fun F => (∀ I ∈ F, WellFormed sem (assemblers W' O) I) ∧ SameArguments F ∧
      ∀ I ∈ F, ∀ t ∈ terms I.integrand, ∀ Q, functionSpace (withFn env i V []) t = .ok Q →
        reduced sem red I.rest Q t.attrs = R I.rest Q t.attrs))
    {c : Nat → Nat → D} (hc : Steady env i c a) {u₀ : List K} {A : List (List (Expr K))} {b₀ : List (List K)}
    (h : assembleSystem (atTime sem (c 0)) order (assemblers W' O) fuel (withFn env i V u₀) a L = .ok (A, b₀))
    {k : Nat} {u : List K} {b : List (List K)}
    (hb : assembleRhs (atTime sem (c k)) order (assemblers W' O) fuel (withFn env i V u) L = .ok b) :
    Represents (formValue sem R env i V (c k) u) (W.map sem.dim) a L A b := by
  have hL : L ≠ [] := by
    intro h; have := hW.rhs; rw [h] at this
    exact hW.nonempty (List.length_eq_zero_iff.1 this.symm)
  have h0 := system_represents (val := formValue sem R env i V (c 0) u₀) hW
    ⟨fun row hrow F hF t ht => values_atTime W' htab ho (hforms.1 row hrow F hF) (c 0) u₀ ht,
      fun F hF t ht => values_atTime W' htab ho (hforms.2 F hF) (c 0) u₀ ht⟩ h
  obtain ⟨b1, b2⟩ := rhs_represents (val := formValue sem R env i V (c k) u) hW
    (fun F hF t ht => values_atTime W' htab ho (hforms.2 F hF) (c k) u ht) ((assembleRhs_iff hL).1 hb)
  refine ⟨h0.conforming, b1, fun k' n hn v => ?_, b2⟩
  obtain ⟨row, Arow, r1, r2, r3⟩ := h0.blocks k' n hn v
  refine ⟨row, Arow, r1, r2, ?_⟩
  have hrow := List.mem_of_getElem? r1
  rw [List.forall₂_iff_get] at r3 ⊢
  refine ⟨r3.1, fun j hj hj' w => ?_⟩
  rw [r3.2 j hj hj' w]
  cases he : row.get ⟨j, hj⟩ with
  | num c => rfl
  | form F =>
      exact formValue_steady (hc row hrow F (he ▸ List.get_mem _ _)) 0 k u₀ u v w

theorem evolves_marches {ns : List Nat} {A : List (List (Expr K))} {rhs : Nat → List K → Py (List (List K))}
    {data : Nat → List (List (Nat × K))} {val : Nat → List K → List (Integral S) → (Nat → K) → (Nat → K) → K}
    {a : List (List (Entry S))} {L : List (Entry S)}
    (h : ∀ k u b, rhs k u = .ok b → Represents (val k u) ns a L A b) :
    ∀ (hist : List (List (List K))) (k : Nat) (u : List K), Evolves ns A rhs data k u hist →
      Marches val ns a L data k u hist
  | [], _, _, _ => trivial
  | xs :: hist, k, u, ⟨⟨b, h1, h2, h3⟩, v, h4, h5⟩ =>
      ⟨(discrete_iff (h k u b h1) h2).1 h3, v, h4, evolves_marches h hist (k + 1) v h5⟩

/-- **C102** Time stepping from forms, with one matrix: after any number of passes, the functions found in each pass solve the
discrete problem with the forms and the boundary values of the time of the pass, in which the function `u0` is the first
component of the solution of the pass before. -/
theorem time_forms {sem : Sem S K D} {R : Standing S K D} (W' : World S) {O : Ops S K} {red : Reduction S K}
    (htab : ∀ k attrs V rest TV T, (attrs.lookup k.attr).isSome →
      O.space k attrs (O.domain k attrs V) rest = .ok TV → O.matrix k attrs (O.domain k attrs V) TV rest = .ok T →
      red attrs V rest = (TV, T) ∧ T.rows = sem.dim TV ∧ T.cols = sem.dim V)
    {order : List (Term S) → List (Term S)} (ho : ∀ l, (order l).Perm l) {fuel : Nat} {env : Env S K} {i : Nat} {V : S}
    {W : List S} {a : List (List (Entry S))} {L : List (Entry S)} (hW : BlockForms W a L)
    (hforms : ForForms a L (fun F => (∀ I ∈ F, WellFormed sem (assemblers W' O) I) ∧ SameArguments F ∧
      ∀ I ∈ F, ∀ t ∈ terms I.integrand, ∀ Q, functionSpace (withFn env i V []) t = .ok Q →
        reduced sem red I.rest Q t.attrs = R I.rest Q t.attrs))
    {c : Nat → Nat → D} (hc : Steady env i c a) (tiny : Tiny K) {solve : Solver K} (hs : Exact solve)
    {bcs : Nat → List (List (List (Nat × K)))} (hn : (bcs 0).length = W.length) (hsame : ∀ k, SameDofs (bcs 0) (bcs k))
    (hr : InRange (W.map sem.dim) ((bcs 0).map List.flatten)) (hcon : Constrains ((bcs 0).map List.flatten))
    {U : List IIFunction.Space} (hU : U.map (fun s => s.dim) = W.map sem.dim) (h : Heap K) {u0 : Nat} (hu0 : u0 < h.next) :
    ∃ f, ∀ g, f ≤ g → ∀ n hist,
      timeProgram sem order (assemblers W' O) fuel env i V c a L tiny g solve (W.map sem.dim)
        (fun k => dirichlet (bcs k)) U u0 n h = .ok hist →
      hist.length = n ∧ Marches (fun k u => formValue sem R env i V (c (k + 1)) u) (W.map sem.dim) a L
        (fun k => (bcs (k + 1)).map List.flatten) 0 (h.vec u0) hist := by
  have hL : L ≠ [] := by
    intro h; have := hW.rhs; rw [h] at this
    exact hW.nonempty (List.length_eq_zero_iff.1 this.symm)
  cases hsys : assembleSystem (atTime sem (c 0)) order (assemblers W' O) fuel (withFn env i V (h.vec u0)) a L with
  | error e =>
      refine ⟨0, fun g _ n hist hrun => ?_⟩
      rw [timeProgram, hsys, py_bind_error] at hrun; cases hrun
  | ok s =>
      obtain ⟨A, b⟩ := s
      have hrep := fun (k : Nat) (u : List K) b hb => represents_atTime W' htab ho hW hforms hc hsys (k := k + 1) (u := u) (b := b) hb
      have h0 := represents_atTime W' htab ho hW hforms hc hsys (k := 0) (b := b)
        ((assembleRhs_iff hL).2 (assembleSystem_ok hW hsys).2)
      obtain ⟨f, hf⟩ := marching_solves tiny hs h0.conforming h0.sizes (bcs := bcs 0) (bcsAt := fun k => bcs (k + 1))
        (by simpa using hn) (fun k => hsame (k + 1)) hr hcon hU
        (rhs := fun k u => assembleRhs (atTime sem (c (k + 1))) order (assemblers W' O) fuel (withFn env i V u) L)
        (fun k v b hb => (hrep k v b hb).sizes) h hu0
      refine ⟨f, fun g hg n hist hrun => ?_⟩
      rw [timeProgram, hsys, py_bind_ok] at hrun
      obtain ⟨h1, h2⟩ := hf g hg n hist hrun
      exact ⟨h1, evolves_marches hrep hist 0 _ h2⟩

/-- **C102** No pass raises if the forms can be assembled at all times and the discrete problems of all times have one and just
one solution. -/
theorem time_forms_return {sem : Sem S K D} {R : Standing S K D} (W' : World S) {O : Ops S K} {red : Reduction S K}
    (htab : ∀ k attrs V rest TV T, (attrs.lookup k.attr).isSome →
      O.space k attrs (O.domain k attrs V) rest = .ok TV → O.matrix k attrs (O.domain k attrs V) TV rest = .ok T →
      red attrs V rest = (TV, T) ∧ T.rows = sem.dim TV ∧ T.cols = sem.dim V)
    {order : List (Term S) → List (Term S)} (ho : ∀ l, (order l).Perm l) {fuel : Nat} {env : Env S K} {i : Nat} {V : S}
    {W : List S} {a : List (List (Entry S))} {L : List (Entry S)} (hW : BlockForms W a L)
    (hforms : ForForms a L (fun F => (∀ I ∈ F, WellFormed sem (assemblers W' O) I) ∧ SameArguments F ∧
      ∀ I ∈ F, ∀ t ∈ terms I.integrand, ∀ Q, functionSpace (withFn env i V []) t = .ok Q →
        reduced sem red I.rest Q t.attrs = R I.rest Q t.attrs))
    {c : Nat → Nat → D} (hc : Steady env i c a)
    (hasm : ∀ k u, ForForms a L (fun F =>
      ∃ t, assemble (atTime sem (c k)) order (assemblers W' O) fuel (withFn env i V u) F = .ok t))
    (tiny : Tiny K) {solve : Solver K} (hs : Exact solve) (hreg : SolvesRegular solve)
    {bcs : Nat → List (List (List (Nat × K)))} (hn : (bcs 0).length = W.length) (hsame : ∀ k, SameDofs (bcs 0) (bcs k))
    (hr : InRange (W.map sem.dim) ((bcs 0).map List.flatten)) (hcon : Constrains ((bcs 0).map List.flatten))
    (huniq : ∀ k u, ∃! xs, DiscreteSolution (formValue sem R env i V (c (k + 1)) u) (W.map sem.dim) a L
      ((bcs (k + 1)).map List.flatten) xs)
    {U : List IIFunction.Space} (hU : U.map (fun s => s.dim) = W.map sem.dim) (h : Heap K) {u0 : Nat} (hu0 : u0 < h.next) :
    ∃ f, ∀ g, f ≤ g → ∀ n, ∃ hist,
      timeProgram sem order (assemblers W' O) fuel env i V c a L tiny g solve (W.map sem.dim)
        (fun k => dirichlet (bcs k)) U u0 n h = .ok hist := by
  have hL : L ≠ [] := by
    intro h; have := hW.rhs; rw [h] at this
    exact hW.nonempty (List.length_eq_zero_iff.1 this.symm)
  have ha : ∀ k u, ∀ row ∈ a, ∀ e ∈ row, ∃ x,
      BlockOf (assembleItem (atTime sem (c k)) order (assemblers W' O) fuel (withFn env i V u)) e x := by
    intro k u row hrow e he
    cases e with
    | num c => exact ⟨_, _, rfl, rfl⟩
    | form F =>
        obtain ⟨t, ht⟩ := (hasm k u).1 row hrow F he
        obtain ⟨hsh, _⟩ := values_atTime W' htab ho (hforms.1 row hrow F he) (c k) u ht
        obtain ⟨i, hi, rfl⟩ := List.getElem_of_mem hrow
        obtain ⟨j, hj, hij⟩ := List.getElem_of_mem he
        obtain ⟨V, Q, _, _, ⟨hV, _⟩, ⟨hQ, _⟩⟩ := hW.fits i j _ (.form F) (List.getElem?_eq_getElem hi)
          (by rw [List.getElem?_eq_getElem hj, hij])
        cases t with
        | num c => exact absurd hV (hsh 0 V)
        | vec n b =>
            obtain ⟨_, _, _, hno⟩ := hsh
            exact absurd hQ (hno Q)
        | mat M => exact ⟨_, _, ht, rfl⟩
  have hb : ∀ k u, ∀ e ∈ L, ∃ x,
      EntriesOf (assembleItem (atTime sem (c k)) order (assemblers W' O) fuel (withFn env i V u)) e x := by
    intro k u e he
    obtain ⟨i, hi, hie⟩ := List.getElem_of_mem he
    obtain ⟨F, V, rfl, _, ⟨hV, _⟩, hno⟩ := hW.linear i e (by rw [List.getElem?_eq_getElem hi, hie])
    obtain ⟨t, ht⟩ := (hasm k u).2 F he
    obtain ⟨hsh, _⟩ := values_atTime W' htab ho (hforms.2 F he) (c k) u ht
    cases t with
    | num c => exact absurd hV (hsh 0 V)
    | vec n b => exact ⟨_, _, ht, rfl⟩
    | mat M =>
        obtain ⟨_, Q, _, ⟨I, hI, s, hs, hsb⟩, _⟩ := hsh
        exact absurd hsb (hno I hI s hs Q)
  obtain ⟨A, b, hsys⟩ := assembleSystem_returns hW (ha 0 (h.vec u0)) (hb 0 (h.vec u0))
  have h0 := represents_atTime W' htab ho hW hforms hc hsys (k := 0) (b := b)
    ((assembleRhs_iff hL).2 (assembleSystem_ok hW hsys).2)
  obtain ⟨f, hf⟩ := marching_returns tiny hs hreg h0.conforming h0.sizes (bcs := bcs 0) (bcsAt := fun k => bcs (k + 1))
    (by simpa using hn) (fun k => hsame (k + 1)) hr hcon hU
    (rhs := fun k u => assembleRhs (atTime sem (c (k + 1))) order (assemblers W' O) fuel (withFn env i V u) L)
    (fun k v => by
      obtain ⟨b, hb⟩ := exists_images (hb (k + 1) v)
      have hb := (assembleRhs_iff hL).2 hb
      have hrep := represents_atTime W' htab ho hW hforms hc hsys hb
      obtain ⟨xs, h1, h2⟩ := huniq k v
      exact ⟨b, hb, hrep.sizes, xs, ⟨h1.sizes, (discrete_iff hrep h1.sizes).2 h1⟩,
        fun ys hy => h2 ys ((discrete_iff hrep hy.1).1 hy.2)⟩) h hu0
  refine ⟨f, fun g hg n => ?_⟩
  obtain ⟨hist, hh⟩ := hf g hg n
  exact ⟨hist, by rw [timeProgram, hsys, py_bind_ok, hh]⟩

end forms

section traces
open DofMat Trace Embedding TransposeTrace TraceForm

variable {S K X : Type} [DecidableEq S] [Field K] {d : Nat} {C : Meshes} {marking : Option (List Nat)} {id : Nat}
  {dom : Nat → Prop} {On : Nat → X → Prop} {sem : Sem S K (Pts dom On → K)} {sp : S → DofMat.Space K X} {side : Nat → Nat}

/-- **C102** Time stepping with forms which couple functions through traces: the problems are those with the restrictions of
functions to the trace mesh. -/
theorem time_traces (hC : TraceForm.Conforming C id)
    (hm : (marksOf marking C.numCells).length = C.numCells) (hside : ∀ k, dom k → FacetOf C id k (side k)) (W' : World S)
    {O : Ops S K} {red : Reduction S K}
    (htab : ∀ k attrs V rest TV T, (attrs.lookup k.attr).isSome →
      O.space k attrs (O.domain k attrs V) rest = .ok TV → O.matrix k attrs (O.domain k attrs V) TV rest = .ok T →
      red attrs V rest = (TV, T) ∧ T.rows = sem.dim TV ∧ T.cols = sem.dim V)
    {order : List (Term S) → List (Term S)} (ho : ∀ l, (order l).Perm l) {fuel : Nat} {env : Env S K} {i : Nat} {V : S}
    {W : List S} {a : List (List (Entry S))} {L : List (Entry S)} (hW : BlockForms W a L)
    (hforms : ForForms a L (fun F => (∀ I ∈ F, WellFormed sem (assemblers W' O) I) ∧ SameArguments F ∧
      ∀ I ∈ F, ∀ t ∈ terms I.integrand, t.attrs ≠ [] → ∀ Q, functionSpace (withFn env i V []) t = .ok Q →
        Traced d O C marking id sem sp I.rest Q t.attrs))
    {c : Nat → Nat → Pts dom On → K} (hc : Steady env i c a) (tiny : Tiny K) {solve : Solver K} (hs : Exact solve)
    {bcs : Nat → List (List (List (Nat × K)))} (hn : (bcs 0).length = W.length) (hsame : ∀ k, SameDofs (bcs 0) (bcs k))
    (hr : InRange (W.map sem.dim) ((bcs 0).map List.flatten)) (hcon : Constrains ((bcs 0).map List.flatten))
    {U : List IIFunction.Space} (hU : U.map (fun s => s.dim) = W.map sem.dim) (h : Heap K) {u0 : Nat} (hu0 : u0 < h.next) :
    (∃ f, ∀ g, f ≤ g → ∀ n hist,
      timeProgram sem order (assemblers W' O) fuel env i V c a L tiny g solve (W.map sem.dim)
        (fun k => dirichlet (bcs k)) U u0 n h = .ok hist →
      hist.length = n ∧ Marches (fun k u => formValue sem (restricted sem sp side) env i V (c (k + 1)) u) (W.map sem.dim)
        a L (fun k => (bcs (k + 1)).map List.flatten) 0 (h.vec u0) hist) ∧
    ((∀ k u, ForForms a L (fun F =>
        ∃ t, assemble (atTime sem (c k)) order (assemblers W' O) fuel (withFn env i V u) F = .ok t)) →
      SolvesRegular solve →
      (∀ k u, ∃! xs, DiscreteSolution (formValue sem (restricted sem sp side) env i V (c (k + 1)) u) (W.map sem.dim) a L
        ((bcs (k + 1)).map List.flatten) xs) →
      ∃ f, ∀ g, f ≤ g → ∀ n, ∃ hist,
        timeProgram sem order (assemblers W' O) fuel env i V c a L tiny g solve (W.map sem.dim)
          (fun k => dirichlet (bcs k)) U u0 n h = .ok hist) := by
  have key : ∀ F, ((∀ I ∈ F, WellFormed sem (assemblers W' O) I) ∧ SameArguments F ∧
      ∀ I ∈ F, ∀ t ∈ terms I.integrand, t.attrs ≠ [] → ∀ Q, functionSpace (withFn env i V []) t = .ok Q →
        Traced d O C marking id sem sp I.rest Q t.attrs) →
      ((∀ I ∈ F, WellFormed sem (assemblers W' O) I) ∧ SameArguments F ∧
      ∀ I ∈ F, ∀ t ∈ terms I.integrand, ∀ Q, functionSpace (withFn env i V []) t = .ok Q →
        reduced sem red I.rest Q t.attrs = restricted sem sp side I.rest Q t.attrs) := by
    rintro F ⟨h1, h2, h3⟩
    refine ⟨h1, h2, fun I hI t ht Q hQ => ?_⟩
    funext x
    by_cases hne : t.attrs = []
    · rw [reduced, restricted, if_pos hne, if_pos hne]
    · rw [restricted, if_neg hne]
      exact reduced_restriction hC hm hside (fun k attrs V rest TV T h1 h2 h3 =>
        ⟨(htab k attrs V rest TV T h1 h2 h3).1, (htab k attrs V rest TV T h1 h2 h3).2.1⟩) (h3 I hI t ht hne Q hQ) hne x
  have hforms' : ForForms a L (fun F => (∀ I ∈ F, WellFormed sem (assemblers W' O) I) ∧ SameArguments F ∧
      ∀ I ∈ F, ∀ t ∈ terms I.integrand, ∀ Q, functionSpace (withFn env i V []) t = .ok Q →
        reduced sem red I.rest Q t.attrs = restricted sem sp side I.rest Q t.attrs) :=
    ⟨fun row hrow F hF => key F (hforms.1 row hrow F hF), fun F hF => key F (hforms.2 F hF)⟩
  exact ⟨time_forms W' htab ho hW hforms' hc tiny hs hn hsame hr hcon hU h hu0,
    fun hasm hreg huniq => time_forms_return W' htab ho hW hforms' hc hasm tiny hs hreg hn hsame hr hcon huniq hU h hu0⟩

end traces

/-! ## A case

Functions on two points, `2 x = u0 + f` in each of them, where `f` is `k` in pass `k`, and the value in the first point is
prescribed to be `k`. -/

section example_

/-- Functions on two points; operators are products; the integral is the sum of the values. -/
def pairSem : Sem Nat ℚ (ℚ × ℚ) where
  dim _ := 2
  basis _ i := if i = 0 then (1, 0) else if i = 1 then (0, 1) else 0
  op _ l := l.prod
  const _ := 0
  integral _ f := f.1 + f.2

/-- No terminals need reductions. -/
def pairWorld : World Nat where
  tdim _ := 1
  mesh _ := none
  cell _ := true
  idim _ := 1
  imesh _ := 9
  annotMesh _ := 9

/-- No reductions. -/
def pairOps : Ops Nat ℚ where
  domain _ _ V := V
  space _ _ _ _ := .error .valueError
  matrix _ _ _ _ _ := .error .valueError

/-- `2*u*v*dx`. -/
def pairA : List (Integral Nat) :=
  [⟨.node 0 [.term ⟨.other 1, []⟩, .term ⟨.argument 0 7, []⟩, .term ⟨.argument 1 7, []⟩], 0⟩]

/-- `u0*v*dx + f*v*dx`. -/
def pairL : List (Integral Nat) :=
  [⟨.node 0 [.term ⟨.other 0, []⟩, .term ⟨.argument 0 7, []⟩], 0⟩,
    ⟨.node 0 [.term ⟨.other 2, []⟩, .term ⟨.argument 0 7, []⟩], 0⟩]

/-- Values of the expressions: 2 and the number of the pass. -/
def pairC (k j : Nat) : ℚ × ℚ := if j = 1 then (2, 2) else (k, k)

/-- Boundary values. -/
def pairBcs (k : Nat) : List (List (List (Nat × ℚ))) := [[[(0, (k : ℚ))]]]

/-- Functions stand for themselves. -/
def pairR : Standing Nat ℚ (ℚ × ℚ) := fun _ V _ x => Reduced.fn pairSem V x

theorem pair_formA (c : Nat → ℚ × ℚ) (h : c 1 = (2, 2)) (u : List ℚ) (v w : Nat → ℚ) :
    formValue pairSem pairR (fun _ => none) 0 7 c u pairA v w = 2 * (v 0 * w 0) + 2 * (v 1 * w 1) := by
  simp [formValue, total, pairA, den, denAll, pairSem, pairR, Reduced.fn, sum_range_succ, h]

theorem pair_formL (k : Nat) (u : List ℚ) (v w : Nat → ℚ) :
    formValue pairSem pairR (fun _ => none) 0 7 (pairC k) u pairL v w =
      (fnOf u 0 + k) * v 0 + (fnOf u 1 + k) * v 1 := by
  simp [formValue, total, pairL, den, denAll, pairSem, pairR, Reduced.fn, sum_range_succ, pairC]
  ring

theorem pair_solution (k : Nat) (u : List ℚ) (x : List (List ℚ)) :
    DiscreteSolution (formValue pairSem pairR (fun _ => none) 0 7 (pairC k) u) [2] [[.form pairA]] [.form pairL]
      ((pairBcs k).map List.flatten) x ↔ x = [[(k : ℚ), (fnOf u 1 + k) / 2]] := by
  constructor
  · rintro ⟨h1, h2, h3⟩
    match x, h1 with
    | [[x0, x1]], _ =>
        have e0 := h2 0 0 k (by simp [prescribed, pairBcs, lastVal])
        have e1 := h3 0 _ _ 2 rfl rfl rfl (fun i => if i = 1 then 1 else 0) (by
          intro d hd
          rw [if_neg]; rintro rfl; exact hd (by simp [prescribed, pairBcs, lastVal]))
        simp [value, pair_formA, pair_formL, pairC, fnOf] at e1
        simp [entry] at e0
        subst e0
        have : x1 = (fnOf u 1 + k) / 2 := by simp [fnOf]; linarith
        rw [this]
  · rintro rfl
    refine ⟨rfl, ?_, ?_⟩
    · intro i d x hx
      match i, d with
      | 0, 0 => simp [prescribed, pairBcs, lastVal] at hx; simp [entry, hx]
      | 0, d + 1 => simp [prescribed, pairBcs, lastVal] at hx
      | i + 1, d => simp [prescribed, pairBcs, lastVal] at hx
    · intro i row F n h1 h2 h3 v hv
      match i with
      | 0 =>
          have hv0 := hv 0 (by simp [prescribed, pairBcs, lastVal])
          simp at h1 h2 h3
          subst h1 h2 h3
          simp [value, pair_formA, pair_formL, pairC, fnOf, hv0]
          ring
      | i + 1 => simp at h3

theorem pair_termsA {t : Term Nat} (h : ∃ I ∈ pairA, t ∈ terms I.integrand) :
    t = ⟨.other 1, []⟩ ∨ t = ⟨.argument 0 7, []⟩ ∨ t = ⟨.argument 1 7, []⟩ := by
  obtain ⟨I, hI, ht⟩ := h
  simp only [pairA, List.mem_singleton] at hI
  subst hI
  simpa [terms, termsAll] using ht

theorem pair_termsL {t : Term Nat} (h : ∃ I ∈ pairL, t ∈ terms I.integrand) :
    t = ⟨.other 0, []⟩ ∨ t = ⟨.other 2, []⟩ ∨ t = ⟨.argument 0 7, []⟩ := by
  obtain ⟨I, hI, ht⟩ := h
  simp only [pairL, List.mem_cons, List.not_mem_nil, or_false] at hI
  rcases hI with rfl | rfl <;> simp [terms, termsAll] at ht <;> rcases ht with rfl | rfl <;> simp

theorem pair_blockForms : BlockForms [7] [[.form pairA]] [.form pairL] where
  nonempty := by simp
  rows := rfl
  square := by simp
  fits := by
    intro i j row e hi hj
    match i, j with
    | 0, 0 =>
        simp at hi; subst hi; simp at hj; subst hj
        refine ⟨7, 7, rfl, rfl, ⟨⟨_, List.mem_singleton.2 rfl, ⟨.argument 0 7, []⟩, by simp [terms, termsAll], rfl⟩, ?_⟩,
          ⟨⟨_, List.mem_singleton.2 rfl, ⟨.argument 1 7, []⟩, by simp [terms, termsAll], rfl⟩, ?_⟩⟩ <;>
        · intro I hI t ht Q hb
          rcases pair_termsA ⟨I, hI, ht⟩ with rfl | rfl | rfl <;> simp at hb <;> omega
    | 0, j + 1 => simp at hi; subst hi; simp at hj
    | i + 1, j => simp at hi
  numbers := by
    intro i j row c hi hj
    match i, j with
    | 0, 0 => right; rfl
    | 0, j + 1 => simp at hi; subst hi; simp at hj
    | i + 1, j => simp at hi
  rhs := rfl
  linear := by
    intro i e hi
    match i with
    | 0 =>
        simp at hi; subst hi
        refine ⟨_, 7, rfl, rfl, ⟨⟨_, List.mem_cons_self, ⟨.argument 0 7, []⟩, by simp [terms, termsAll], rfl⟩, ?_⟩, ?_⟩
        · intro I hI t ht Q hb
          rcases pair_termsL ⟨I, hI, ht⟩ with rfl | rfl | rfl <;> simp at hb; omega
        · intro I hI t ht Q hb
          rcases pair_termsL ⟨I, hI, ht⟩ with rfl | rfl | rfl <;> simp at hb
    | i + 1 => simp at hi

theorem pair_wellFormed : ∀ I, I ∈ pairA ∨ I ∈ pairL → WellFormed pairSem (assemblers pairWorld pairOps) I := by
  intro I hI
  have hb : ∀ t ∈ terms I.integrand, t.attrs = [] ∧ ∀ n V, t.base = .argument n V → n ≤ 1 := by
    intro t ht
    rcases hI with hI | hI
    · rcases pair_termsA ⟨I, hI, ht⟩ with rfl | rfl | rfl <;> simp <;> omega
    · rcases pair_termsL ⟨I, hI, ht⟩ with rfl | rfl | rfl <;> simp
  refine ⟨?_, fun t ht hne => absurd (hb t ht).1 hne, ?_, fun t ht => (hb t ht).2⟩
  · rintro ⟨s1, s2⟩ hs ⟨t1, t2⟩ ht e
    have h1 := (hb _ hs).1
    have h2 := (hb _ ht).1
    dsimp only at h1 h2 e
    rw [e, h1, h2]
  · intro t ht n V hbase val
    simp only [pairA, pairL, List.mem_cons, List.not_mem_nil, or_false] at hI
    rcases hI with rfl | rfl | rfl <;> simp [terms, termsAll] at ht
    · rcases ht with rfl | rfl | rfl
      · simp at hbase
      · constructor
        · intro x y; simp [den, denAll, pairSem]; ring
        · intro c x; simp [den, denAll, pairSem]; ring
      · constructor
        · intro x y; simp [den, denAll, pairSem]; ring
        · intro c x; simp [den, denAll, pairSem]; ring
    · rcases ht with rfl | rfl
      · simp at hbase
      · constructor
        · intro x y; simp [den, denAll, pairSem]; ring
        · intro c x; simp [den, denAll, pairSem]; ring
    · rcases ht with rfl | rfl
      · simp at hbase
      · constructor
        · intro x y; simp [den, denAll, pairSem]; ring
        · intro c x; simp [den, denAll, pairSem]; ring

theorem pair_sameArguments : SameArguments pairA ∧ SameArguments pairL := by
  constructor
  · intro I hI t ht n V hb J hJ
    simp only [pairA, List.mem_singleton] at hI hJ
    subst hI; subst hJ
    exact ⟨t, ht, hb⟩
  · intro I hI t ht n V hb J hJ
    have : t.base = .argument 0 7 := by
      rcases pair_termsL ⟨I, hI, ht⟩ with rfl | rfl | rfl <;> first | rfl | simp at hb
    rw [this] at hb
    refine ⟨⟨.argument 0 7, []⟩, ?_, hb⟩
    simp only [pairL, List.mem_cons, List.not_mem_nil, or_false] at hJ
    rcases hJ with rfl | rfl <;> simp [terms, termsAll]

theorem pair_assembles (sem : Sem Nat ℚ (ℚ × ℚ)) (env : Env Nat ℚ) :
    (∃ t, assemble sem id (assemblers pairWorld pairOps) 1 env pairA = .ok t) ∧
      ∃ t, assemble sem id (assemblers pairWorld pairOps) 1 env pairL = .ok t := by
  constructor
  · rw [assemble_ignores_unrecognised]
    · have : arguments pairA = .ok [(0, 7), (1, 7)] := by decide +kernel
      rw [this]
      exact ⟨_, rfl⟩
    · intro m hm I hI
      obtain ⟨k, _, rfl⟩ := List.mem_map.1 hm
      simp only [pairA, List.mem_singleton] at hI
      subst hI
      cases k <;> rfl
  · rw [assemble_ignores_unrecognised]
    · have : arguments pairL = .ok [(0, 7)] := by decide +kernel
      rw [this]
      exact ⟨_, rfl⟩
    · intro m hm I hI
      obtain ⟨k, _, rfl⟩ := List.mem_map.1 hm
      simp only [pairL, List.mem_cons, List.not_mem_nil, or_false] at hI
      rcases hI with rfl | rfl <;> cases k <;> rfl

/-- Two passes. -/
example (h : Heap ℚ) (h0 : h.vec 0 = [0, 0]) (hnext : 0 < h.next) : ∃ f, ∀ g, f ≤ g →
    timeProgram pairSem id (assemblers pairWorld pairOps) 1 (fun _ => none) 0 7 pairC [[.form pairA]] [.form pairL] noTiny g
      oracle ([7].map pairSem.dim) (fun k => dirichlet (pairBcs k)) [⟨0, 2⟩] 0 2 h =
        .ok [[[1, 1 / 2]], [[2, 5 / 4]]] := by
  have hforms : ∀ red : Reduction Nat ℚ, ForForms [[.form pairA]] [.form pairL]
      (fun F => (∀ I ∈ F, WellFormed pairSem (assemblers pairWorld pairOps) I) ∧ SameArguments F ∧
      ∀ I ∈ F, ∀ t ∈ terms I.integrand, ∀ Q, functionSpace (withFn (K := ℚ) (fun _ => none) 0 7 []) t = .ok Q →
        reduced pairSem red I.rest Q t.attrs = pairR I.rest Q t.attrs) := by
    intro red
    constructor
    · intro row hrow F hF
      simp at hrow; subst hrow; simp at hF; subst hF
      refine ⟨fun I hI => pair_wellFormed I (.inl hI), pair_sameArguments.1, fun I hI t ht Q _ => ?_⟩
      funext x
      rcases pair_termsA ⟨I, hI, ht⟩ with rfl | rfl | rfl <;> rfl
    · intro F hF
      simp at hF; subst hF
      refine ⟨fun I hI => pair_wellFormed I (.inr hI), pair_sameArguments.2, fun I hI t ht Q _ => ?_⟩
      funext x
      rcases pair_termsL ⟨I, hI, ht⟩ with rfl | rfl | rfl <;> rfl
  have hc : Steady (K := ℚ) (fun _ : Nat => (none : Option (Nat × (Nat → ℚ)))) 0 pairC [[Entry.form pairA]] := by
    intro row hrow F hF I hI t ht j hj
    simp at hrow; subst hrow; simp at hF; subst hF
    rcases pair_termsA ⟨I, hI, ht⟩ with rfl | rfl | rfl <;> simp at hj
    subst hj
    exact ⟨by decide, fun _ k => rfl⟩
  have hasm : ∀ k u, ForForms [[.form pairA]] [.form pairL] (fun F => ∃ t, assemble (atTime pairSem (pairC k)) id
      (assemblers pairWorld pairOps) 1 (withFn (fun _ => none) 0 7 u) F = .ok t) := by
    intro k u
    constructor
    · intro row hrow F hF
      simp at hrow; subst hrow; simp at hF; subst hF
      exact (pair_assembles _ _).1
    · intro F hF
      simp at hF; subst hF
      exact (pair_assembles _ _).2
  have hr : InRange ([7].map pairSem.dim) ((pairBcs 0).map List.flatten) := by
    intro k d v n h1 h2
    match k with
    | 0 => simp [pairBcs, pairSem] at h1 h2; omega
    | k + 1 => simp at h2
  have hcon : Constrains ((pairBcs 0).map List.flatten) := ⟨[(0, 0)], by simp [pairBcs], by simp⟩
  have htab' : ∀ (k : Kind) attrs V rest TV T, (attrs.lookup k.attr).isSome →
      pairOps.space k attrs (pairOps.domain k attrs V) rest = .ok TV →
      pairOps.matrix k attrs (pairOps.domain k attrs V) TV rest = .ok T →
      (fun _ _ _ => (0, Mat.of 0 0 (fun _ _ => 0)) : Reduction Nat ℚ) attrs V rest = (TV, T) ∧ T.rows = pairSem.dim TV ∧
        T.cols = pairSem.dim V := by
    intro k attrs V rest TV T _ h1; cases h1
  obtain ⟨f1, h1⟩ := time_forms (fuel := 1) (i := 0) (V := 7) (env := fun _ => none) (c := pairC) (bcs := pairBcs) pairWorld
    htab' (fun l => .refl (id l)) pair_blockForms (hforms _) hc noTiny oracle_exact rfl (fun _ => rfl) hr hcon
    (U := [⟨0, 2⟩]) rfl h hnext
  obtain ⟨f2, h2⟩ := time_forms_return (fuel := 1) (i := 0) (V := 7) (env := fun _ => none) (c := pairC) (bcs := pairBcs)
    pairWorld htab' (fun l => .refl (id l)) pair_blockForms (hforms _) hc hasm noTiny oracle_exact oracle_regular rfl
    (fun _ => rfl) hr hcon
    (fun k u => ⟨_, (pair_solution (k + 1) u _).2 rfl, fun y hy => (pair_solution (k + 1) u y).1 hy⟩)
    (U := [⟨0, 2⟩]) rfl h hnext
  refine ⟨max f1 f2, fun g hg => ?_⟩
  obtain ⟨hist, hrun⟩ := h2 g (le_trans (le_max_right _ _) hg) 2
  obtain ⟨a1, a2⟩ := h1 g (le_trans (le_max_left _ _) hg) 2 hist hrun
  rw [hrun]
  match hist, a1 with
  | [x, y], _ =>
      obtain ⟨b1, v, b2, b3, w, b4, _⟩ := a2
      obtain rfl := (pair_solution 1 _ x).1 b1
      simp at b2
      subst b2
      obtain rfl := (pair_solution 2 _ y).1 b3
      simp [fnOf, h0]
      norm_num

end example_
end Verif.TimeDep
