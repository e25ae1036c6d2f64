import Verif.Props.Newton
/-! # C108: Newton's method returns -/
namespace Verif.Newton
open Verif Ufl BlockOps BlockForm Collapse IIFunction Workflow Reduced ListUtils Program Jacobian

variable {S : Type} [DecidableEq S] {W : Type} [NormedAddCommGroup W] [NormedSpace ℝ W]

/-- The Jacobian of residuals in a valid setup is made. -/
theorem jacobian_returns {K : Kinds S} {fresh : Nat → Nat → Nat → Nat} {F : List (List (Integral S))} {x : List (Term S)}
    {up : List Fn} {next : Nat} (hs : Setup K fresh F x up next) {M : World S W} {u : Nat → W}
    (hsm : SmoothAt M K F up u) : ∃ dF, blockJacobian K fresh F x = .ok dF := by
  classical
  have haddr : ∀ (j : Nat) y a, x[j]? = some y → Plain K y a → ∃ w, up[j]? = some w ∧ w.addr = a := by
    intro j y a hy ha
    have hj : j < up.length := by rw [hs.functions]; exact (List.getElem?_eq_some_iff.1 hy).1
    refine ⟨up[j], List.getElem?_eq_getElem hj, ?_⟩
    obtain ⟨⟨i, h1, h2⟩, _⟩ := hs.plain j y _ hy (List.getElem?_eq_getElem hj)
    obtain ⟨⟨i', h3, h4⟩, _⟩ := ha
    rw [h1] at h3
    injection h3 with h3
    subst h3
    rw [h2] at h4
    injection h4
  obtain ⟨B, hB, _⟩ := block_jacobian_correct_partial K hs.kinds fresh F x hs.residuals
    (fun i f hf => by obtain ⟨v, h1, h2, _⟩ := hs.functional i f hf; exact ⟨v, h1, h2⟩)
    (fun y hy => by
      obtain ⟨j, hj⟩ := List.getElem?_of_mem hy
      have hju : j < up.length := by rw [hs.functions]; exact (List.getElem?_eq_some_iff.1 hj).1
      exact ⟨_, hs.plain j y _ hj (List.getElem?_eq_getElem hju)⟩)
    (fun i j f y a hf hy ha => by
      obtain ⟨w, h1, rfl⟩ := haddr j y a hy ha
      exact hs.supported i j f w hf h1)
    M u 0 0
    (fun f hf y hy a ha I hI => by
      obtain ⟨j, hj⟩ := List.getElem?_of_mem hy
      obtain ⟨w, h1, rfl⟩ := haddr j y a hj ha
      refine smooth_mono M I.integrand _ ?_ (hsm f hf I hI 0 0)
      intro t ht
      obtain ⟨h1', h2⟩ := Finset.mem_filter.1 ht
      exact Finset.mem_filter.2 ⟨h1', w, List.mem_of_getElem? h1, h2⟩)
  exact ⟨B, hB⟩

theorem exists_forall₂ {α β : Type} {R : α → β → Prop} : ∀ {l : List α}, (∀ a ∈ l, ∃ b, R a b) → ∃ m, List.Forall₂ R l m
  | [], _ => ⟨[], .nil⟩
  | a :: l, h => by
      obtain ⟨b, hb⟩ := h a (by simp)
      obtain ⟨m, hm⟩ := exists_forall₂ (l := l) (fun a ha => h a (List.mem_cons_of_mem _ ha))
      exact ⟨b :: m, .cons hb hm⟩

/-- The matrix is assembled and converted. -/
theorem matrix_returns {K : Kinds S} {fresh : Nat → Nat → Nat → Nat} {F : List (List (Integral S))} {x : List (Term S)}
    {up : List Fn} {next : Nat} (hs : Setup K fresh F x up next) {dF : List (List (Entry S))}
    (hJ : blockJacobian K fresh F x = .ok dF) {M : World S W} {φ : Nat → Nat → W} {asm : Assemble S} {ns : List Nat}
    (hasm : Assembles M K φ asm F dF up ns) (htot : Total asm F dF) (hlen : ns.length = x.length) (tiny : Tiny ℝ)
    (h : Heap ℝ) : ∃ A g0, ∀ g, g0 ≤ g → matrix asm tiny g ns dF h = .ok A := by
  have hn : 0 < x.length := List.length_pos_iff.2 hs.nonempty
  obtain ⟨d1, d2⟩ := jacobian_size hJ
  obtain ⟨ts, hts⟩ : ∃ ts, List.Forall₂ (List.Forall₂ (fun e t => asm h e = .ok t)) dF ts :=
    exists_forall₂ (fun row hrow => exists_forall₂ (fun e he => (htot h).2 row hrow e he))
  have hblock : ∀ {i j : Nat} {drow J n m t}, dF[i]? = some drow → drow[j]? = some J → ns[i]? = some n → ns[j]? = some m →
      asm h J = .ok t → ∃ e, toBlock (.leaf t) = .ok e ∧ BlockOk i j n m e := by
    intro i j drow J n m t h1 h3 hni hmj h4
    cases J with
    | num c =>
        have hc : c = 0 := jacobian_number hJ (List.mem_of_getElem? h1) (List.mem_of_getElem? h3)
        subst hc
        rw [hasm.number] at h4
        injection h4 with h4
        subst h4
        exact ⟨_, rfl, Or.inr (Or.inl (by simp))⟩
    | form J =>
        have hi : i < up.length := by rw [hs.functions, ← hlen]; exact (List.getElem?_eq_some_iff.1 hni).1
        have hj : j < up.length := by rw [hs.functions, ← hlen]; exact (List.getElem?_eq_some_iff.1 hmj).1
        obtain ⟨A', rfl, a1, a2, _⟩ := hasm.mat h i j drow J _ _ n m t h1 h3 (List.getElem?_eq_getElem hi)
          (List.getElem?_eq_getElem hj) hni hmj h4
        exact ⟨_, rfl, Or.inl (by rw [← a1, ← a2]; exact .mat A')⟩
  have hts' : ∀ {i : Nat} {trow}, ts[i]? = some trow → ∃ drow, dF[i]? = some drow ∧
      List.Forall₂ (fun e t => asm h e = .ok t) drow trow := fun hi => forall₂_at hts hi
  have hti : ∀ {i : Nat}, i < ts.length → i < ns.length := by
    intro i hi
    rw [← hts.length_eq, d1, hs.residuals, ← hlen] at hi
    exact hi
  obtain ⟨B, hB⟩ : ∃ B, List.Forall₂ (List.Forall₂ (fun t e => toBlock (.leaf t) = .ok e)) ts B := by
    refine exists_forall₂ (fun trow htrow => exists_forall₂ (fun t ht => ?_))
    obtain ⟨i, hi⟩ := List.getElem?_of_mem htrow
    obtain ⟨j, hj⟩ := List.getElem?_of_mem ht
    obtain ⟨drow, h1, h2⟩ := hts' hi
    obtain ⟨J, h3, h4⟩ := forall₂_at h2 hj
    have hin : i < ns.length := hti (List.getElem?_eq_some_iff.1 hi).1
    have hjn : j < ns.length := by
      rw [hlen, ← d2 drow (List.mem_of_getElem? h1)]
      exact (List.getElem?_eq_some_iff.1 h3).1
    obtain ⟨e, he, _⟩ := hblock h1 h3 (List.getElem?_eq_getElem hin) (List.getElem?_eq_getElem hjn) h4
    exact ⟨e, he⟩
  have hconf : Conforming ns ns B := by
    refine ⟨by rw [← hB.length_eq, ← hts.length_eq, d1, hs.residuals, hlen], fun i row r hrow hr => ?_⟩
    obtain ⟨trow, t1, t2⟩ := forall₂_at hB hrow
    obtain ⟨drow, h1, h2⟩ := hts' t1
    refine ⟨by rw [← t2.length_eq, ← h2.length_eq, d2 drow (List.mem_of_getElem? h1), hlen], fun j e c he hc => ?_⟩
    obtain ⟨t, t3, t4⟩ := forall₂_at t2 he
    obtain ⟨J, h3, h4⟩ := forall₂_at h2 t3
    obtain ⟨e', e1, e2⟩ := hblock h1 h3 hr hc h4
    rw [t4] at e1
    injection e1 with e1
    subst e1
    exact e2
  obtain ⟨A, _, _, ⟨g0, hg⟩, _⟩ := convert_acts_partial tiny ns ns B hconf
  refine ⟨A, g0, fun g hg' => ?_⟩
  rw [matrix, (nested2_iff hn (d1.trans hs.residuals) d2).2 ⟨ts, hts, rfl⟩, py_bind_ok]
  have hbm : blockMat (nested2 ts) = .ok B := by
    simp only [nested2, blockMat]
    rw [pyMap_eq_ok, forall₂_map_left]
    refine hB.imp (fun trow brow hrow => ?_)
    simp only [toRow, nested1]
    rw [pyMap_eq_ok, forall₂_map_left]
    exact hrow
  rw [hbm, py_bind_ok]
  exact hg g hg'

/-- The vector is assembled and converted. -/
theorem vector_returns {K : Kinds S} {fresh : Nat → Nat → Nat → Nat} {F : List (List (Integral S))} {x : List (Term S)}
    {up : List Fn} {next : Nat} (hs : Setup K fresh F x up next) {dF : List (List (Entry S))} {M : World S W}
    {φ : Nat → Nat → W} {asm : Assemble S} {ns : List Nat} (hasm : Assembles M K φ asm F dF up ns) (htot : Total asm F dF)
    (hlen : ns.length = x.length) (h : Heap ℝ) : ∃ b, vector asm F h = .ok b := by
  have hne : F ≠ [] := by
    intro h
    have := hs.residuals
    rw [h] at this
    exact hs.nonempty (List.length_eq_zero_iff.1 this.symm)
  obtain ⟨ts, hts⟩ : ∃ ts, List.Forall₂ (fun f t => asm h (.form f) = .ok t) F ts :=
    exists_forall₂ (fun f hf => (htot h).1 f hf)
  obtain ⟨bs, hbs⟩ : ∃ bs, List.Forall₂ (fun t b => toEntries (.leaf t) = .ok b) ts bs := by
    refine exists_forall₂ (fun t ht => ?_)
    obtain ⟨i, hi⟩ := List.getElem?_of_mem ht
    obtain ⟨f, h1, h2⟩ := forall₂_at hts hi
    have hiF : i < F.length := (List.getElem?_eq_some_iff.1 h1).1
    have hin : i < ns.length := by rw [hlen, ← hs.residuals]; exact hiF
    have hiu : i < up.length := by rw [hs.functions, ← hs.residuals]; exact hiF
    obtain ⟨b, rfl, _⟩ := hasm.vec h i f _ _ t h1 (List.getElem?_eq_getElem hiu) (List.getElem?_eq_getElem hin) h2
    exact ⟨_, rfl⟩
  refine ⟨convertVec bs, ?_⟩
  rw [vector, (nested1_iff (by simpa using hne)).2 ⟨ts, by rw [forall₂_map_left]; exact hts, rfl⟩, py_bind_ok]
  have : blockVec (nested1 ts) = .ok bs := by
    simp only [nested1, blockVec]
    rw [pyMap_eq_ok, forall₂_map_left]
    exact hbs
  rw [this, py_bind_ok]

theorem zip_back : ∀ (a z : List ℝ), a.length = z.length →
    List.zipWith (fun a b => a + (-1) * b) a (List.zipWith (fun a b => a - b) a z) = z
  | [], [], _ => rfl
  | a :: as, z :: zs, h => by
      simp only [List.zipWith_cons_cons]
      rw [zip_back as zs (by simpa using h)]
      congr 1
      ring

theorem zip_inj : ∀ (a z z' : List ℝ), a.length = z.length → a.length = z'.length →
    List.zipWith (fun a b => a + (-1) * b) a z = List.zipWith (fun a b => a + (-1) * b) a z' → z = z'
  | [], [], [], _, _, _ => rfl
  | a :: as, z :: zs, z' :: zs', h, h', e => by
      simp only [List.zipWith_cons_cons, List.cons.injEq] at e
      rw [zip_inj as zs zs' (by simpa using h) (by simpa using h') e.2]
      congr 1
      linarith [e.1]

theorem pass_returns {K : Kinds S} {fresh : Nat → Nat → Nat → Nat} {F : List (List (Integral S))} {x : List (Term S)}
    {up dup : List Fn} {next : Nat} (hs : Setup K fresh F x up next) {dF : List (List (Entry S))}
    (hJ : blockJacobian K fresh F x = .ok dF) {M : World S W} {φ : Nat → Nat → W} {asm : Assemble S} {ns : List Nat}
    (hasm : Assembles M K φ asm F dF up ns) (htot : Total asm F dF) {solve : Solver ℝ} (hex : Exact solve)
    (hsol : SolvesRegular solve) (tiny : Tiny ℝ) {h : Heap ℝ} (hr : Ready up dup ns next h)
    (hsm : SmoothAt M K F up (field φ h)) (hreg : Regular M K φ F up ns next h) :
    ∃ r g0, ∀ g, g0 ≤ g → pass asm tiny g solve ns F dF up dup h = .ok r := by
  have hul : up.length = ns.length := by
    have := congrArg List.length hr.unknown
    simpa [vectors] using this
  have hlen : ns.length = x.length := by rw [← hul, hs.functions]
  obtain ⟨A, g0, hA⟩ := matrix_returns hs hJ hasm htot hlen tiny h
  obtain ⟨b, hb⟩ := vector_returns hs hasm htot hlen h
  obtain ⟨m1, m2, m3, _⟩ := system_iff hs hJ hasm hr.unknown hsm (hA g0 le_rfl) hb
  have hlenAt : ∀ {s : Heap ℝ}, (vectors s up).map List.length = ns → ∀ {j : Nat} {u : Fn} {n : Nat}, up[j]? = some u →
      ns[j]? = some n → (s.vec u.addr).length = n := by
    intro s hsz j u n hu hn
    have : ((vectors s up).map List.length)[j]? = some n := by rw [hsz, hn]
    simpa [vectors, hu] using this
  have hat : ∀ {zs : List (List ℝ)}, zs.map List.length = ns → ∀ {j : Nat} {z : List ℝ}, zs[j]? = some z →
      ns[j]? = some z.length := by
    intro zs hz j z hj
    rw [← hz, List.getElem?_map, hj]
    rfl
  have huniq : ∃! y : List ℝ, y.length = A.cols ∧ ∀ i, i < A.rows → A.act (fnOf y) i = fnOf b i := by
    obtain ⟨h', hst, huni⟩ := hreg
    let ys := List.zipWith (fun x y => List.zipWith (fun a b => a - b) x y) (vectors h up) (vectors h' up)
    have hysj : ∀ (j : Nat) u z, up[j]? = some u → ys[j]? = some z →
        z = List.zipWith (fun a b => a - b) (h.vec u.addr) (h'.vec u.addr) := by
      intro j u z hu hz
      simp only [ys, List.getElem?_zipWith, vectors, List.getElem?_map, hu, Option.map_some, Option.some.injEq] at hz
      exact hz.symm
    have hys : ys.map List.length = ns := by
      refine List.ext_getElem? (fun j => ?_)
      cases hj : up[j]? with
      | none =>
          have : ns[j]? = none := by rw [List.getElem?_eq_none_iff] at hj ⊢; omega
          rw [this]
          simp [ys, vectors, hj]
      | some u =>
          obtain ⟨n, hn⟩ : ∃ n, ns[j]? = some n :=
            ⟨_, List.getElem?_eq_getElem (by have := (List.getElem?_eq_some_iff.1 hj).1; omega)⟩
          have e1 := hlenAt hr.unknown hj hn
          have e2 := hlenAt hst.sizes hj hn
          simp [ys, vectors, hj, hn, e1, e2]
    have hq : ∀ (j : Nat) u z, up[j]? = some u → ys[j]? = some z → (h.vec u.addr).length = z.length ∧
        h'.vec u.addr = List.zipWith (fun a b => a + (-1) * b) (h.vec u.addr) z := by
      intro j u z hu hz
      have hn := hat hys hz
      have e1 := hlenAt hr.unknown hu hn
      have e2 := hlenAt hst.sizes hu hn
      refine ⟨e1, ?_⟩
      rw [hysj j u z hu hz, zip_back _ _ (by rw [e1, e2])]
    refine ⟨ys.flatten, ⟨by rw [List.length_flatten, hys, m2],
      (solution_iff hs hJ hasm hr.unknown hsm (hA g0 le_rfl) hb hst.others hys hq).2 hst.linearised⟩, ?_⟩
    rintro y ⟨y1, y2⟩
    obtain ⟨⟨h2, hu⟩, hupd⟩ := updated hr hs.unshared hs.old (y := y) (by rw [y1, m2])
    obtain ⟨q1, q2, _, zs, q4, q5, q6⟩ := hupd h2 hu
    have hst2 : Step M K φ F up ns next h h2 :=
      ⟨(solution_iff hs hJ hasm hr.unknown hsm (hA g0 le_rfl) hb q2 q4 q6).1 (by rw [q5]; exact y2), q1.unknown, q2⟩
    have hv := huni h2 hst2
    rw [← q5]
    congr 1
    refine List.ext_getElem? (fun j => ?_)
    cases hj : up[j]? with
    | none =>
        have h1 : zs.length = ns.length := by rw [← q4]; simp
        have h2 : ys.length = ns.length := by rw [← hys]; simp
        rw [List.getElem?_eq_none_iff] at hj
        rw [List.getElem?_eq_none (by omega), List.getElem?_eq_none (by omega)]
    | some u =>
        have hju := (List.getElem?_eq_some_iff.1 hj).1
        have h1 : zs.length = ns.length := by rw [← q4]; simp
        have h2' : ys.length = ns.length := by rw [← hys]; simp
        have hz : zs[j]? = some zs[j] := List.getElem?_eq_getElem (by omega)
        have hy : ys[j]? = some ys[j] := List.getElem?_eq_getElem (by omega)
        obtain ⟨a1, a2⟩ := q6 j u _ hj hz
        obtain ⟨b1, b2⟩ := hq j u _ hj hy
        have e : h2.vec u.addr = h'.vec u.addr := by
          have : (vectors h2 up)[j]? = (vectors h' up)[j]? := by rw [hv]
          simpa [vectors, hj] using this
        rw [hz, hy, zip_inj _ _ _ a1 b1 (by rw [← a2, ← b2, e])]
  obtain ⟨y, hy⟩ := hsol A b (by rw [m1, m2]) (by rw [m3, m1]) huniq
  obtain ⟨y1, _⟩ := hex A b y hy
  obtain ⟨⟨h2, hu⟩, _⟩ := updated hr hs.unshared hs.old (y := y) (by rw [y1, m2])
  refine ⟨(size (vectors (writeNest h dup y) dup), h2), g0, fun g hg => ?_⟩
  rw [pass, hA g hg, py_bind_ok, hb, py_bind_ok, hy, py_bind_ok]
  simp only []
  rw [hu, py_bind_ok]

/-- **C108** The loop returns if all forms can be assembled, integrands are smooth and there is just one step of Newton's
method from any coefficients. -/
theorem newton_returns {K : Kinds S} {fresh : Nat → Nat → Nat → Nat} {F : List (List (Integral S))} {x : List (Term S)}
    {up : List Fn} {h : Heap ℝ} (hs : Setup K fresh F x up h.next) {V : List IIFunction.Space}
    (hsz : (vectors h up).map List.length = V.map (fun s => s.dim)) {M : World S W} {φ : Nat → Nat → W} {asm : Assemble S}
    (hasm : ∀ dF, blockJacobian K fresh F x = .ok dF → Assembles M K φ asm F dF up (V.map (fun s => s.dim)) ∧ Total asm F dF)
    {solve : Solver ℝ} (hex : Exact solve) (hsol : SolvesRegular solve) (tiny : Tiny ℝ) (tol : ℝ) (maxiter : Nat)
    (hsm : ∀ s : Heap ℝ, SmoothAt M K F up (field φ s))
    (hreg : ∀ s : Heap ℝ, (vectors s up).map List.length = V.map (fun s => s.dim) →
      Regular M K φ F up (V.map (fun s => s.dim)) h.next s) :
    ∃ hist g0, ∀ g, g0 ≤ g → newton K fresh asm tiny g solve F x V up tol maxiter h = .ok hist := by
  obtain ⟨dF, hJ⟩ := jacobian_returns hs (hsm h)
  obtain ⟨ha, ht⟩ := hasm dF hJ
  have key : ∀ (n : Nat) (eps : ℝ) (s : Heap ℝ), Ready up (create V h).1 (V.map (fun s => s.dim)) h.next s →
      ∃ hist g0, ∀ g, g0 ≤ g → loop (pass asm tiny g solve (V.map (fun s => s.dim)) F dF up (create V h).1) tol n eps s =
        .ok hist := by
    intro n
    induction n with
    | zero => intro eps s _; exact ⟨[], 0, fun g _ => rfl⟩
    | succ n ih =>
        intro eps s hr
        by_cases hlt : tol < eps
        · obtain ⟨r, g1, h1⟩ := pass_returns hs hJ ha ht hex hsol tiny hr (hsm s) (hreg s hr.unknown)
          obtain ⟨_, _, hr'⟩ := pass_step hs hJ ha hex hr (hsm s) (h1 g1 le_rfl)
          obtain ⟨rest, g2, h2⟩ := ih r.1 r.2 hr'
          refine ⟨r :: rest, max g1 g2, fun g hg => ?_⟩
          rw [loop, if_pos hlt, h1 g (le_trans (le_max_left _ _) hg), py_bind_ok, h2 g (le_trans (le_max_right _ _) hg),
            py_bind_ok]
        · exact ⟨[], 0, fun g _ => by rw [loop, if_neg hlt]⟩
  obtain ⟨hist, g0, hg⟩ := key maxiter 1 (create V h).2 (ready_create hs.old hsz)
  refine ⟨hist, g0, fun g hg' => ?_⟩
  rw [newton, hJ, py_bind_ok, init, py_bind_ok]
  exact hg g hg'

end Verif.Newton
