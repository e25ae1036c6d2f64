import Verif.Lemmas.Newton3
import Mathlib.Analysis.Calculus.MeanValue
import Mathlib.Analysis.Calculus.Deriv.Pow
/-! # C108: Newton's method -/
namespace Verif.Newton
open Verif Ufl BlockOps BlockForm Collapse IIFunction Workflow Reduced ListUtils Program Jacobian

variable {S : Type} [DecidableEq S] {W : Type} [NormedAddCommGroup W] [NormedSpace ℝ W]

theorem env_congr {K : Kinds S} {fresh : Nat → Nat → Nat → Nat} {F : List (List (Integral S))} {x : List (Term S)}
    {up : List Fn} {next : Nat} (hs : Setup K fresh F x up next) (M : World S W) {u u' : Nat → W}
    (h : ∀ a, a < next → u a = u' a) (v w : W) {f : List (Integral S)} (hf : f ∈ F) {t : Term S} (ht : t ∈ formTerms f) :
    M.env K u v w t = M.env K u' v w t := by
  simp only [World.env]
  split
  · rfl
  · rfl
  · rename_i j hj
    cases hv : K.vector j with
    | none => rfl
    | some a => simp only [h a (hs.below f hf t ht a ⟨j, hj, hv⟩)]

theorem residual_congr {K : Kinds S} {fresh : Nat → Nat → Nat → Nat} {F : List (List (Integral S))} {x : List (Term S)}
    {up : List Fn} {next : Nat} (hs : Setup K fresh F x up next) (M : World S W) {u u' : Nat → W}
    (h : ∀ a, a < next → u a = u' a) (v : W) {f : List (Integral S)} (hf : f ∈ F) :
    residual M K f v u = residual M K f v u' := by
  rw [residual, residual, World.form, World.form]
  congr 1
  refine List.map_congr_left (fun I hI => ?_)
  congr 1
  exact eval_congr M.op I.integrand _ _ (fun t ht => env_congr hs M h v 0 hf (List.mem_flatMap.2 ⟨I, hI, ht⟩))

theorem smooth_congr {K : Kinds S} {fresh : Nat → Nat → Nat → Nat} {F : List (List (Integral S))} {x : List (Term S)}
    {up : List Fn} {next : Nat} (hs : Setup K fresh F x up next) {M : World S W} {u u' : Nat → W}
    (h : ∀ a, a < next → u a = u' a) (hsm : SmoothAt M K F up u) : SmoothAt M K F up u' := by
  classical
  intro f hf I hI v w
  have h1 := hsm f hf I hI v w
  unfold Smooth at h1 ⊢
  have hb : (fun c : unknowns K up f => M.env K u v w c) = fun c : unknowns K up f => M.env K u' v w c := by
    funext c
    exact env_congr hs M h v w hf (List.mem_toFinset.1 (Finset.mem_filter.1 c.2).1)
  have hf' : (fun z : unknowns K up f → W => eval M.op I.integrand (over (M.env K u v w) (unknowns K up f) z)) =
      fun z : unknowns K up f → W => eval M.op I.integrand (over (M.env K u' v w) (unknowns K up f) z) := by
    funext z
    refine eval_congr M.op I.integrand _ _ (fun t ht => ?_)
    simp only [over]
    split
    · rfl
    · exact env_congr hs M h v w hf (List.mem_flatMap.2 ⟨I, hI, ht⟩)
  rw [hf', hb] at h1
  exact h1

/-- What a pass needs of the vectors of the update. -/
structure Ready (up dup : List Fn) (ns : List Nat) (next : Nat) (h : Heap ℝ) : Prop where
  unshared : Unshared dup
  new : ∀ d ∈ dup, next ≤ d.addr
  sizes : (vectors h dup).map List.length = ns
  unknown : (vectors h up).map List.length = ns

/-- After the solver has written `y`: the update of the unknown functions. -/
theorem updated {up dup : List Fn} {ns : List Nat} {next : Nat} {h : Heap ℝ} (hr : Ready up dup ns next h)
    (hu : Unshared up) (hold : ∀ u ∈ up, u.addr < next) {y : List ℝ} (hy : y.length = ns.sum) :
    (∃ h', update (up.zip dup) (writeNest h dup y) = .ok h') ∧
    ∀ h', update (up.zip dup) (writeNest h dup y) = .ok h' →
      Ready up dup ns next h' ∧ (∀ a, a < next → (∀ u ∈ up, u.addr ≠ a) → h'.vec a = h.vec a) ∧
      size (vectors (writeNest h dup y) dup) = change (vectors h up) (vectors h' up) ∧
      ∃ ys : List (List ℝ), ys.map List.length = ns ∧ ys.flatten = y ∧
        ∀ (j : Nat) u z, up[j]? = some u → ys[j]? = some z → (h.vec u.addr).length = z.length ∧
          h'.vec u.addr = List.zipWith (fun a b => a + (-1) * b) (h.vec u.addr) z := by
  obtain ⟨w1, w2⟩ := writeNest_split h dup hr.unshared hr.sizes y hy
  have hlen : up.length = dup.length := by
    have e1 := congrArg List.length hr.sizes
    have e2 := congrArg List.length hr.unknown
    simp only [vectors, List.length_map] at e1 e2
    omega
  have hne : ∀ u ∈ up, ∀ d ∈ dup, u.addr ≠ d.addr := by
    intro u hu d hd
    have := hold u hu
    have := hr.new d hd
    omega
  have hup : ∀ a, a < next → (writeNest h dup y).vec a = h.vec a := fun a ha =>
    writeNest_other _ _ _ (fun d hd => by have := hr.new d hd; omega)
  have hfst : (up.zip dup).map (fun p => p.1.addr) = up.map Fn.addr := by
    have : (up.zip dup).map (fun p => p.1.addr) = ((up.zip dup).map Prod.fst).map Fn.addr := by simp
    rw [this, List.map_fst_zip (by omega)]
  have hnd : ((up.zip dup).map (fun p => p.1.addr)).Nodup := by rw [hfst]; exact hu
  have hdis : ∀ p ∈ up.zip dup, ∀ q ∈ up.zip dup, p.1.addr ≠ q.2.addr := fun p hp q hq =>
    hne _ (List.of_mem_zip hp).1 _ (List.of_mem_zip hq).2
  have hpos : ∀ (j : Nat) u d, up[j]? = some u → dup[j]? = some d →
      (h.vec u.addr).length = ((writeNest h dup y).vec d.addr).length := by
    intro j u d h1 h2
    have e1 : ((vectors h up).map List.length)[j]? = some (h.vec u.addr).length := by simp [vectors, h1]
    have e2 : ((vectors (writeNest h dup y) dup).map List.length)[j]? = some ((writeNest h dup y).vec d.addr).length := by
      simp [vectors, h2]
    rw [hr.unknown] at e1
    rw [w1, e1] at e2
    injection e2
  refine ⟨update_returns _ _ hnd hdis ?_, ?_⟩
  · intro p hp
    obtain ⟨j, hj⟩ := List.getElem?_of_mem hp
    rw [List.getElem?_zip_eq_some] at hj
    rw [hup _ (hold _ (List.of_mem_zip hp).1)]
    exact hpos j _ _ hj.1 hj.2
  intro h' hok
  obtain ⟨s1, s2⟩ := update_spec _ _ _ hnd hdis hok
  have hdup : ∀ d ∈ dup, h'.vec d.addr = (writeNest h dup y).vec d.addr := fun d hd =>
    s2 _ (fun p hp => hne _ (List.of_mem_zip hp).1 d hd)
  have hvd : vectors h' dup = vectors (writeNest h dup y) dup := List.map_congr_left hdup
  have hval : ∀ (j : Nat) u z, up[j]? = some u → (vectors (writeNest h dup y) dup)[j]? = some z →
      (h.vec u.addr).length = z.length ∧ h'.vec u.addr = List.zipWith (fun a b => a + (-1) * b) (h.vec u.addr) z := by
    intro j u z h1 h2
    rw [vectors, List.getElem?_map] at h2
    obtain ⟨d, h3, rfl⟩ := Option.map_eq_some_iff.1 h2
    have hm : (u, d) ∈ up.zip dup := List.mem_of_getElem? (by rw [List.getElem?_zip_eq_some]; exact ⟨h1, h3⟩)
    obtain ⟨a1, a2⟩ := s1 _ hm
    rw [hup _ (hold u (List.mem_of_getElem? h1))] at a1 a2
    exact ⟨a1, a2⟩
  have hvu : vectors h' up = List.zipWith (fun x y => List.zipWith (fun a b => a + (-1) * b) x y) (vectors h up)
      (vectors (writeNest h dup y) dup) := by
    refine List.ext_getElem? (fun j => ?_)
    cases hj : up[j]? with
    | none =>
        have hd : dup[j]? = none := by rw [List.getElem?_eq_none_iff] at hj ⊢; omega
        simp [vectors, hj, hd, List.getElem?_zipWith]
    | some u =>
        obtain ⟨d, hd⟩ : ∃ d, dup[j]? = some d := by
          have := (List.getElem?_eq_some_iff.1 hj).1
          exact ⟨_, List.getElem?_eq_getElem (by omega)⟩
        have := (hval j u ((writeNest h dup y).vec d.addr) hj (by simp [vectors, hd])).2
        rw [List.getElem?_zipWith]
        simp only [vectors, List.getElem?_map, hj, hd, Option.map_some]
        rw [this]
  have hfor : List.Forall₂ (fun x y : List ℝ => x.length = y.length) (vectors h up) (vectors (writeNest h dup y) dup) := by
    rw [← List.forall₂_map_left_iff (f := List.length) (R := fun n y => n = List.length y),
      ← List.forall₂_map_right_iff (f := List.length) (R := fun n m => n = m), List.forall₂_eq_eq_eq, hr.unknown, w1]
  refine ⟨⟨hr.unshared, hr.new, by rw [hvd, w1], ?_⟩, ?_, ?_, _, w1, w2, hval⟩
  · rw [hvu]
    have : ∀ xs ys : List (List ℝ), List.Forall₂ (fun x y : List ℝ => x.length = y.length) xs ys →
        (List.zipWith (fun x y => List.zipWith (fun a b => a + (-1) * b) x y) xs ys).map List.length = xs.map List.length := by
      intro xs ys h
      induction h with
      | nil => rfl
      | cons h1 _ ih => simp only [List.zipWith_cons_cons, List.map_cons, ih, List.length_zipWith, h1, Nat.min_self]
    rw [this _ _ hfor, hr.unknown]
  · intro a ha hau
    rw [s2 a (fun p hp => hau _ (List.of_mem_zip hp).1), hup a ha]
  · exact size_change _ _ _ hfor hvu

/-- Coefficients `y` which are taken from the unknown functions solve the system exactly if this is a step of Newton's
method. -/
theorem solution_iff {K : Kinds S} {fresh : Nat → Nat → Nat → Nat} {F : List (List (Integral S))} {x : List (Term S)}
    {up : List Fn} {next : Nat} (hs : Setup K fresh F x up next) {dF : List (List (Entry S))}
    (hJ : blockJacobian K fresh F x = .ok dF) {M : World S W} {φ : Nat → Nat → W} {asm : Assemble S} {ns : List Nat}
    (hasm : Assembles M K φ asm F dF up ns) {tiny : Tiny ℝ} {g : Nat} {h h2 : Heap ℝ}
    (hsz : (vectors h up).map List.length = ns) (hsm : SmoothAt M K F up (field φ h)) {A : Mat ℝ} {b : List ℝ}
    (hA : matrix asm tiny g ns dF h = .ok A) (hb : vector asm F h = .ok b)
    (q2 : ∀ a, a < next → (∀ u ∈ up, u.addr ≠ a) → h2.vec a = h.vec a) {ys : List (List ℝ)} (q4 : ys.map List.length = ns)
    (q6 : ∀ (j : Nat) u z, up[j]? = some u → ys[j]? = some z → (h.vec u.addr).length = z.length ∧
      h2.vec u.addr = List.zipWith (fun a b => a + (-1) * b) (h.vec u.addr) z) :
    (∀ k, k < A.rows → A.act (fnOf ys.flatten) k = fnOf b k) ↔ Tests F up ns φ (fun f v =>
      HasDerivAt (fun ε : ℝ => residual M K f v (between (field φ h) (field φ h2) ε)) (-residual M K f v (field φ h)) 0) := by
  classical
  obtain ⟨m1, m2, _, hiff⟩ := system_iff hs hJ hasm hsz hsm hA hb
  let δ : Nat → W := fun a => if ∃ u ∈ up, u.addr = a then field φ h a - field φ h2 a else 0
  have hδ0 : ∀ a, (∀ u ∈ up, u.addr ≠ a) → δ a = 0 := by
    intro a ha
    simp only [δ]
    rw [if_neg]
    rintro ⟨u, hu, he⟩
    exact ha u hu he
  have hδ : ∀ (j : Nat) u z, up[j]? = some u → ys[j]? = some z → δ u.addr = lin (φ u.addr) z := by
    intro j u z h1 h2'
    obtain ⟨e1, e2⟩ := q6 j u z h1 h2'
    simp only [δ]
    rw [if_pos ⟨u, List.mem_of_getElem? h1, rfl⟩, field_eq, field_eq, e2, lin_sub _ _ _ e1]
    abel
  rw [hiff ys q4 δ hδ0 hδ]
  have hneg : HasDerivAt (fun ε : ℝ => -ε) (-1) 0 := hasDerivAt_neg 0
  have heq : ∀ f ∈ F, ∀ v, ((fun ε : ℝ => residual M K f v (fun a => field φ h a + ε • δ a)) ∘ fun ε : ℝ => -ε) =
      fun ε : ℝ => residual M K f v (between (field φ h) (field φ h2) ε) := by
    intro f hfF v
    funext ε
    simp only [Function.comp]
    refine residual_congr hs M (fun a ha => ?_) _ hfF
    simp only [between, δ]
    split
    · rw [neg_smul, ← smul_neg, neg_sub]
    · rename_i hne
      have : h2.vec a = h.vec a := q2 a ha (fun u hu he => hne ⟨u, hu, he⟩)
      rw [field_eq, field_eq, this, sub_self]
      simp
  constructor
  · intro hT i f u n hf hui hn d hd
    have h1 := hT i f u n hf hui hn d hd
    have h0 : HasDerivAt (fun ε : ℝ => residual M K f (φ u.addr d) (fun a => field φ h a + ε • δ a))
        (residual M K f (φ u.addr d) (field φ h)) (-(0 : ℝ)) := by rw [neg_zero]; exact h1
    have h3 := h0.comp (0 : ℝ) hneg
    rw [heq f (List.mem_of_getElem? hf), mul_neg, mul_one] at h3
    exact h3
  · intro hT i f u n hf hui hn d hd
    have h1 := hT i f u n hf hui hn d hd
    beta_reduce at h1 ⊢
    rw [← heq f (List.mem_of_getElem? hf)] at h1
    have h0 : HasDerivAt ((fun ε : ℝ => residual M K f (φ u.addr d) (fun a => field φ h a + ε • δ a)) ∘ fun ε : ℝ => -ε)
        (-residual M K f (φ u.addr d) (field φ h)) (-(0 : ℝ)) := by rw [neg_zero]; exact h1
    have h3 := h0.comp (0 : ℝ) hneg
    have e : (((fun ε : ℝ => residual M K f (φ u.addr d) (fun a => field φ h a + ε • δ a)) ∘ fun ε : ℝ => -ε) ∘
        fun ε : ℝ => -ε) = fun ε : ℝ => residual M K f (φ u.addr d) (fun a => field φ h a + ε • δ a) := by
      funext ε
      simp [Function.comp]
    rw [e, neg_mul_neg, mul_one] at h3
    exact h3

/-- One pass of the loop is a step of Newton's method. -/
theorem pass_step {K : Kinds S} {fresh : Nat → Nat → Nat → Nat} {F : List (List (Integral S))} {x : List (Term S)}
    {up dup : List Fn} {next : Nat} (hs : Setup K fresh F x up next) {dF : List (List (Entry S))}
    (hJ : blockJacobian K fresh F x = .ok dF) {M : World S W} {φ : Nat → Nat → W} {asm : Assemble S} {ns : List Nat}
    (hasm : Assembles M K φ asm F dF up ns) {solve : Solver ℝ} (hex : Exact solve) {tiny : Tiny ℝ} {g : Nat} {h : Heap ℝ}
    (hr : Ready up dup ns next h) (hsm : SmoothAt M K F up (field φ h)) {eps : ℝ} {h' : Heap ℝ}
    (hok : pass asm tiny g solve ns F dF up dup h = .ok (eps, h')) :
    Step M K φ F up ns next h h' ∧ eps = change (vectors h up) (vectors h' up) ∧ Ready up dup ns next h' := by
  rw [pass] at hok
  obtain ⟨A, hA, hok⟩ := py_bind_eq_ok.1 hok
  obtain ⟨b, hb, hok⟩ := py_bind_eq_ok.1 hok
  obtain ⟨y, hy, hok⟩ := py_bind_eq_ok.1 hok
  obtain ⟨h2, hu, hok⟩ := py_bind_eq_ok.1 hok
  injection hok with hok
  injection hok with he hh
  subst he hh
  obtain ⟨m1, m2, _, _⟩ := system_iff hs hJ hasm hr.unknown hsm hA hb
  obtain ⟨y1, y2⟩ := hex A b y hy
  obtain ⟨q1, q2, q3, ys, q4, q5, q6⟩ := (updated hr hs.unshared hs.old (y := y) (by rw [y1, m2])).2 _ hu
  exact ⟨⟨(solution_iff hs hJ hasm hr.unknown hsm hA hb q2 q4 q6).1 (by rw [q5]; exact y2), q1.unknown, q2⟩, q3, q1⟩

theorem field_congr (φ : Nat → Nat → W) {h g : Heap ℝ} {a : Nat} (ha : h.vec a = g.vec a) : field φ h a = field φ g a := by
  rw [field_eq, field_eq, ha]

theorem step_congr {K : Kinds S} {fresh : Nat → Nat → Nat → Nat} {F : List (List (Integral S))} {x : List (Term S)}
    {up : List Fn} {next : Nat} (hs : Setup K fresh F x up next) {M : World S W} {φ : Nat → Nat → W} {ns : List Nat}
    {h g h' : Heap ℝ} (he : ∀ a, a < next → h.vec a = g.vec a) (hst : Step M K φ F up ns next g h') :
    Step M K φ F up ns next h h' := by
  refine ⟨fun i f u n hf hu hn d hd => ?_, hst.sizes, fun a ha hau => by rw [hst.others a ha hau, he a ha]⟩
  have hfF := List.mem_of_getElem? hf
  have h1 := hst.linearised i f u n hf hu hn d hd
  beta_reduce at h1 ⊢
  have e1 : residual M K f (φ u.addr d) (field φ g) = residual M K f (φ u.addr d) (field φ h) :=
    residual_congr hs M (fun a ha => field_congr φ (he a ha).symm) _ hfF
  have e2 : (fun ε : ℝ => residual M K f (φ u.addr d) (between (field φ g) (field φ h') ε)) =
      fun ε : ℝ => residual M K f (φ u.addr d) (between (field φ h) (field φ h') ε) := by
    funext ε
    refine residual_congr hs M (fun a ha => ?_) _ hfF
    simp only [between]
    rw [field_congr φ (he a ha)]
  rw [e1, e2] at h1
  exact h1

theorem loop_iterates {K : Kinds S} {fresh : Nat → Nat → Nat → Nat} {F : List (List (Integral S))} {x : List (Term S)}
    {up dup : List Fn} {next : Nat} (hs : Setup K fresh F x up next) {dF : List (List (Entry S))}
    (hJ : blockJacobian K fresh F x = .ok dF) {M : World S W} {φ : Nat → Nat → W} {asm : Assemble S} {ns : List Nat}
    (hasm : Assembles M K φ asm F dF up ns) {solve : Solver ℝ} (hex : Exact solve) {tiny : Tiny ℝ} {g : Nat} {tol : ℝ} :
    ∀ (n : Nat) (eps : ℝ) (h : Heap ℝ) (hist : List (ℝ × Heap ℝ)), Ready up dup ns next h →
      (∀ s ∈ h :: hist.map Prod.snd, SmoothAt M K F up (field φ s)) →
      loop (pass asm tiny g solve ns F dF up dup) tol n eps h = .ok hist → Iterates M K φ F up ns next h hist
  | 0, eps, h, hist, _, _, hok => by
      rw [loop] at hok
      injection hok with hok
      subst hok
      trivial
  | n + 1, eps, h, hist, hr, hsm, hok => by
      rw [loop] at hok
      split at hok
      · obtain ⟨⟨e, h'⟩, h1, hok⟩ := py_bind_eq_ok.1 hok
        obtain ⟨rest, h2, hok⟩ := py_bind_eq_ok.1 hok
        injection hok with hok
        subst hok
        obtain ⟨p1, p2, p3⟩ := pass_step hs hJ hasm hex hr (hsm h (by simp)) h1
        exact ⟨p1, p2, loop_iterates hs hJ hasm hex n e h' rest p3
          (fun s hs' => hsm s (List.mem_cons_of_mem _ (by simpa using hs'))) h2⟩
      · injection hok with hok
        subst hok
        trivial

theorem ready_create {up : List Fn} {V : List IIFunction.Space} {h : Heap ℝ} (hold : ∀ u ∈ up, u.addr < h.next)
    (hsz : (vectors h up).map List.length = V.map (fun s => s.dim)) :
    Ready up (create V h).1 (V.map (fun s => s.dim)) h.next (create V h).2 := by
  obtain ⟨c1, c2, c3, c4⟩ := create_sizes V h
  refine ⟨c1, c3, c2, ?_⟩
  rw [← hsz]
  congr 1
  exact List.map_congr_left (fun u hu => c4 _ (hold u hu))

/-- **C108** The loop makes steps of Newton's method: in each pass the residuals linearised at the old functions vanish at the
new ones, `eps` is the distance of the new coefficients from the old ones, and no other function changes. -/
theorem newton_iterates {K : Kinds S} {fresh : Nat → Nat → Nat → Nat} {F : List (List (Integral S))} {x : List (Term S)}
    {up : List Fn} {h : Heap ℝ} (hs : Setup K fresh F x up h.next) {V : List IIFunction.Space}
    (hsz : (vectors h up).map List.length = V.map (fun s => s.dim)) {M : World S W} {φ : Nat → Nat → W} {asm : Assemble S}
    (hasm : ∀ dF, blockJacobian K fresh F x = .ok dF → Assembles M K φ asm F dF up (V.map (fun s => s.dim)))
    {solve : Solver ℝ} (hex : Exact solve) {tiny : Tiny ℝ} {g : Nat} {tol : ℝ} {maxiter : Nat} {hist : List (ℝ × Heap ℝ)}
    (hrun : newton K fresh asm tiny g solve F x V up tol maxiter h = .ok hist)
    (hsm : ∀ s ∈ h :: hist.map Prod.snd, SmoothAt M K F up (field φ s)) :
    Iterates M K φ F up (V.map (fun s => s.dim)) h.next h hist := by
  rw [newton] at hrun
  obtain ⟨dF, hJ, hrun⟩ := py_bind_eq_ok.1 hrun
  rw [init, py_bind_ok] at hrun
  have hc : ∀ a, a < h.next → h.vec a = (create V h).2.vec a := fun a ha => ((create_sizes V h).2.2.2 a ha).symm
  have hsm' : ∀ s ∈ (create V h).2 :: hist.map Prod.snd, SmoothAt M K F up (field φ s) := by
    intro s hs'
    rcases List.mem_cons.1 hs' with rfl | hs'
    · exact smooth_congr hs (fun a ha => field_congr φ (hc a ha)) (hsm h (by simp))
    · exact hsm s (List.mem_cons_of_mem _ hs')
  have := loop_iterates hs hJ (hasm dF hJ) hex maxiter 1 _ hist (ready_create hs.old hsz) hsm' hrun
  cases hist with
  | nil => trivial
  | cons r rest =>
      obtain ⟨h1, h2, h3⟩ := this
      refine ⟨step_congr hs hc h1, ?_, h3⟩
      rw [h2]
      congr 1
      exact List.map_congr_left (fun u hu => (hc _ (hs.old u hu)).symm)

/-- **C108** The loop ends after at most `maxiter` passes; all passes but the last have changes above the tolerance, the last
one is within the tolerance unless there were `maxiter` passes.  There is a pass unless the tolerance is one or more. -/
theorem newton_stops {K : Kinds S} {fresh : Nat → Nat → Nat → Nat} {F : List (List (Integral S))} {x : List (Term S)}
    {up : List Fn} {h : Heap ℝ} {V : List IIFunction.Space} {asm : Assemble S} {solve : Solver ℝ} {tiny : Tiny ℝ} {g : Nat}
    {tol : ℝ} {maxiter : Nat} {hist : List (ℝ × Heap ℝ)}
    (hrun : newton K fresh asm tiny g solve F x V up tol maxiter h = .ok hist) :
    hist.length ≤ maxiter ∧ (∀ (k : Nat) r, hist[k]? = some r → k + 1 < hist.length → tol < r.1) ∧
      (hist.length < maxiter → ∀ r, hist.getLast? = some r → r.1 ≤ tol) ∧ (tol < 1 → 0 < maxiter → hist ≠ []) := by
  rw [newton] at hrun
  obtain ⟨dF, hJ, hrun⟩ := py_bind_eq_ok.1 hrun
  rw [init, py_bind_ok] at hrun
  have key : ∀ (body : Heap ℝ → Py (ℝ × Heap ℝ)) (n : Nat) (eps : ℝ) (s : Heap ℝ) (hist : List (ℝ × Heap ℝ)),
      loop body tol n eps s = .ok hist → hist.length ≤ n ∧
        (∀ (k : Nat) r, hist[k]? = some r → k + 1 < hist.length → tol < r.1) ∧
        (hist.length < n → ∀ r, hist.getLast? = some r → r.1 ≤ tol) ∧ (hist ≠ [] → tol < eps) ∧
        (tol < eps → 0 < n → hist ≠ []) := by
    intro body n
    induction n with
    | zero =>
        intro eps s hist hok
        rw [loop] at hok
        injection hok with hok
        subst hok
        simp
    | succ n ih =>
        intro eps s hist hok
        rw [loop] at hok
        split at hok
        · rename_i hlt
          obtain ⟨⟨e, s'⟩, h1, hok⟩ := py_bind_eq_ok.1 hok
          obtain ⟨rest, h2, hok⟩ := py_bind_eq_ok.1 hok
          injection hok with hok
          subst hok
          obtain ⟨i1, i2, i3, i4, i5⟩ := ih e s' rest h2
          refine ⟨by simpa using i1, ?_, ?_, fun _ => hlt, fun _ _ => by simp⟩
          · intro k r hk hl
            cases k with
            | zero =>
                simp only [List.getElem?_cons_zero, Option.some.injEq] at hk
                subst hk
                refine i4 ?_
                rintro rfl
                simp at hl
            | succ k => exact i2 k r (by simpa using hk) (by simpa using hl)
          · intro hl r hr
            cases hrest : rest with
            | nil =>
                subst hrest
                simp only [List.getLast?_singleton, Option.some.injEq] at hr
                subst hr
                by_contra hgt
                exact i5 (not_le.1 hgt) (by simpa using hl) rfl
            | cons a as =>
                refine i3 (by simpa using hl) r ?_
                rw [hrest] at hr ⊢
                rwa [List.getLast?_cons_cons] at hr
        · rename_i hlt
          injection hok with hok
          subst hok
          simp [hlt]
  obtain ⟨k1, k2, k3, _, k5⟩ := key _ _ _ _ _ hrun
  exact ⟨k1, k2, k3, k5⟩

theorem between_zero (u u' : Nat → W) : between u u' 0 = u := by funext a; simp [between]

theorem between_one (u u' : Nat → W) : between u u' 1 = u' := by funext a; simp [between]

/-- **C108** The residual after a step is small: it is at most half the Lipschitz constant of the derivative along the step. -/
theorem newton_residual {K : Kinds S} {F : List (List (Integral S))} {up : List Fn} {next : Nat} {M : World S W}
    {φ : Nat → Nat → W} {ns : List Nat} {h h' : Heap ℝ} (hst : Step M K φ F up ns next h h') {L : ℝ}
    (hL : Lipschitz M K φ F up ns L h h') :
    Tests F up ns φ (fun f v => |residual M K f v (field φ h')| ≤ L / 2) := by
  intro i f u n hf hu hn d hd
  obtain ⟨p, hp⟩ := hL i f u n hf hu hn d hd
  have h0 := (hp 0 le_rfl zero_le_one).1.unique (hst.linearised i f u n hf hu hn d hd)
  let ψ : ℝ → ℝ := fun ε => residual M K f (φ u.addr d) (between (field φ h) (field φ h') ε)
  have hψ0 : ψ 0 = residual M K f (φ u.addr d) (field φ h) := by simp only [ψ, between_zero]
  have hψ1 : ψ 1 = residual M K f (φ u.addr d) (field φ h') := by simp only [ψ, between_one]
  have hder : ∀ ε, 0 ≤ ε → ε ≤ 1 → HasDerivAt (fun ε => ψ ε - ψ 0 - ε * p 0) (p ε - p 0) ε := by
    intro ε e0 e1
    have := ((hp ε e0 e1).1.sub_const (ψ 0)).sub ((hasDerivAt_id ε).mul_const (p 0))
    refine (this.congr_deriv (by simp)).congr_of_eventuallyEq (Filter.Eventually.of_forall fun y => ?_)
    simp [ψ]
  have hB : ∀ ε : ℝ, HasDerivAt (fun ε : ℝ => L / 2 * ε ^ 2) (L * ε) ε := by
    intro ε
    have := (hasDerivAt_pow 2 ε).const_mul (L / 2)
    refine this.congr_deriv ?_
    ring
  have := image_norm_le_of_norm_deriv_right_le_deriv_boundary (a := (0 : ℝ)) (b := 1)
    (f := fun ε => ψ ε - ψ 0 - ε * p 0) (f' := fun ε => p ε - p 0) (B := fun ε => L / 2 * ε ^ 2) (B' := fun ε => L * ε)
    (fun ε hε => (hder ε hε.1 hε.2).continuousAt.continuousWithinAt)
    (fun ε hε => (hder ε hε.1 hε.2.le).hasDerivWithinAt) (by simp)
    hB
    (fun ε hε => by rw [Real.norm_eq_abs]; exact (hp ε hε.1 hε.2.le).2)
    (Set.right_mem_Icc.2 zero_le_one)
  rw [Real.norm_eq_abs, hψ1, hψ0, h0] at this
  have e : residual M K f (φ u.addr d) (field φ h') - residual M K f (φ u.addr d) (field φ h) -
      1 * -residual M K f (φ u.addr d) (field φ h) = residual M K f (φ u.addr d) (field φ h') := by ring
  rw [e] at this
  simpa using this

/-- **C108** If the loop ends within the tolerance, the residuals of the functions returned are of the order of the square of
the tolerance, when derivatives along the last step are Lipschitz. -/
theorem newton_converged {K : Kinds S} {F : List (List (Integral S))} {up : List Fn} {next : Nat} {M : World S W}
    {φ : Nat → Nat → W} {ns : List Nat} {h h' : Heap ℝ} (hst : Step M K φ F up ns next h h') {L tol : ℝ} (hL0 : 0 ≤ L)
    (htol : change (vectors h up) (vectors h' up) ≤ tol)
    (hL : Lipschitz M K φ F up ns (L * change (vectors h up) (vectors h' up) ^ 2) h h') :
    Tests F up ns φ (fun f v => |residual M K f v (field φ h')| ≤ L / 2 * tol ^ 2) := by
  intro i f u n hf hu hn d hd
  refine (newton_residual hst hL i f u n hf hu hn d hd).trans ?_
  have hc : 0 ≤ change (vectors h up) (vectors h' up) := Real.sqrt_nonneg _
  have : change (vectors h up) (vectors h' up) ^ 2 ≤ tol ^ 2 := by gcongr
  nlinarith

/-- **C108** Residuals which are affine vanish after one step. -/
theorem newton_affine {K : Kinds S} {F : List (List (Integral S))} {up : List Fn} {next : Nat} {M : World S W}
    {φ : Nat → Nat → W} {ns : List Nat} {h h' : Heap ℝ} (hst : Step M K φ F up ns next h h')
    (haff : Tests F up ns φ (fun f v => ∀ u u' (ε : ℝ), residual M K f v (between u u' ε) =
      residual M K f v u + ε * (residual M K f v u' - residual M K f v u))) :
    Tests F up ns φ (fun f v => residual M K f v (field φ h') = 0) := by
  intro i f u n hf hu hn d hd
  have h1 := hst.linearised i f u n hf hu hn d hd
  have h2 := haff i f u n hf hu hn d hd
  beta_reduce at h1 h2 ⊢
  simp only [h2] at h1
  have h3 := ((hasDerivAt_id (0 : ℝ)).mul_const
    (residual M K f (φ u.addr d) (field φ h') - residual M K f (φ u.addr d) (field φ h))).const_add
    (residual M K f (φ u.addr d) (field φ h))
  have h4 := h1.unique h3
  rw [one_mul] at h4
  linarith

/-- A step which changes nothing has been made from a solution. -/
theorem newton_fixed {K : Kinds S} {F : List (List (Integral S))} {up : List Fn} {next : Nat} {M : World S W}
    {φ : Nat → Nat → W} {ns : List Nat} {h : Heap ℝ} (hst : Step M K φ F up ns next h h) :
    Tests F up ns φ (fun f v => residual M K f v (field φ h) = 0) := by
  intro i f u n hf hu hn d hd
  have h1 := hst.linearised i f u n hf hu hn d hd
  have : ∀ ε : ℝ, between (field φ h) (field φ h) ε = field φ h := by intro ε; funext a; simp [between]
  simp only [this] at h1
  have := h1.unique (hasDerivAt_const 0 _)
  linarith

/-- **C108** Changes decrease quadratically when derivatives are Lipschitz and the linearised problems are stable. -/
theorem newton_quadratic {K : Kinds S} {F : List (List (Integral S))} {up : List Fn} {next : Nat} {M : World S W}
    {φ : Nat → Nat → W} {ns : List Nat} {h h' h'' : Heap ℝ} (hst : Step M K φ F up ns next h h')
    (hst' : Step M K φ F up ns next h' h'') {L β : ℝ}
    (hL : Lipschitz M K φ F up ns (L * change (vectors h up) (vectors h' up) ^ 2) h h')
    (hβ : Stable M K φ F up ns next β h') :
    change (vectors h' up) (vectors h'' up) ≤ β * L / 2 * change (vectors h up) (vectors h' up) ^ 2 := by
  have h1 := newton_residual hst hL
  have := hβ h'' _ hst'.sizes hst'.others (fun i f u n hf hu hn d hd =>
    ⟨_, by rw [abs_neg]; exact h1 i f u n hf hu hn d hd, hst'.linearised i f u n hf hu hn d hd⟩)
  refine this.trans (le_of_eq ?_)
  ring

theorem iterates_quadratic {K : Kinds S} {F : List (List (Integral S))} {up : List Fn} {next : Nat} {M : World S W}
    {φ : Nat → Nat → W} {ns : List Nat} {L β : ℝ} (hc0 : 0 ≤ β * L / 2) :
    ∀ (hist : List (ℝ × Heap ℝ)) (h : Heap ℝ), Iterates M K φ F up ns next h hist →
      (∀ s s', s ∈ h :: hist.map Prod.snd → s' ∈ hist.map Prod.snd → Step M K φ F up ns next s s' →
        Lipschitz M K φ F up ns (L * change (vectors s up) (vectors s' up) ^ 2) s s') →
      (∀ s ∈ hist.map Prod.snd, Stable M K φ F up ns next β s) →
      ∀ q, (∀ r, hist.head? = some r → β * L / 2 * r.1 ≤ q) →
      ∀ (k : Nat) r, hist[k]? = some r → 0 ≤ r.1 ∧ β * L / 2 * r.1 ≤ q ^ 2 ^ k
  | [], _, _, _, _, _, _, k, r, hk => by simp at hk
  | (e, h') :: rest, h, hit, hL, hβ, q, hq, k, r, hk => by
      obtain ⟨h1, h2, h3⟩ := hit
      have he : 0 ≤ e := by rw [h2]; exact Real.sqrt_nonneg _
      have hq0 := hq (e, h') rfl
      cases k with
      | zero =>
          simp only [List.getElem?_cons_zero, Option.some.injEq] at hk
          subst hk
          exact ⟨he, by simpa using hq0⟩
      | succ k =>
          have hk' : rest[k]? = some r := by simpa using hk
          have hnext : ∀ r, rest.head? = some r → β * L / 2 * r.1 ≤ q ^ 2 := by
            intro r hr
            cases rest with
            | nil => simp at hr
            | cons a as =>
                obtain ⟨e'', h''⟩ := a
                simp only [List.head?_cons, Option.some.injEq] at hr
                subst hr
                obtain ⟨g1, g2, _⟩ := h3
                have := newton_quadratic h1 g1 (L := L) (β := β)
                  (hL h h' (by simp) (by simp) h1) (hβ h' (by simp))
                rw [← h2, ← g2] at this
                have hce : 0 ≤ β * L / 2 * e := mul_nonneg hc0 he
                have e1 : β * L / 2 * e'' ≤ (β * L / 2 * e) ^ 2 := by
                  calc β * L / 2 * e'' ≤ β * L / 2 * (β * L / 2 * e ^ 2) := mul_le_mul_of_nonneg_left this hc0
                    _ = (β * L / 2 * e) ^ 2 := by ring
                refine e1.trans ?_
                gcongr
          have := iterates_quadratic hc0 rest h' h3
            (fun s s' hs hs' => hL s s' (List.mem_cons_of_mem _ (by simpa using hs)) (by simp only [List.map_cons]; exact List.mem_cons_of_mem _ hs'))
            (fun s hs => hβ s (by simp only [List.map_cons]; exact List.mem_cons_of_mem _ hs)) (q ^ 2) hnext k r hk'
          refine ⟨this.1, this.2.trans (le_of_eq ?_)⟩
          rw [← pow_mul]
          congr 1
          ring

/-- **C108** If derivatives are Lipschitz, the linearised problems stable and the first change is small, the changes decrease
like `q ^ 2 ^ k`, and with enough passes the loop ends within the tolerance. -/
theorem newton_terminates {K : Kinds S} {fresh : Nat → Nat → Nat → Nat} {F : List (List (Integral S))} {x : List (Term S)}
    {up : List Fn} {h : Heap ℝ} (hs : Setup K fresh F x up h.next) {V : List IIFunction.Space}
    (hsz : (vectors h up).map List.length = V.map (fun s => s.dim)) {M : World S W} {φ : Nat → Nat → W} {asm : Assemble S}
    (hasm : ∀ dF, blockJacobian K fresh F x = .ok dF → Assembles M K φ asm F dF up (V.map (fun s => s.dim)))
    {solve : Solver ℝ} (hex : Exact solve) {tiny : Tiny ℝ} {g : Nat} {tol : ℝ} {maxiter : Nat} {hist : List (ℝ × Heap ℝ)}
    (hrun : newton K fresh asm tiny g solve F x V up tol maxiter h = .ok hist)
    (hsm : ∀ s ∈ h :: hist.map Prod.snd, SmoothAt M K F up (field φ s)) {L β q : ℝ} (hLβ : 0 < β * L)
    (hL : ∀ s s', s ∈ h :: hist.map Prod.snd → s' ∈ hist.map Prod.snd →
      Step M K φ F up (V.map (fun s => s.dim)) h.next s s' →
      Lipschitz M K φ F up (V.map (fun s => s.dim)) (L * change (vectors s up) (vectors s' up) ^ 2) s s')
    (hβ : ∀ s ∈ hist.map Prod.snd, Stable M K φ F up (V.map (fun s => s.dim)) h.next β s)
    (hq : ∀ r, hist.head? = some r → β * L / 2 * r.1 ≤ q) :
    (∀ (k : Nat) r, hist[k]? = some r → β * L / 2 * r.1 ≤ q ^ 2 ^ k) ∧
      (q ^ 2 ^ (maxiter - 1) ≤ β * L / 2 * tol → ∀ r, hist.getLast? = some r → r.1 ≤ tol) := by
  have hit := newton_iterates hs hsz hasm hex hrun hsm
  have hc0 : 0 < β * L / 2 := by linarith
  have hk := iterates_quadratic hc0.le hist h hit hL hβ q hq
  refine ⟨fun k r hr => (hk k r hr).2, fun htol r hr => ?_⟩
  obtain ⟨s1, s2, s3, _⟩ := newton_stops hrun
  by_cases hlt : hist.length < maxiter
  · exact s3 hlt r hr
  · have hlen : hist.length = maxiter := by omega
    have hr' : hist[maxiter - 1]? = some r := by rw [← hlen, ← List.getLast?_eq_getElem?]; exact hr
    have := (hk _ r hr').2.trans htol
    exact le_of_mul_le_mul_left this hc0

end Verif.Newton
