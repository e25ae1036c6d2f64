import Verif.Spec.Newton
import Verif.Props.Jacobian
import Verif.Lemmas.Program
import Mathlib.Analysis.Calculus.FDeriv.Pi
/-! # Derivatives of residuals with respect to all unknown functions -/
namespace Verif.Newton
open Verif Ufl BlockOps BlockForm Collapse IIFunction Workflow Reduced ListUtils Program Jacobian

variable {S : Type} [DecidableEq S] {W : Type} [NormedAddCommGroup W] [NormedSpace ℝ W]

theorem smooth_mono (M : World S W) (e : UExpr S) (σ : Jacobian.Env S W) {s t : Finset (Term S)} (hst : s ⊆ t)
    (h : Smooth M e σ t) : Smooth M e σ s := by
  classical
  let ext : (s → W) → (t → W) := fun z c => over σ s z c
  have he : ext (fun c : s => σ c) = fun c : t => σ c := by
    funext c
    simp only [ext, over]
    split <;> rfl
  have hd : DifferentiableAt ℝ ext (fun c : s => σ c) := by
    have : Differentiable ℝ ext := differentiable_pi.2 (fun c => differentiable_over σ s (c : Term S))
    exact this _
  have hc : (fun z : s → W => eval M.op e (over σ s z)) = (fun z : t → W => eval M.op e (over σ t z)) ∘ ext := by
    funext z
    simp only [Function.comp]
    congr 1
    funext c
    by_cases hc : c ∈ t
    · simp only [over, dif_pos hc, ext]
    · have : c ∉ s := fun h => hc (hst h)
      simp only [over, dif_neg hc, dif_neg this]
  unfold Smooth at h ⊢
  rw [hc]
  exact DifferentiableAt.comp _ (by rw [he]; exact h) hd

/-- The address of the coefficients of a terminal. -/
def addrOf (K : Kinds S) (t : Term S) : Nat :=
  match t.base with
  | .other i => (K.vector i).getD 0
  | .argument _ _ => 0

omit [DecidableEq S] in
theorem addrOf_shares {K : Kinds S} {a : Nat} {t : Term S} (h : Shares K a t) : addrOf K t = a := by
  obtain ⟨i, h1, h2⟩ := h
  simp [addrOf, h1, h2]

/-- Values of terminals in direction `δ`, linear in `δ`. -/
noncomputable def direction (M : World S W) (K : Kinds S) (s : Finset (Term S)) : (Nat → W) →ₗ[ℝ] (s → W) where
  toFun δ := fun c => M.ann (c : Term S).attrs (δ (addrOf K c))
  map_add' _ _ := by funext c; simp
  map_smul' _ _ := by funext c; simp

theorem integral_derivative (M : World S W) (K : Kinds S) (up : List Fn) (f : List (Integral S)) (I : Integral S)
    (hI : I ∈ f) (htr : ∀ t ∈ formTerms f, ∀ n V, t.base = .argument n V → n = 0) (u : Nat → W) (v : W)
    (hsm : Smooth M I.integrand (M.env K u v 0) (unknowns K up f)) :
    ∃ D : (Nat → W) →ₗ[ℝ] ℝ, ∀ δ : Nat → W, (∀ a, (∀ x ∈ up, x.addr ≠ a) → δ a = 0) → ∀ w,
      HasDerivAt (fun ε : ℝ => M.integrate I.rest (eval M.op I.integrand (M.env K (fun a => u a + ε • δ a) v w))) (D δ) 0 := by
  classical
  obtain ⟨g', hg⟩ := hsm
  refine ⟨(M.integrate I.rest).toLinearMap ∘ₗ g'.toLinearMap ∘ₗ direction M K (unknowns K up f), ?_⟩
  intro δ hδ w
  let σ := M.env K u v 0
  let s := unknowns K up f
  let b : s → W := direction M K s δ
  have path : HasDerivAt (fun ε : ℝ => (fun c : s => σ c + ε • b c)) b 0 := by
    rw [hasDerivAt_pi]
    intro c
    have := ((hasDerivAt_id (0 : ℝ)).smul_const (b c)).const_add (σ c)
    simpa using this
  have hz : (fun c : s => σ c + (0 : ℝ) • b c) = fun c : s => σ c := by funext c; simp
  have h1 := HasFDerivAt.comp_hasDerivAt (x := (0 : ℝ)) (f := fun ε : ℝ => (fun c : s => σ c + ε • b c))
      (l := fun z : s → W => eval M.op I.integrand (over σ s z)) (l' := g') (f' := b) (by rw [hz]; exact hg) path
  have h2 : ((fun z : s → W => eval M.op I.integrand (over σ s z)) ∘ fun ε : ℝ => (fun c : s => σ c + ε • b c)) =
      fun ε : ℝ => eval M.op I.integrand (M.env K (fun a => u a + ε • δ a) v w) := by
    funext ε
    simp only [Function.comp]
    refine eval_congr M.op I.integrand _ _ (fun t ht => ?_)
    have htf : t ∈ formTerms f := List.mem_flatMap.2 ⟨I, hI, ht⟩
    by_cases hs : t ∈ s
    · rw [over, dif_pos hs]
      obtain ⟨x, _, hx⟩ := (Finset.mem_filter.1 hs).2
      have ha := addrOf_shares hx
      obtain ⟨j, hj, hja⟩ := hx
      change World.env M K u v 0 t + ε • M.ann t.attrs (δ (addrOf K t)) = _
      rw [ha]
      simp only [World.env, hj, hja, map_add, map_smul]
    · rw [over, dif_neg hs]
      change World.env M K u v 0 t = _
      simp only [World.env]
      split
      · rfl
      · rename_i n V hne hb
        exact absurd (htr t htf _ _ hb) (by rintro rfl; exact hne rfl)
      · rename_i j hj
        cases hv : K.vector j with
        | none => rfl
        | some a =>
            have : δ a = 0 := by
              refine hδ a (fun x hx he => hs (Finset.mem_filter.2 ⟨List.mem_toFinset.2 htf, x, hx, j, hj, ?_⟩))
              rw [hv, he]
            simp [this]
  rw [h2] at h1
  exact (M.integrate I.rest).hasFDerivAt.comp_hasDerivAt 0 h1

/-- The derivative of a residual is linear in the direction. -/
theorem form_derivative (M : World S W) (K : Kinds S) (up : List Fn) (f : List (Integral S))
    (htr : ∀ t ∈ formTerms f, ∀ n V, t.base = .argument n V → n = 0) (u : Nat → W) (v : W)
    (hsm : ∀ I ∈ f, Smooth M I.integrand (M.env K u v 0) (unknowns K up f)) :
    ∃ D : (Nat → W) →ₗ[ℝ] ℝ, ∀ δ : Nat → W, (∀ a, (∀ x ∈ up, x.addr ≠ a) → δ a = 0) → ∀ w,
      HasDerivAt (fun ε : ℝ => M.form (M.env K (fun a => u a + ε • δ a) v w) f) (D δ) 0 := by
  have key : ∀ l : List (Integral S), (∀ I ∈ l, I ∈ f) →
      ∃ D : (Nat → W) →ₗ[ℝ] ℝ, ∀ δ : Nat → W, (∀ a, (∀ x ∈ up, x.addr ≠ a) → δ a = 0) → ∀ w,
        HasDerivAt (fun ε : ℝ => M.form (M.env K (fun a => u a + ε • δ a) v w) l) (D δ) 0 := by
    intro l
    induction l with
    | nil => intro _; exact ⟨0, fun δ _ w => by simpa [World.form] using hasDerivAt_const (0 : ℝ) (0 : ℝ)⟩
    | cons I l ih =>
        intro hl
        obtain ⟨D, hD⟩ := ih (fun J hJ => hl J (List.mem_cons_of_mem _ hJ))
        have hI := hl I (by simp)
        obtain ⟨D', hD'⟩ := integral_derivative M K up f I hI htr u v (hsm I hI)
        refine ⟨D' + D, fun δ hδ w => ?_⟩
        have := (hD' δ hδ w).add (hD δ hδ w)
        have he : (fun ε : ℝ => M.form (M.env K (fun a => u a + ε • δ a) v w) (I :: l)) =
            (fun ε : ℝ => M.integrate I.rest (eval M.op I.integrand (M.env K (fun a => u a + ε • δ a) v w))) +
              fun ε : ℝ => M.form (M.env K (fun a => u a + ε • δ a) v w) l := by
          funext ε
          simp [World.form]
        rw [he]
        exact this
  exact key f (fun I hI => hI)

/-- A functional has one argument. -/
theorem only_test (f : List (Integral S)) (v : Term S) (h : isOkayFunctional f = .ok v) :
    ∀ t ∈ formTerms f, ∀ n V, t.base = .argument n V → t.base = v.base := by
  intro t ht n V hb
  rw [isOkayFunctional, arguments_eq] at h
  obtain ⟨s, hs, hsb⟩ := firstOnly_covers ((formTerms f).filter
    (fun t => match t.base with | .argument _ _ => true | .other _ => false)) [] t
    (List.mem_filter.2 ⟨ht, by simp [hb]⟩) (by simp)
  split at h
  · rename_i a ha
    have hs' : s ∈ [a] := by rw [← ha]; exact hs
    rw [List.mem_singleton] at hs'
    subst hs'
    have : v = s := by
      split at h
      · split at h
        · cases h
        · injection h with h; exact h.symm
      · cases h
    rw [this, hsb]
  · cases h

theorem loop_number (K : Kinds S) (fresh : Nat → Nat) (f : List (Integral S)) (x : Term S) :
    ∀ (cs : List (Term S)) (n : Nat) (J0 J : Entry S), (∀ c, J0 = .num c → c = 0) →
      derivativeLoop K fresh f x n cs J0 = .ok J → ∀ c, J = .num c → c = 0
  | [], n, J0, J, h0, h => by
      rw [derivativeLoop] at h
      injection h with h
      exact h ▸ h0
  | c :: cs, n, J0, J, h0, h => by
      rw [derivativeLoop] at h
      obtain ⟨same, _, h⟩ := py_bind_eq_ok.1 h
      split at h
      · obtain ⟨d, _, h⟩ := py_bind_eq_ok.1 h
        obtain ⟨J1, h1, h⟩ := py_bind_eq_ok.1 h
        refine loop_number K fresh f x cs (n + 1) J1 J ?_ h
        intro c hc
        subst hc
        cases J0 with
        | num a =>
            rw [addEntry] at h1
            split at h1 <;> cases h1
        | form a => cases h1
      · exact loop_number K fresh f x cs n J0 J h0 h

/-- Numbers in the Jacobian are zero. -/
theorem jacobian_number {K : Kinds S} {fresh : Nat → Nat → Nat → Nat} {F : List (List (Integral S))} {x : List (Term S)}
    {dF : List (List (Entry S))} (h : blockJacobian K fresh F x = .ok dF) {row : List (Entry S)} (hrow : row ∈ dF) {c}
    (hc : Entry.num c ∈ row) : c = 0 := by
  rw [blockJacobian] at h
  obtain ⟨_, _, h⟩ := py_bind_eq_ok.1 h
  obtain ⟨_, _, h⟩ := py_bind_eq_ok.1 h
  obtain ⟨_, _, h⟩ := py_bind_eq_ok.1 h
  obtain ⟨_, _, h⟩ := py_bind_eq_ok.1 h
  obtain ⟨p, _, hp⟩ := Program.forall₂_right (pyMap_eq_ok.1 h) row hrow
  obtain ⟨q, _, hq⟩ := Program.forall₂_right (pyMap_eq_ok.1 hp) _ hc
  rw [iiDerivative] at hq
  obtain ⟨_, _, hq⟩ := py_bind_eq_ok.1 hq
  obtain ⟨_, _, hq⟩ := py_bind_eq_ok.1 hq
  exact loop_number _ _ _ _ _ _ _ _ (by intro c hc; injection hc with hc; exact hc.symm) hq c rfl

theorem jacobian_size {K : Kinds S} {fresh : Nat → Nat → Nat → Nat} {F : List (List (Integral S))} {x : List (Term S)}
    {dF : List (List (Entry S))} (h : blockJacobian K fresh F x = .ok dF) :
    dF.length = F.length ∧ ∀ row ∈ dF, row.length = x.length := by
  rw [blockJacobian] at h
  obtain ⟨_, _, h⟩ := py_bind_eq_ok.1 h
  obtain ⟨_, _, h⟩ := py_bind_eq_ok.1 h
  obtain ⟨_, _, h⟩ := py_bind_eq_ok.1 h
  obtain ⟨_, _, h⟩ := py_bind_eq_ok.1 h
  have h1 := pyMap_eq_ok.1 h
  refine ⟨by simpa using h1.length_eq.symm, fun row hrow => ?_⟩
  obtain ⟨p, _, hp⟩ := Program.forall₂_right h1 row hrow
  simpa using (pyMap_eq_ok.1 hp).length_eq.symm

/-- Blocks of the Jacobian are the derivatives in the directions of the unknown functions. -/
theorem jacobian_blocks {K : Kinds S} {fresh : Nat → Nat → Nat → Nat} {F : List (List (Integral S))} {x : List (Term S)}
    {up : List Fn} {next : Nat} (hs : Setup K fresh F x up next) {dF : List (List (Entry S))}
    (hJ : blockJacobian K fresh F x = .ok dF) (M : World S W) (u : Nat → W) (hsm : SmoothAt M K F up u)
    {i : Nat} {f : List (Integral S)} (hf : F[i]? = some f) (v : W) :
    ∃ D : (Nat → W) →ₗ[ℝ] ℝ,
      (∀ δ : Nat → W, (∀ a, (∀ y ∈ up, y.addr ≠ a) → δ a = 0) → ∀ w,
        HasDerivAt (fun ε : ℝ => M.form (M.env K (fun a => u a + ε • δ a) v w) f) (D δ) 0) ∧
      ∀ (j : Nat) y, up[j]? = some y → ∃ row J, dF[i]? = some row ∧ row[j]? = some J ∧
        ∀ w, M.entry (M.env K u v w) J = D (Pi.single y.addr w) := by
  classical
  obtain ⟨t, ht, _, V, hV⟩ := hs.functional i f hf
  have htr : ∀ t ∈ formTerms f, ∀ n V, t.base = .argument n V → n = 0 := by
    intro s hm n V' hb
    have := only_test f t ht s hm n V' hb
    rw [hb, hV] at this
    injection this
  obtain ⟨D, hD⟩ := form_derivative M K up f htr u v (fun I hI => hsm f (List.mem_of_getElem? hf) I hI v 0)
  refine ⟨D, hD, ?_⟩
  intro j y hy
  have hjx : j < x.length := by rw [← hs.functions]; exact (List.getElem?_eq_some_iff.1 hy).1
  have hxj : x[j]? = some x[j] := List.getElem?_eq_getElem hjx
  have hplain : ∀ z ∈ x, ∃ (k : Nat) (b : Fn), x[k]? = some z ∧ up[k]? = some b ∧ Plain K z b.addr := by
    intro z hz
    obtain ⟨k, hk⟩ := List.getElem?_of_mem hz
    have hk' : k < up.length := by rw [hs.functions]; exact (List.getElem?_eq_some_iff.1 hk).1
    exact ⟨k, up[k], hk, List.getElem?_eq_getElem hk', hs.plain k z up[k] hk (List.getElem?_eq_getElem hk')⟩
  have huniq : ∀ z a b, Plain K z a → Plain K z b → a = b := by
    rintro z a b ⟨⟨k, h1, h2⟩, _⟩ ⟨⟨l, h3, h4⟩, _⟩
    have : k = l := by
      have := h1.symm.trans h3
      injection this
    subst this
    rw [h2] at h4
    injection h4
  have main := fun w => block_jacobian_correct_partial K hs.kinds fresh F x hs.residuals
    (fun i f hf => by
      obtain ⟨v, h1, h2, _⟩ := hs.functional i f hf
      exact ⟨v, h1, h2⟩)
    (fun z hz => by
      obtain ⟨k, b, _, _, h⟩ := hplain z hz
      exact ⟨_, h⟩)
    (fun i j f z a hf hz ha => by
      obtain ⟨k, b, _, _, h⟩ := hplain z (List.mem_of_getElem? hz)
      have hj' : j < up.length := by rw [hs.functions]; exact (List.getElem?_eq_some_iff.1 hz).1
      have hb := hs.plain j z up[j] hz (List.getElem?_eq_getElem hj')
      rw [huniq z a _ ha hb]
      exact hs.supported i j f up[j] hf (List.getElem?_eq_getElem hj'))
    M u v w
    (fun g hg z hz a ha I hI => by
      refine smooth_mono M I.integrand _ ?_ (hsm g hg I hI v w)
      obtain ⟨k, b, _, hb, h⟩ := hplain z hz
      intro t ht
      obtain ⟨h1, h2⟩ := Finset.mem_filter.1 ht
      refine Finset.mem_filter.2 ⟨h1, b, List.mem_of_getElem? hb, ?_⟩
      rw [huniq z _ _ h ha]
      exact h2)
  have hB : ∀ w, ∃ row J a, dF[i]? = some row ∧ row[j]? = some J ∧ Plain K x[j] a ∧
      HasDerivAt (fun ε : ℝ => M.form (M.env K (move u a w ε) v w) f) (M.entry (M.env K u v w) J) 0 := by
    intro w
    obtain ⟨B, hB, h⟩ := main w
    rw [hJ] at hB
    injection hB with hB
    subst hB
    exact h i j f x[j] hf hxj
  obtain ⟨row, J, _, h1, h2, _⟩ := hB 0
  refine ⟨row, J, h1, h2, fun w => ?_⟩
  obtain ⟨row', J', a, h1', h2', h3, h4⟩ := hB w
  rw [h1] at h1'
  injection h1' with h1'
  subst h1'
  rw [h2] at h2'
  injection h2' with h2'
  subst h2'
  have ha : a = y.addr := huniq x[j] _ _ h3 (hs.plain j x[j] y hxj hy)
  subst ha
  have hmove : ∀ ε : ℝ, move u y.addr w ε = fun b => u b + ε • (Pi.single (M := fun _ => W) y.addr w) b := by
    intro ε
    funext b
    by_cases hb : b = y.addr
    · subst hb; simp [move]
    · simp [move, hb]
  simp only [hmove] at h4
  refine h4.unique (hD _ (fun b hb => ?_) w)
  have : b ≠ y.addr := fun h => hb y (List.mem_of_getElem? hy) h.symm
  simp [this]

end Verif.Newton
