import Verif.Lemmas.Jacobian2
import Mathlib.Analysis.Calculus.FDeriv.Mul
import Mathlib.Analysis.Calculus.FDeriv.Prod
import Mathlib.Tactic.NormNum
/-! # C53: the derivative of a residual -/
namespace Verif.Jacobian
open Verif Ufl BlockForm BlockOps

section General
variable {S : Type} [DecidableEq S] {W : Type} [NormedAddCommGroup W] [NormedSpace ℝ W]

theorem form_append (M : World S W) (σ : Env S W) (f g : List (Integral S)) : M.form σ (f ++ g) = M.form σ f + M.form σ g := by
  simp [World.form]

/-- What the loop adds up. -/
theorem loop_value (K : Kinds S) (fresh : Nat → Nat) (f : List (Integral S)) (x : Term S) (a : Nat)
    (hpart : ∀ n, ∀ c ∈ formTerms f, isCoefficient K c = true → partialDerivative K (fresh n) f c = .ok (partialOf K f c))
    (M : World S W) (σ : Env S W) [DecidablePred (Shares K a)] : ∀ (cs : List (Term S)) (n : Nat) (J : Entry S),
    (∀ c ∈ cs, c ∈ formTerms f ∧ isCoefficient K c = true) →
    (∀ c ∈ cs, sameVector K c x = .ok (decide (Shares K a c))) → (∀ q, J = .num q → q = 0) →
    ∃ J', derivativeLoop K fresh f x n cs J = .ok J' ∧
      M.entry σ J' = M.entry σ J + ((cs.filter (fun c => decide (Shares K a c))).map
        (fun c => M.form σ (partialOf K f c))).sum
  | [], n, J, _, _, _ => ⟨J, rfl, by simp⟩
  | c :: cs, n, J, hmem, hsame, hJ => by
      obtain ⟨hm, hc⟩ := hmem c (by simp)
      rw [derivativeLoop, hsame c (by simp), py_bind_ok]
      by_cases hs : Shares K a c
      · simp only [hs, decide_true, if_true]
        rw [hpart n c hm hc, py_bind_ok]
        have hadd : ∃ g, addEntry J (.form (partialOf K f c)) = .ok (.form g) ∧
            M.form σ g = M.entry σ J + M.form σ (partialOf K f c) := by
          cases J with
          | num q =>
              have := hJ q rfl
              subst this
              exact ⟨partialOf K f c, by simp [addEntry], by simp [World.entry]⟩
          | form g => exact ⟨g ++ partialOf K f c, rfl, by rw [form_append]; rfl⟩
        obtain ⟨g, hg, hgv⟩ := hadd
        rw [hg, py_bind_ok]
        obtain ⟨J', h1, h2⟩ := loop_value K fresh f x a hpart M σ cs (n + 1) (.form g)
          (fun c hc => hmem c (List.mem_cons_of_mem _ hc)) (fun c hc => hsame c (List.mem_cons_of_mem _ hc))
          (by intro q hq; cases hq)
        refine ⟨J', h1, ?_⟩
        rw [h2, List.filter_cons, if_pos (by simpa using hs), List.map_cons, List.sum_cons]
        change M.form σ g + _ = _
        rw [hgv, add_assoc]
      · simp only [hs, decide_false, Bool.false_eq_true, if_false]
        obtain ⟨J', h1, h2⟩ := loop_value K fresh f x a hpart M σ cs n J
          (fun c hc => hmem c (List.mem_cons_of_mem _ hc)) (fun c hc => hsame c (List.mem_cons_of_mem _ hc)) hJ
        refine ⟨J', h1, ?_⟩
        rw [h2, List.filter_cons, if_neg (by simpa using hs)]

theorem sum_filter_map {α : Type} (l : List α) (p : α → Bool) (g : α → ℝ) (h : ∀ x ∈ l, p x = false → g x = 0) :
    ((l.filter p).map g).sum = (l.map g).sum := by
  induction l with
  | nil => rfl
  | cons x l ih =>
      rw [List.filter_cons, List.map_cons, List.sum_cons, ← ih (fun y hy => h y (List.mem_cons_of_mem _ hy))]
      cases hp : p x with
      | true => simp
      | false => simp [h x (by simp) hp]

/-- **C53**: for supported residuals `ii_derivative` returns the derivative of the residual `f` in the direction of the
trial function: `f(u + ε w; v)` has the derivative `J(w, v)` at `ε = 0`, if the integrands are differentiable functions of
the values of the copies of `x`.  (Without the hypothesis `Supported` this fails, see below.) -/
theorem derivative_correct_partial (K : Kinds S) (hK : K.Ok) (fresh : Nat → Nat) (f : List (Integral S)) (x v : Term S)
    (a : Nat) (hf : isOkayFunctional f = .ok v) (hplain : Plain K x a) (hsup : Supported K fresh f a)
    (M : World S W) (u : Nat → W) (vv w : W)
    (hsmooth : ∀ I ∈ f, Smooth M I.integrand (M.env K u vv w) (copies K a f)) :
    ∃ J, iiDerivative K fresh f x = .ok J ∧
      HasDerivAt (fun ε : ℝ => M.form (M.env K (move u a w ε) vv w) f) (M.entry (M.env K u vv w) J) 0 := by
  classical
  obtain ⟨⟨i, hx, hxa⟩, hattr⟩ := hplain
  obtain ⟨hvec, hobj, hfresh, hann⟩ := hsup
  have hxr : isRestricted x = false := by
    rw [isRestricted, List.any_eq_false]
    intro r hr
    rw [hattr r hr]
    simp
  have htr := no_trial f v hf
  have hcoef : ∀ c : Term S, isCoefficient K c = true → ∃ j, c.base = .other j ∧ K.coefficient j = true := by
    rintro ⟨b, as⟩ h
    cases b with
    | argument n V => simp [isCoefficient] at h
    | other j => exact ⟨j, rfl, h⟩
  have hpart : ∀ n, ∀ c ∈ formTerms f, isCoefficient K c = true →
      partialDerivative K (fresh n) f c = .ok (partialOf K f c) := by
    intro n c hc hcc
    obtain ⟨j, hj, _⟩ := hcoef c hcc
    exact partial_eq K (fresh n) f c j hj hc (fun t ht hb => (hobj c hc t ht hcc hb.symm).symm) (hfresh n) htr
  let σ := M.env K u vv w
  let cs := (coefficients K f).filter (fun c => !isConstant K c)
  have hcs : ∀ c ∈ cs, c ∈ formTerms f ∧ isCoefficient K c = true ∧ isConstant K c = false := by
    intro c hc
    obtain ⟨h1, h2⟩ := List.mem_filter.1 hc
    obtain ⟨h3, h4⟩ := (mem_coefficients K f hobj c).1 h1
    exact ⟨h3, h4, by simpa using h2⟩
  have hsame : ∀ c ∈ cs, sameVector K c x = .ok (decide (Shares K a c)) := by
    intro c hc
    obtain ⟨h1, h2, h3⟩ := hcs c hc
    obtain ⟨j, hj, hjc⟩ := hcoef c h2
    rw [sameVector]
    by_cases hb : c.base = x.base
    · have hji : j = i := by
        have := hj.symm.trans (hb.trans hx)
        injection this
      have : Shares K a c := ⟨j, hj, by rw [hji, hxa]⟩
      rw [if_pos hb]
      simp [this]
    · rw [if_neg hb]
      have hcon : K.constant j = false := by
        obtain ⟨b, as⟩ := c
        change b = _ at hj
        subst hj
        exact h3
      have hne := hvec c h1 j hj hjc hcon
      obtain ⟨d, hd⟩ := Option.ne_none_iff_exists'.1 hne
      have e1 : vectorId K c = .ok d := by
        obtain ⟨b, as⟩ := c
        change b = _ at hj
        subst hj
        simp [vectorId, hd]
      have e2 : vectorId K x = .ok a := by
        obtain ⟨b, as⟩ := x
        change b = _ at hx
        subst hx
        simp [vectorId, hxa]
      rw [e1, e2, py_bind_ok, py_bind_ok]
      congr 1
      rw [decide_eq_decide]
      constructor
      · rintro rfl
        exact ⟨j, hj, hd⟩
      · rintro ⟨j', hj', hv'⟩
        have : j = j' := by
          have := hj.symm.trans hj'
          injection this
        subst this
        rw [hd] at hv'
        injection hv'
  obtain ⟨J, hJ1, hJ2⟩ := loop_value K fresh f x a hpart M σ cs 0 (.num 0) (fun c hc => ⟨(hcs c hc).1, (hcs c hc).2.1⟩)
    hsame (by intro q hq; injection hq with h; exact h.symm)
  refine ⟨J, ?_, ?_⟩
  · rw [iiDerivative, hf, py_bind_ok]
    have hxc : isCoefficient K x = true := by
      obtain ⟨b, as⟩ := x
      change b = _ at hx
      subst hx
      exact (hK i a hxa).1
    rw [hxc, hxr]
    simp only [Bool.not_false, Bool.and_self, pyAssert_true, py_bind_ok]
    exact hJ1
  · have hset : ∀ c, c ∈ cs.filter (fun c => decide (Shares K a c)) ↔ c ∈ copies K a f := by
      intro c
      rw [List.mem_filter, copies, Finset.mem_filter, List.mem_toFinset, decide_eq_true_eq]
      constructor
      · rintro ⟨h1, h2⟩
        exact ⟨(hcs c h1).1, h2⟩
      · rintro ⟨h1, h2⟩
        refine ⟨List.mem_filter.2 ⟨(mem_coefficients K f hobj c).2 ⟨h1, ?_⟩, ?_⟩, h2⟩
        · obtain ⟨j, hj, hja⟩ := h2
          obtain ⟨b, as⟩ := c
          change b = _ at hj
          subst hj
          exact (hK j a hja).1
        · obtain ⟨j, hj, hja⟩ := h2
          obtain ⟨b, as⟩ := c
          change b = _ at hj
          subst hj
          simpa [isConstant] using (hK j a hja).2
    have hnd : (cs.filter (fun c => decide (Shares K a c))).Nodup :=
      ((nodup_coefficients K f).filter _).filter _
    have hfin : (cs.filter (fun c => decide (Shares K a c))).toFinset = copies K a f := by
      ext c
      rw [List.mem_toFinset, hset]
    -- the trial function of the partial derivative carries the annotation of the coefficient
    have htrial : ∀ c ∈ copies K a f, σ (trialOf K c) = M.ann c.attrs w := by
      intro c hc
      have : σ (trialOf K c) = M.ann (restriction c).toList w := rfl
      rw [this]
      congr 2
      rcases hann c hc with h | ⟨r, hr, d, h⟩
      · simp [restriction, Term.attr, h, rtypes]
      · simp only [restriction, Term.attr, h, rtypes]
        simp only [List.mem_cons, List.not_mem_nil, or_false] at hr
        rcases hr with rfl | rfl | rfl <;> simp [List.find?, List.lookup]
    -- value of the loop's result
    have hval : M.entry σ J = (f.map (fun I => M.integrate I.rest (∑ c ∈ copies K a f,
        deriv (fun ε : ℝ => eval M.op I.integrand (setEnv σ c (σ c + ε • M.ann c.attrs w))) 0))).sum := by
      rw [hJ2]
      have h0 : M.entry σ (.num 0) = 0 := by simp [World.entry]
      rw [h0, zero_add, ← List.sum_toFinset _ hnd, hfin]
      have h1 : ∀ c ∈ copies K a f, M.form σ (partialOf K f c) = (f.map (fun I => M.integrate I.rest
          (deriv (fun ε : ℝ => eval M.op I.integrand (setEnv σ c (σ c + ε • M.ann c.attrs w))) 0))).sum := by
        intro c hc
        rw [World.form, partialOf, List.map_map]
        have : ((fun I : Integral S => M.integrate I.rest (eval M.op I.integrand σ)) ∘
            (fun I : Integral S => (⟨derivative c (trialOf K c) I.integrand, I.rest⟩ : Integral S))) =
            (fun I : Integral S => M.integrate I.rest
              (deriv (fun ε : ℝ => eval M.op I.integrand (setEnv σ c (σ c + ε • M.ann c.attrs w))) 0)) := by
          funext I
          simp only [Function.comp, eval_derivative, htrial c hc]
        rw [this]
        refine sum_filter_map f _ _ (fun I _ hI => ?_)
        rw [deriv_absent M.op c I.integrand σ _ (by simpa using hI), map_zero]
      rw [Finset.sum_congr rfl h1]
      clear hJ2 hsmooth hpart
      generalize copies K a f = s
      clear * -
      induction f with
      | nil => simp
      | cons I f ih =>
          simp only [List.map_cons, List.sum_cons, Finset.sum_add_distrib, ih, map_sum]
    rw [hval]
    -- the derivative of every integral
    have hI : ∀ I ∈ f, HasDerivAt (fun ε : ℝ => M.integrate I.rest (eval M.op I.integrand (M.env K (move u a w ε) vv w)))
        (M.integrate I.rest (∑ c ∈ copies K a f,
          deriv (fun ε : ℝ => eval M.op I.integrand (setEnv σ c (σ c + ε • M.ann c.attrs w))) 0)) 0 := by
      intro I hIf
      have h1 := total_derivative M I.integrand σ (copies K a f) (hsmooth I hIf) (fun c => M.ann c.attrs w)
      have h2 : (fun ε : ℝ => eval M.op I.integrand (over σ (copies K a f) (fun c => σ c + ε • M.ann (c : Term S).attrs w))) =
          fun ε : ℝ => eval M.op I.integrand (M.env K (move u a w ε) vv w) := by
        funext ε
        refine eval_congr M.op I.integrand _ _ (fun t ht => ?_)
        have htf : t ∈ formTerms f := List.mem_flatMap.2 ⟨I, hIf, ht⟩
        by_cases hs : Shares K a t
        · have hm : t ∈ copies K a f := Finset.mem_filter.2 ⟨List.mem_toFinset.2 htf, hs⟩
          rw [over, dif_pos hm]
          obtain ⟨j, hj, hja⟩ := hs
          change World.env M K u vv w t + _ = _
          simp only [World.env, hj, hja, move, if_true, map_add, map_smul]
        · have hm : t ∉ copies K a f := fun h => hs (Finset.mem_filter.1 h).2
          rw [over, dif_neg hm]
          change World.env M K u vv w t = _
          simp only [World.env]
          split
          · rfl
          · rfl
          · rename_i j hj
            cases hv : K.vector j with
            | none => rfl
            | some b =>
                have : b ≠ a := fun h => hs ⟨j, hj, by rw [hv, h]⟩
                simp only [move, if_neg this]
      rw [h2] at h1
      exact (M.integrate I.rest).hasFDerivAt.comp_hasDerivAt 0 h1
    unfold World.form
    generalize hD : (fun I : Integral S => M.integrate I.rest (∑ c ∈ copies K a f,
          deriv (fun ε : ℝ => eval M.op I.integrand (setEnv σ c (σ c + ε • M.ann c.attrs w))) 0)) = D
    have hI' : ∀ I ∈ f, HasDerivAt (fun ε : ℝ => M.integrate I.rest (eval M.op I.integrand (M.env K (move u a w ε) vv w)))
        (D I) 0 := by
      intro I h
      rw [← hD]
      exact hI I h
    clear * - hI'
    induction f with
    | nil => simpa using hasDerivAt_const (0 : ℝ) (0 : ℝ)
    | cons I f ih =>
        simp only [List.map_cons, List.sum_cons]
        exact (hI' I (by simp)).add (ih (fun I h => hI' I (List.mem_cons_of_mem _ h)))

theorem spaceOf_is {K : Kinds S} {t : Term S} {V : S} (h : SpaceIs K t V) : spaceOf K t = V := by
  rw [spaceOf]
  rcases h with ⟨n, h⟩ | ⟨i, h, rfl⟩ <;> rw [h]

theorem spaceIs_spaceOf (K : Kinds S) (t : Term S) : SpaceIs K t (spaceOf K t) := by
  obtain ⟨b, as⟩ := t
  cases b with
  | argument n V => exact Or.inl ⟨n, rfl⟩
  | other i => exact Or.inr ⟨i, rfl, rfl⟩

omit [NormedAddCommGroup W] [NormedSpace ℝ W] in
/-- **C53**: other arguments are refused: the residuals are as many as the functions, all of which are coefficients, and each
residual is tested in the space of its function. -/
theorem block_jacobian_accepts {K : Kinds S} {fresh : Nat → Nat → Nat → Nat} {F : List (List (Integral S))}
    {x : List (Term S)} {B : List (List (Entry S))} (h : blockJacobian K fresh F x = .ok B) :
    F.length = x.length ∧ (∀ y ∈ x, ∃ i, y.base = .other i ∧ K.coefficient i = true) ∧
      ∀ (i : Nat) f y, F[i]? = some f → x[i]? = some y → ∃ v V, isOkayFunctional f = .ok v ∧ SpaceIs K v V ∧ SpaceIs K y V := by
  rw [blockJacobian] at h
  obtain ⟨_, h1, h⟩ := py_bind_eq_ok.1 h
  obtain ⟨_, h2, h⟩ := py_bind_eq_ok.1 h
  obtain ⟨ts, h3, h⟩ := py_bind_eq_ok.1 h
  obtain ⟨_, h4, h⟩ := py_bind_eq_ok.1 h
  refine ⟨by simpa using pyAssert_eq_ok.1 h1, ?_, ?_⟩
  · intro y hy
    have := List.all_eq_true.1 (pyAssert_eq_ok.1 h2) y hy
    obtain ⟨b, as⟩ := y
    cases b with
    | argument n V => simp [isCoefficient] at this
    | other i => exact ⟨i, rfl, this⟩
  · intro i f y hf hy
    have h3' := pyMap_eq_ok.1 h3
    have hiF : i < F.length := (List.getElem?_eq_some_iff.1 hf).1
    have hit : i < ts.length := by rw [← h3'.length_eq]; exact hiF
    have hr := h3'.get hiF hit
    simp only [List.get_eq_getElem] at hr
    have hfe : F[i] = f := (List.getElem?_eq_some_iff.1 hf).2
    rw [hfe] at hr
    have hz : (ts[i], y) ∈ ts.zip x :=
      List.mem_of_getElem? (by rw [List.getElem?_zip_eq_some]; exact ⟨List.getElem?_eq_getElem hit, hy⟩)
    have := List.all_eq_true.1 (pyAssert_eq_ok.1 h4) _ hz
    simp only [decide_eq_true_eq] at this
    exact ⟨_, _, hr, spaceIs_spaceOf K _, by rw [this]; exact spaceIs_spaceOf K y⟩

/-- **C53**: the blocks of the Jacobian. -/
theorem block_jacobian_correct_partial (K : Kinds S) (hK : K.Ok) (fresh : Nat → Nat → Nat → Nat)
    (F : List (List (Integral S))) (x : List (Term S)) (hlen : F.length = x.length)
    (hF : ∀ (i : Nat) f, F[i]? = some f → ∃ v, isOkayFunctional f = .ok v ∧
      ∀ y, x[i]? = some y → ∃ V, SpaceIs K v V ∧ SpaceIs K y V)
    (hx : ∀ y ∈ x, ∃ a, Plain K y a)
    (hsup : ∀ (i j : Nat) f y a, F[i]? = some f → x[j]? = some y → Plain K y a → Supported K (fresh i j) f a)
    (M : World S W) (u : Nat → W) (vv w : W)
    (hsmooth : ∀ f ∈ F, ∀ y ∈ x, ∀ a, Plain K y a → ∀ I ∈ f, Smooth M I.integrand (M.env K u vv w) (copies K a f)) :
    ∃ B : List (List (Entry S)), blockJacobian K fresh F x = .ok B ∧
      ∀ (i j : Nat) f y, F[i]? = some f → x[j]? = some y → ∃ row J a, B[i]? = some row ∧ row[j]? = some J ∧ Plain K y a ∧
        HasDerivAt (fun ε : ℝ => M.form (M.env K (move u a w ε) vv w) f) (M.entry (M.env K u vv w) J) 0 := by
  have key : ∀ (i j : Nat) f y, F[i]? = some f → x[j]? = some y → ∃ J, iiDerivative K (fresh i j) f y = .ok J ∧
      ∃ a, Plain K y a ∧
        HasDerivAt (fun ε : ℝ => M.form (M.env K (move u a w ε) vv w) f) (M.entry (M.env K u vv w) J) 0 := by
    intro i j f y hf hy
    obtain ⟨v, hv, _⟩ := hF i f hf
    obtain ⟨a, ha⟩ := hx y (List.mem_of_getElem? hy)
    obtain ⟨J, h1, h2⟩ := derivative_correct_partial K hK (fresh i j) f y v a hv ha (hsup i j f y a hf hy ha) M u vv w
      (hsmooth f (List.mem_of_getElem? hf) y (List.mem_of_getElem? hy) a ha)
    exact ⟨J, h1, a, ha, h2⟩
  have htests : ∃ ts, pyMap isOkayFunctional F = .ok ts ∧ List.Forall₂ (fun f t => isOkayFunctional f = .ok t) F ts := by
    have hall : ∀ f ∈ F, ∃ v, isOkayFunctional f = .ok v := by
      intro f hf
      obtain ⟨i, hi⟩ := List.getElem?_of_mem hf
      obtain ⟨v, hv, _⟩ := hF i f hi
      exact ⟨v, hv⟩
    clear * - hall
    induction F with
    | nil => exact ⟨[], rfl, .nil⟩
    | cons f F ih =>
        obtain ⟨ts, h1, h2⟩ := ih (fun f hf => hall f (List.mem_cons_of_mem _ hf))
        obtain ⟨v, hv⟩ := hall f (by simp)
        exact ⟨v :: ts, pyMap_eq_ok.2 (.cons hv h2), .cons hv h2⟩
  obtain ⟨ts, hts, hts2⟩ := htests
  have hspaces : (ts.zip x).all (fun p => decide (spaceOf K p.1 = spaceOf K p.2)) = true := by
    rw [List.all_eq_true]
    rintro ⟨t, y⟩ hp
    obtain ⟨k, hk⟩ := List.getElem?_of_mem hp
    rw [List.getElem?_zip_eq_some] at hk
    obtain ⟨h1, h2⟩ := hk
    have hkF : k < F.length := by rw [hts2.length_eq]; exact (List.getElem?_eq_some_iff.1 h1).1
    have hr := hts2.get hkF (by rw [← hts2.length_eq]; exact hkF)
    obtain ⟨v, hv, hs⟩ := hF k F[k] (List.getElem?_eq_getElem hkF)
    have htv : t = v := by
      have : ts[k]'(by rw [← hts2.length_eq]; exact hkF) = t := (List.getElem?_eq_some_iff.1 h1).2
      simp only [List.get_eq_getElem] at hr
      rw [hv, this] at hr
      injection hr with hr
      exact hr.symm
    rw [htv]
    obtain ⟨V, hv1, hy1⟩ := hs y h2
    simp [spaceOf_is hv1, spaceOf_is hy1]
  have hcoef : x.all (isCoefficient K) = true := by
    rw [List.all_eq_true]
    intro y hy
    obtain ⟨a, ⟨i, hb, hv⟩, _⟩ := hx y hy
    obtain ⟨b, as⟩ := y
    change b = _ at hb
    subst hb
    exact (hK i a hv).1
  haveI : Nonempty (Entry S) := ⟨.num 0⟩
  choose! g hg using key
  refine ⟨F.zipIdx.map (fun p => x.zipIdx.map (fun q => g p.2 q.2 p.1 q.1)), ?_, ?_⟩
  · rw [blockJacobian, hts]
    simp only [hlen, decide_true, hcoef, hspaces, pyAssert_true, py_bind_ok]
    refine pyMap_ok (fun p hp => pyMap_ok (fun q hq => ?_))
    obtain ⟨f, i⟩ := p
    obtain ⟨y, j⟩ := q
    rw [List.mk_mem_zipIdx_iff_getElem?] at hp hq
    exact (hg i j f y hp hq).1
  · intro i j f y hf hy
    obtain ⟨_, a, h1, h2⟩ := hg i j f y hf hy
    refine ⟨x.zipIdx.map (fun q => g i q.2 f q.1), g i j f y, a, ?_, ?_, h1, h2⟩
    · simp [hf]
    · simp [hy]

/-- Residuals with a coefficient which has no vector (`df.Expression`) are not differentiated: an exception. -/
theorem derivative_expression (K : Kinds S) (fresh : Nat → Nat) (f : List (Integral S)) (x : Term S)
    (c : Term S) (hc : c ∈ coefficients K f) (j : Nat) (hj : c.base = .other j) (hv : K.vector j = none)
    (hcon : K.constant j = false) (hne : c.base ≠ x.base) : ∀ J, iiDerivative K fresh f x ≠ .ok J := by
  have hbad : sameVector K c x = .error .attributeError := by
    rw [sameVector, if_neg hne]
    obtain ⟨b, as⟩ := c
    change b = _ at hj
    subst hj
    simp [vectorId, hv]
  have hloop : ∀ (cs : List (Term S)) (n : Nat) (J0 J : Entry S), c ∈ cs → derivativeLoop K fresh f x n cs J0 ≠ .ok J := by
    intro cs
    induction cs with
    | nil => intro n J0 J h; simp at h
    | cons d cs ih =>
        intro n J0 J h hok
        rw [derivativeLoop] at hok
        rcases List.mem_cons.1 h with rfl | h
        · rw [hbad] at hok
          cases hok
        · obtain ⟨same, h1, hok⟩ := py_bind_eq_ok.1 hok
          split at hok
          · obtain ⟨d', _, hok⟩ := py_bind_eq_ok.1 hok
            obtain ⟨J1, _, hok⟩ := py_bind_eq_ok.1 hok
            exact ih _ _ _ h hok
          · exact ih _ _ _ h hok
  intro J hok
  rw [iiDerivative] at hok
  obtain ⟨_, _, hok⟩ := py_bind_eq_ok.1 hok
  obtain ⟨_, _, hok⟩ := py_bind_eq_ok.1 hok
  refine hloop _ _ _ _ (List.mem_filter.2 ⟨hc, ?_⟩) hok
  obtain ⟨b, as⟩ := c
  change b = _ at hj
  subst hj
  simp [isConstant, hcon]

end General

/-! ## A concrete residual -/

/-- Function `5` (vector 50) and its annotated copy `6` share the vector. -/
def exKinds : Kinds Nat where
  coefficient i := i = 5 || i = 6 || i = 7
  constant _ := false
  space _ := 1
  vector i := if i = 5 ∨ i = 6 then some 50 else none

/-- Operators multiply, an annotation doubles, integrals are the identity. -/
noncomputable def exWorld : World Nat ℝ where
  op _ l := l.prod
  ann as := if as = [] then .id ℝ ℝ else (2 : ℝ) • .id ℝ ℝ
  integrate _ := .id ℝ ℝ
  other _ := 1

/-- `u * Trace(u) * Trace(v)`. -/
def exForm : List (Integral Nat) :=
  [⟨.node 5 [.term ⟨.other 5, []⟩, .term ⟨.other 6, [("trace_", 1)]⟩, .term ⟨.argument 0 1, [("trace_", 1)]⟩], 0⟩]

theorem differentiable_over {S : Type} [DecidableEq S] {W : Type} [NormedAddCommGroup W] [NormedSpace ℝ W] (σ : Env S W)
    (s : Finset (Term S)) (t : Term S) : Differentiable ℝ (fun z : s → W => over σ s z t) := by
  unfold over
  by_cases h : t ∈ s
  · simp only [h, dite_true]
    exact differentiable_apply _
  · simp only [h, dite_false]
    exact differentiable_const _

theorem exKinds_ok : exKinds.Ok := by
  intro i a h
  simp only [exKinds] at h ⊢
  split at h
  · rename_i h1
    rcases h1 with h1 | h1 <;> simp [h1]
  · cases h

theorem exSupported : Supported exKinds (fun n => 100 + n) exForm 50 where
  vec c hc j hj h1 _ := by
    simp [formTerms, exForm, terms, termsAll] at hc
    rcases hc with rfl | rfl | rfl
    · injection hj with hj; subst hj; simp [exKinds]
    · injection hj with hj; subst hj; simp [exKinds]
    · cases hj
  obj t ht t' ht' _ hb := by
    simp [formTerms, exForm, terms, termsAll] at ht ht'
    rcases ht with rfl | rfl | rfl <;> rcases ht' with rfl | rfl | rfl <;> simp at hb ⊢
  fresh n t ht := by
    simp [formTerms, exForm, terms, termsAll] at ht
    rcases ht with rfl | rfl | rfl <;> simp <;> omega
  ann c hc := by
    have : c ∈ formTerms exForm := by
      classical
      exact List.mem_toFinset.1 (Finset.mem_filter.1 hc).1
    simp [formTerms, exForm, terms, termsAll] at this
    rcases this with rfl | rfl | rfl <;> simp

/-- The hypotheses hold for a residual with a function and its trace. -/
example (u : Nat → ℝ) (v w : ℝ) : ∃ J, iiDerivative exKinds (fun n => 100 + n) exForm ⟨.other 5, []⟩ = .ok J ∧
    HasDerivAt (fun ε : ℝ => exWorld.form (exWorld.env exKinds (move u 50 w ε) v w) exForm)
      (exWorld.entry (exWorld.env exKinds u v w) J) 0 := by
  refine derivative_correct_partial exKinds exKinds_ok _ exForm ⟨.other 5, []⟩ ⟨.argument 0 1, [("trace_", 1)]⟩ 50 ?_ ?_
    exSupported exWorld u v w ?_
  · rw [isOkayFunctional, arguments_eq]
    simp [exForm, formTerms, terms, termsAll, firstOnly]
  · exact ⟨⟨5, rfl, by simp [exKinds]⟩, by simp [Term.attr]⟩
  · intro I hI
    simp only [exForm, List.mem_singleton] at hI
    subst hI
    refine Differentiable.differentiableAt ?_
    simp only [eval, evalAll, exWorld, cdType, List.map_cons, List.map_nil, List.prod_cons, List.prod_nil, mul_one]
    simp only [show ¬ (5 = 0) by decide, if_false]
    exact (differentiable_over _ _ _).mul ((differentiable_over _ _ _).mul (differentiable_over _ _ _))

/-! ## Annotations which are not supported -/

/-- `Mean(u) * v`. -/
def meanForm : List (Integral Nat) := [⟨.node 5 [.term ⟨.other 6, [("mean_", 1)]⟩, .term ⟨.argument 0 1, []⟩], 0⟩]

/-- Other annotations (`Mean`, `Extension`, `Injection`, `SurfaceMean`, `PointTrace`, ...) are not carried over to the trial
function: the result is not the derivative. -/
theorem derivative_mean_wrong : ∃ J, iiDerivative exKinds (fun n => 100 + n) meanForm ⟨.other 5, []⟩ = .ok J ∧
    ¬ HasDerivAt (fun ε : ℝ => exWorld.form (exWorld.env exKinds (move (fun _ => 0) 50 1 ε) 1 1) meanForm)
      (exWorld.entry (exWorld.env exKinds (fun _ => 0) 1 1) J) 0 := by
  refine ⟨.form (partialOf exKinds meanForm ⟨.other 6, [("mean_", 1)]⟩), ?_, ?_⟩
  · have hp : partialDerivative exKinds 100 meanForm ⟨.other 6, [("mean_", 1)]⟩ =
        .ok (partialOf exKinds meanForm ⟨.other 6, [("mean_", 1)]⟩) := by
      refine partial_eq exKinds 100 meanForm _ 6 rfl ?_ ?_ ?_ ?_ <;>
        simp [meanForm, formTerms, terms, termsAll]
    have hc : coefficients exKinds meanForm = [⟨.other 6, [("mean_", 1)]⟩] := by
      rw [coefficients, formTerminals_eq, coefsOf_terms]
      simp [meanForm, formTerms, terms, termsAll, firstOnly, isCoefficient, exKinds]
    have ho : isOkayFunctional meanForm = .ok ⟨.argument 0 1, []⟩ := by
      rw [isOkayFunctional, arguments_eq]
      simp [meanForm, formTerms, terms, termsAll, firstOnly]
    rw [iiDerivative, ho, hc, py_bind_ok]
    have ha : (isCoefficient exKinds ⟨.other 5, []⟩ && !isRestricted (⟨.other 5, []⟩ : Term Nat)) = true := by decide
    have hs : sameVector exKinds (⟨.other 6, [("mean_", 1)]⟩ : Term Nat) ⟨.other 5, []⟩ = .ok true := by
      simp [sameVector, vectorId, exKinds]
    have hk : [(⟨.other 6, [("mean_", 1)]⟩ : Term Nat)].filter (fun c => !isConstant exKinds c) =
        [⟨.other 6, [("mean_", 1)]⟩] := rfl
    rw [ha, pyAssert_true, py_bind_ok, hk, derivativeLoop, hs, py_bind_ok, if_pos rfl, hp, py_bind_ok]
    simp [addEntry, derivativeLoop]
  · intro h
    have h2 : HasDerivAt (fun ε : ℝ => exWorld.form (exWorld.env exKinds (move (fun _ => 0) 50 1 ε) 1 1) meanForm) 2 0 := by
      have : (fun ε : ℝ => exWorld.form (exWorld.env exKinds (move (fun _ => 0) 50 1 ε) 1 1) meanForm) =
          fun ε : ℝ => 2 * ε := by
        funext ε
        simp [World.form, meanForm, eval, evalAll, cdType, exWorld, World.env, exKinds, move]
      rw [this]
      simpa using (hasDerivAt_id (0 : ℝ)).const_mul 2
    have h3 := h.unique h2
    have h4 : exWorld.entry (exWorld.env exKinds (fun _ => 0) 1 1)
        (.form (partialOf exKinds meanForm ⟨.other 6, [("mean_", 1)]⟩)) = 1 := by
      have hm : (⟨.other 6, [("mean_", 1)]⟩ : Term Nat) ∈ terms
          (.node 5 [.term ⟨.other 6, [("mean_", 1)]⟩, .term ⟨.argument 0 1, []⟩] : UExpr Nat) := by simp [terms, termsAll]
      simp only [World.entry, World.form, partialOf, meanForm, List.filter_cons, hm, decide_true, if_true, List.filter_nil,
        List.map_cons, List.map_nil, eval_derivative, List.sum_cons, List.sum_nil, add_zero]
      have : (fun ε : ℝ => eval exWorld.op (.node 5 [.term ⟨.other 6, [("mean_", 1)]⟩, .term ⟨.argument 0 1, []⟩] : UExpr Nat)
          (setEnv (exWorld.env exKinds (fun _ => 0) 1 1) ⟨.other 6, [("mean_", 1)]⟩
            (exWorld.env exKinds (fun _ => 0) 1 1 ⟨.other 6, [("mean_", 1)]⟩ + ε •
              exWorld.env exKinds (fun _ => 0) 1 1 (trialOf exKinds ⟨.other 6, [("mean_", 1)]⟩)))) = fun ε : ℝ => ε := by
        funext ε
        simp [eval, evalAll, cdType, exWorld, World.env, exKinds, setEnv, trialOf, restriction, rtypes, Term.attr, coefId,
          List.lookup]
      rw [this]
      simp [exWorld]
    rw [h4] at h3
    norm_num at h3

/-- A residual with an `Expression` satisfies the hypotheses of `derivative_expression`. -/
example : ∀ J, iiDerivative exKinds (fun n => 100 + n)
    [⟨.node 5 [.term ⟨.other 5, []⟩, .term ⟨.other 7, []⟩, .term ⟨.argument 0 1, []⟩], 0⟩] ⟨.other 5, []⟩ ≠ .ok J := by
  refine derivative_expression exKinds _ _ _ ⟨.other 7, []⟩ ?_ 7 rfl (by simp [exKinds]) rfl (by simp)
  rw [mem_coefficients]
  · simp [formTerms, terms, termsAll, isCoefficient, exKinds]
  · intro t ht t' ht' _ hb
    simp [formTerms, terms, termsAll] at ht ht'
    rcases ht with rfl | rfl | rfl <;> rcases ht' with rfl | rfl | rfl <;> simp at hb ⊢

end Verif.Jacobian
