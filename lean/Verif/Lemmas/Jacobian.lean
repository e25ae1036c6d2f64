import Verif.Spec.Jacobian
import Verif.Lemmas.Ufl
import Mathlib.Analysis.Calculus.Deriv.Comp
import Mathlib.Analysis.Calculus.Deriv.Add
import Mathlib.Analysis.Calculus.Deriv.Mul
import Mathlib.Analysis.Calculus.Deriv.Prod
import Mathlib.Analysis.Calculus.FDeriv.Linear
/-! # Lemmas about forms and their derivatives -/
namespace Verif.Jacobian
open Verif Ufl BlockForm

section Meaning
variable {S : Type} [DecidableEq S] {W : Type} [NormedAddCommGroup W] [NormedSpace ℝ W]

mutual
theorem eval_congr (op : Nat → List W → W) : ∀ (e : UExpr S) (σ τ : Env S W), (∀ t ∈ terms e, σ t = τ t) →
    eval op e σ = eval op e τ
  | .term t, σ, τ, h => h t (by simp [terms])
  | .node k ops, σ, τ, h => by
      have h' : ∀ t ∈ termsAll ops, σ t = τ t := fun t ht => h t (by simpa [terms] using ht)
      have hall := evalAll_congr op ops
      have hbody := eval_congr_body op ops
      simp only [eval]
      split
      · unfold derivNode
        split
        · rename_i b _ c _ t m body rest heq
          have hb := hbody b (by simp)
          rw [evalAll] at heq
          injection heq with h1 h2
          subst h1
          have hc : σ c = τ c := h' c (by simp [termsAll, terms])
          have ht : σ t = τ t := h' t (by simp [termsAll, terms])
          congr 1
          funext ε
          refine hb _ _ (fun x hx => ?_)
          simp only [setEnv]
          split
          · rw [hc, ht]
          · exact h' x (by simp [termsAll, hx])
        · rw [hall σ τ h']
      · rw [hall σ τ h']
theorem evalAll_congr (op : Nat → List W → W) : ∀ (es : List (UExpr S)) (σ τ : Env S W), (∀ t ∈ termsAll es, σ t = τ t) →
    (evalAll op es).map (fun v => v σ) = (evalAll op es).map (fun v => v τ)
  | [], _, _, _ => rfl
  | e :: es, σ, τ, h => by
      rw [evalAll, List.map_cons, List.map_cons, eval_congr op e σ τ (fun t ht => h t (by simp [termsAll, ht])),
        evalAll_congr op es σ τ (fun t ht => h t (by simp [termsAll, ht]))]
theorem eval_congr_body (op : Nat → List W → W) : ∀ (es : List (UExpr S)), ∀ e ∈ es, ∀ σ τ : Env S W,
    (∀ t ∈ terms e, σ t = τ t) → eval op e σ = eval op e τ
  | e :: es, x, hx, σ, τ, h => by
      rcases List.mem_cons.1 hx with h1 | h1
      · rw [h1] at h ⊢; exact eval_congr op e σ τ h
      · exact eval_congr_body op es x h1 σ τ h
end

/-- The derivative node made by `df.derivative`. -/
theorem eval_derivative (op : Nat → List W → W) (c t : Term S) (e : UExpr S) (σ : Env S W) :
    eval op (derivative c t e) σ = deriv (fun ε : ℝ => eval op e (setEnv σ c (σ c + ε • σ t))) 0 := by
  simp only [derivative, eval, if_true, derivNode, evalAll]

/-- A derivative with respect to an absent coefficient is zero. -/
theorem deriv_absent (op : Nat → List W → W) (c : Term S) (e : UExpr S) (σ : Env S W) (d : W) (h : c ∉ terms e) :
    deriv (fun ε : ℝ => eval op e (setEnv σ c (σ c + ε • d))) 0 = 0 := by
  have : (fun ε : ℝ => eval op e (setEnv σ c (σ c + ε • d))) = fun _ => eval op e σ := by
    funext ε
    refine eval_congr op e _ _ (fun t ht => ?_)
    rw [setEnv, if_neg]
    rintro rfl
    exact h ht
  rw [this, deriv_const]

open Classical in
/-- The total derivative is the sum of partial derivatives. -/
theorem total_derivative (M : World S W) (e : UExpr S) (σ : Env S W) (s : Finset (Term S)) (h : Smooth M e σ s)
    (d : Term S → W) :
    HasDerivAt (fun ε : ℝ => eval M.op e (over σ s (fun c => σ c + ε • d c)))
      (∑ c ∈ s, deriv (fun ε : ℝ => eval M.op e (setEnv σ c (σ c + ε • d c))) 0) 0 := by
  obtain ⟨g', hg⟩ := h
  have path : ∀ b : s → W, HasDerivAt (fun ε : ℝ => (fun c : s => σ c + ε • b c)) b 0 := by
    intro b
    rw [hasDerivAt_pi]
    intro c
    have := ((hasDerivAt_id (0 : ℝ)).smul_const (b c)).const_add (σ c)
    simpa using this
  have along : ∀ b : s → W, HasDerivAt (fun ε : ℝ => eval M.op e (over σ s (fun c => σ c + ε • b c))) (g' b) 0 := by
    intro b
    have hz : (fun c : s => σ c + (0 : ℝ) • b c) = fun c : s => σ c := by funext c; simp
    have := HasFDerivAt.comp_hasDerivAt (x := (0 : ℝ)) (f := fun ε : ℝ => (fun c : s => σ c + ε • b c))
      (l := fun z : s → W => eval M.op e (over σ s z)) (l' := g') (f' := b) (by rw [hz]; exact hg) (path b)
    exact this
  have hpart : ∀ c : s, deriv (fun ε : ℝ => eval M.op e (setEnv σ c (σ c + ε • d c))) 0 = g' (Pi.single c (d c)) := by
    intro c
    rw [← (along (Pi.single c (d c))).deriv]
    congr 1
    funext ε
    congr 1
    funext t
    simp only [setEnv, over]
    by_cases htc : t = c
    · subst htc
      rw [if_pos rfl, dif_pos c.2]
      simp
    · rw [if_neg htc]
      split
      · rename_i ht
        rw [Pi.single_eq_of_ne (by intro hh; apply htc; rw [← hh])]
        simp
      · rfl
  have hsum : (∑ c ∈ s, deriv (fun ε : ℝ => eval M.op e (setEnv σ c (σ c + ε • d c))) 0) = g' (fun c => d c) := by
    rw [← Finset.sum_coe_sort, Finset.sum_congr rfl (fun c _ => hpart c), ← map_sum]
    congr 1
    funext c
    rw [Finset.sum_apply]
    simp [Pi.single_apply]
  rw [hsum]
  exact along (fun c => d c)

end Meaning
end Verif.Jacobian
