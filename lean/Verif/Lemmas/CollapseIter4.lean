import Verif.Lemmas.CollapseIter3
/-!
# Sizes of what `ii_convert` returns
-/
namespace Verif.CollapseIter
open Verif Collapse BlockOps

variable {K : Type} [CommRing K]

theorem sizeAll_flat (e : Expr K) : sizeAll e.flat = size e := by
  cases e <;> simp [Expr.flat, sizeAll, size, comb_none]

theorem size_pyMul (a b : Expr K) : size (pyMul a b) = comb (size a) (size b) := by
  unfold pyMul
  split
  · simp [size, comb]
  · rw [size, sizeAll_append, sizeAll_flat, sizeAll_flat]

theorem size_foldl (bs : List (Expr K)) (b : Expr K) : size (bs.foldl pyMul b) = comb (size b) (sizeAll bs) := by
  induction bs generalizing b with
  | nil => simp [sizeAll, comb_none]
  | cons c cs ih => rw [List.foldl_cons, ih, size_pyMul, sizeAll, comb_assoc]

theorem collapse_size (tiny : Tiny K) (fuel : Nat) :
    (∀ e v, Collapse.collapse tiny fuel e = .ok v → v.dims = size e) ∧
    (∀ A v, collapseTr tiny fuel A = .ok v → v.dims = size (.tr A)) ∧
    (∀ A B v, collapseAdd tiny fuel A B = .ok v → v.dims = size (.add A B)) ∧
    (∀ A B v, collapseAddRec tiny fuel A B = .ok v → v.dims = size (.add A B)) ∧
    (∀ A B v, collapseSub tiny fuel A B = .ok v → v.dims = size (.sub A B)) ∧
    (∀ c v, collapseMul tiny fuel c = .ok v → v.dims = sizeAll c) := by
  induction fuel with
  | zero =>
      exact ⟨by simp [Collapse.collapse], by simp [collapseTr], by simp [collapseAdd],
        by simp [collapseAddRec], by simp [collapseSub], by simp [collapseMul]⟩
  | succ fuel ih =>
      obtain ⟨ihC, ihT, ihA, ihR, ihS, ihM⟩ := ih
      refine ⟨?_, ?_, ?_, ?_, ?_, ?_⟩
      · intro e v h
        cases e with
        | num c => simp only [Collapse.collapse, Except.ok.injEq] at h; subst h; simp [size, Val.dims]
        | mat M => simp only [Collapse.collapse, Except.ok.injEq] at h; subst h; simp [size, Val.dims]
        | op r =>
            simp only [Collapse.collapse] at h
            cases r with
            | ok M => simp only [Except.ok.injEq] at h; subst h; simp [size, Val.dims]
            | error e => simp at h
        | mul c => simp only [Collapse.collapse] at h; rw [ihM c v h, size]
        | add A B => simp only [Collapse.collapse] at h; exact ihA A B v h
        | sub A B => simp only [Collapse.collapse] at h; exact ihS A B v h
        | tr A => simp only [Collapse.collapse] at h; exact ihT A v h
      · intro A v h
        simp only [collapseTr] at h
        split at h
        · cases h; simp [size, Val.dims, Mat.tr]
        · split at h <;> cases h
      · intro A B v h
        simp only [collapseAdd] at h
        split at h
        · split at h
          · cases h; simp [size, Val.dims]
          · exact ihR _ _ v h
        · split at h
          · cases h; simp [size, Val.dims]
          · exact ihR _ _ v h
        · rw [(matAxpy_eqv h).2.2.1]; simp [size]
        · exact ihR _ _ v h
      · intro A B v h
        simp only [collapseAddRec] at h
        obtain ⟨a, ha, h⟩ := py_bind_eq_ok.1 h
        obtain ⟨b, hb, h⟩ := py_bind_eq_ok.1 h
        have : collapseAdd tiny fuel a.expr b.expr = .ok v := by
          split at h
          · cases h
          · exact h
        rw [ihA _ _ v this, size, size, size_val, size_val, ihC A a ha, ihC B b hb]
      · intro A B v h
        simp only [collapseSub] at h
        split at h
        · rw [(matAxpy_eqv h).2.2.1]; simp [size]
        · obtain ⟨a, ha, h⟩ := py_bind_eq_ok.1 h
          obtain ⟨b, hb, h⟩ := py_bind_eq_ok.1 h
          have : collapseSub tiny fuel a.expr b.expr = .ok v := by
            split at h
            · cases h
            · exact h
          rw [ihS _ _ v this, size, size, size_val, size_val, ihC A a ha, ihC B b hb]
      · intro c v h
        unfold collapseMul at h
        split at h
        · rename_i heq; cases heq
        · cases h
        · rename_i fuel' A B heq
          cases heq
          split at h
          · unfold matMul at h
            split at h
            · cases h; simp [sizeAll, size, Val.dims, comb, Mat.mul]
            · cases h
          · cases h; simp [sizeAll, size, Val.dims, comb, Mat.scale]
          · cases h; simp [sizeAll, size, Val.dims, comb, Mat.scale]
          · obtain ⟨a, ha, h⟩ := py_bind_eq_ok.1 h
            obtain ⟨b, hb, h⟩ := py_bind_eq_ok.1 h
            rw [ihC _ v h, size_pyMul, size_val, size_val, ihC A a ha, ihC B b hb]
            simp [sizeAll, comb_none]
        · rename_i fuel' A rest _ heq
          cases heq
          obtain ⟨a, ha, h⟩ := py_bind_eq_ok.1 h
          obtain ⟨r, hr, h⟩ := py_bind_eq_ok.1 h
          obtain ⟨b, hb, h⟩ := py_bind_eq_ok.1 h
          have hrs : size r = sizeAll rest := by
            cases rest with
            | nil => simp [reduceMul] at hr
            | cons q qs =>
                simp only [reduceMul, Except.ok.injEq] at hr
                subst hr
                rw [size_foldl, sizeAll]
          have hpa := size_pyMul a.expr b.expr
          split at h
          · rename_i chain hch
            rw [hch, size] at hpa
            rw [ihM chain v h, hpa, size_val, size_val, ihC A a ha, ihC r b hb, hrs, sizeAll]
          · cases h

theorem comb_of {d d' r : Dims} (h : Dims.comb d d' = some r) : comb d d' = r := by
  rcases d with _ | ⟨m, k⟩ <;> rcases d' with _ | ⟨k', n⟩ <;> simp [Dims.comb, comb] at h ⊢
  · exact h
  · exact h
  · exact h
  · exact h.2

mutual
theorem size_of_hasDims : ∀ {e : Expr K} {d : Dims}, HasDims e d → size e = d
  | _, _, .num c => by simp [size]
  | _, _, .mat M => by simp [size]
  | _, _, .op M => by simp [size]
  | _, _, .trmat M => by simp [size]
  | _, _, .add h1 _ => by simp [size, size_of_hasDims h1]
  | _, _, .sub h1 _ => by simp [size, size_of_hasDims h1]
  | _, _, .mul h1 _ => by rw [size, sizeAll_of_chainDims h1]
theorem sizeAll_of_chainDims : ∀ {es : List (Expr K)} {d : Dims}, ChainDims es d → sizeAll es = d
  | _, _, .single h => by simp [sizeAll, size_of_hasDims h, comb_none]
  | _, _, .cons h1 h2 h3 => by rw [sizeAll, size_of_hasDims h1, sizeAll_of_chainDims h2, comb_of h3]
end

end Verif.CollapseIter
