import Verif.Lemmas.L20
import Mathlib.Tactic.IntervalCases
import Mathlib.Tactic.NormNum
import Mathlib.Analysis.Matrix.Spectrum
import Mathlib.LinearAlgebra.Dimension.Finite
import Mathlib.LinearAlgebra.FiniteDimensional.Lemmas
/-!
# C18, C19: L20 operators
-/
namespace Verif.L20
open Verif Matrix

variable {n : Nat}

/-- **C18** With an orthonormal basis the projector is idempotent, kills the basis, maps to its
orthogonal complement and is selfadjoint in the inner product of `M`. -/
theorem projector_projects_partial (M : Matrix (Fin n) (Fin n) ℝ) (hM : M.IsSymm) (zs : List (Vec n)) (hz : zs ≠ [])
    (ho : MOrthonormal M zs) :
    ∃ P : Vec n → Vec n, (∀ x, (Projector.of zs M).matvec x = .ok (P x)) ∧
      (∀ x, P (P x) = P x) ∧ (∀ z ∈ zs, P z = 0) ∧ (∀ x, ∀ z ∈ zs, ip M z (P x) = 0) ∧
      (∀ x, x - P x ∈ spanOf zs) ∧ (∀ x y, ip M (P x) y = ip M x (P y)) := by
  have hon := on_of ho
  have horth : ∀ x, ∀ z ∈ zs, ip M z (x - part M zs x) = 0 := by
    intro x z hz
    rw [ip_sub_right, ip_basis_part hM hon x z hz, sub_self]
  refine ⟨fun x => x - part M zs x, matvec_ok M hM zs hz, ?_, ?_, horth, ?_, ?_⟩
  · intro x
    simp only
    rw [part_zero_of_orth (horth x), sub_zero]
  · intro z hz
    have key : ∀ (l : List (Vec n)), ON M l → z ∈ l → part M l z = z := by
      intro l
      induction l with
      | nil => simp
      | cons a l ih =>
          intro hl hm
          have hh := List.pairwise_cons.mp hl.orth
          have e : part M (a :: l) z = ip M a z • a + part M l z := by simp [part]
          rcases List.mem_cons.mp hm with rfl | hm
          · rw [e, hl.unit z (by simp), one_smul, part_zero_of_orth, add_zero]
            intro b hb
            rw [ip_comm hM]; exact hh.1 b hb
          · rw [e, hh.1 z hm, zero_smul, zero_add, ih ⟨fun b hb => hl.unit b (by simp [hb]), hh.2⟩ hm]
    simp only
    rw [key zs hon hz, sub_self]
  · intro x
    simp only [sub_sub_cancel]
    have key : ∀ (l : List (Vec n)), (∀ b ∈ l, b ∈ zs) → part M l x ∈ spanOf zs := by
      intro l
      induction l with
      | nil => intro _; simp [part]
      | cons a l ih =>
          intro hl
          have e : part M (a :: l) x = ip M a x • a + part M l x := by simp [part]
          rw [e]
          exact Submodule.add_mem _ (Submodule.smul_mem _ _ (Submodule.subset_span (hl a (by simp))))
            (ih (fun b hb => hl b (by simp [hb])))
    exact key zs (fun b hb => hb)
  · intro x y
    simp only
    rw [ip_sub_left, ip_sub_right, ip_part_symm hM]

/-- **C18** `<v, L20*u> = (P*u, P*v)`. -/
theorem l20_inner_product (M : Matrix (Fin n) (Fin n) ℝ) (hM : M.IsSymm) (zs : List (Vec n)) (hz : zs ≠ [])
    (ho : MOrthonormal M zs) :
    ∃ L P : Vec n → Vec n, (∀ x, l20 (Projector.of zs M) x = .ok (L x)) ∧
      (∀ x, (Projector.of zs M).matvec x = .ok (P x)) ∧ ∀ u v, v ⬝ᵥ L u = ip M (P u) (P v) := by
  obtain ⟨P, h1, h2, _, _, _, h6⟩ := projector_projects_partial M hM zs hz ho
  refine ⟨fun x => M *ᵥ P x, P, ?_, h1, ?_⟩
  · intro x
    rw [l20, h1 x, py_bind_ok]
    rfl
  · intro u v
    have : v ⬝ᵥ (M *ᵥ P u) = ip M v (P u) := rfl
    rw [this, ← h2 u, ← h6 v (P u), ip_comm hM, h2]

/-- **C18** The explicit matrices act as the operators. -/
theorem l20_collapse (M : Matrix (Fin n) (Fin n) ℝ) (hM : M.IsSymm) (zs : List (Vec n)) (hz : zs ≠ []) (x : Vec n) :
    (Projector.of zs M).matvec x = .ok ((Projector.of zs M).collapse *ᵥ x) ∧
      l20 (Projector.of zs M) x = .ok (l20Collapse (Projector.of zs M) *ᵥ x) := by
  have e : (Projector.of zs M).collapse *ᵥ x = x - part M zs x := by
    funext i
    have hc : ∀ j, (Projector.of zs M).collapse i j =
        (1 : Matrix (Fin n) (Fin n) ℝ) i j - (zs.map (fun z => z i * (M *ᵥ z) j)).sum := by
      intro j
      simp only [Projector.collapse, Projector.of]
      congr 2
      induction zs with
      | nil => rfl
      | cons z zs ih =>
          by_cases hzs : zs = []
          · subst hzs; rfl
          · simp [ih hzs]
    simp only [mulVec, dotProduct, hc, sub_mul, Finset.sum_sub_distrib, Pi.sub_apply]
    congr 1
    · have := congrFun (one_mulVec x) i
      simpa [mulVec, dotProduct] using this
    · clear hc hz
      induction zs with
      | nil => simp [part]
      | cons z zs ih =>
          have e : part M (z :: zs) x = ip M z x • z + part M zs x := by simp [part]
          rw [e, Pi.add_apply, ← ih]
          simp only [List.map_cons, List.sum_cons, add_mul, Finset.sum_add_distrib, Pi.smul_apply, smul_eq_mul]
          congr 1
          rw [ip_comm hM, ip, dotProduct, Finset.sum_mul]
          exact Finset.sum_congr rfl (fun j _ => by simp only [mulVec, dotProduct]; ring)
  have e2 := matvec_ok M hM zs hz x
  refine ⟨by rw [e, e2], ?_⟩
  have : (Projector.of zs M).M = M := rfl
  rw [l20, e2, py_bind_ok, l20Collapse, ← mulVec_mulVec, e]

/-- **C18** If `orthonormalize` returns, and `np.linalg.eig` returns normalised eigenvectors, its result is
orthonormal and spans the given vectors. -/
theorem orthonormalize_orthonormal (eig : ∀ k, Matrix (Fin k) (Fin k) ℝ → EigPair k) (rnd : ℝ → ℝ)
    (he : EigSpec eig) (M : Matrix (Fin n) (Fin n) ℝ) (hM : M.IsSymm) (zs bs : List (Vec n))
    (h : orthonormalize eig rnd zs M = .ok bs) : MOrthonormal M bs ∧ spanOf bs = spanOf zs := by
  simp only [orthonormalize] at h
  split at h
  swap
  · cases h
  rename_i hpos
  split at h
  swap
  · cases h
  rename_i hinj
  have hb := (Except.ok.inj h).symm
  set r := eig zs.length (gram M zs) with hr
  have hsym := gram_symm M zs
  have hev := fun j => he zs.length (gram M zs) hsym j
  rw [← hr] at hev
  -- columns
  have horth : ∀ j l, (fun i => r.vecs i j) ⬝ᵥ (fun i => r.vecs i l) = if j = l then 1 else 0 := by
    intro j l
    by_cases hjl : j = l
    · subst hjl; rw [if_pos rfl]; exact (hev j).2
    · rw [if_neg hjl]
      refine eigen_orth hsym (hev j).1 (hev l).1 ?_
      intro heq
      exact hjl (hinj (by simp only; rw [heq]))
  have hlen : bs.length = zs.length := by rw [hb]; simp
  have hget : ∀ i (hi : i < bs.length), bs[i] =
      (1 / Real.sqrt (r.vals ⟨i, hlen ▸ hi⟩)) • ∑ q, r.vecs q ⟨i, hlen ▸ hi⟩ • zs[q] := by
    intro i hi
    simp only [hb, List.getElem_map, List.getElem_finRange]
    rfl
  constructor
  · intro i j hi hj
    rw [hget i hi, hget j hj, ip_smul_left, ip_smul_right, ip_combination hM]
    set a : Fin zs.length := ⟨i, hlen ▸ hi⟩
    set b : Fin zs.length := ⟨j, hlen ▸ hj⟩
    have e1 := (hev b).1
    rw [e1, dotProduct_smul, horth a b, smul_eq_mul]
    by_cases hij : i = j
    · subst hij
      have hab : a = b := rfl
      rw [if_pos hab, if_pos rfl, ← hab]
      have hs : Real.sqrt (r.vals a) * Real.sqrt (r.vals a) = r.vals a := Real.mul_self_sqrt (hpos a).le
      have hne : Real.sqrt (r.vals a) ≠ 0 := (Real.sqrt_pos.mpr (hpos a)).ne'
      field_simp
      rw [sq, hs]
    · have hab : a ≠ b := fun h => hij (Fin.mk.inj_iff.mp h)
      rw [if_neg hab, if_neg hij]; ring
  · apply le_antisymm
    · refine Submodule.span_le.mpr ?_
      intro x hx
      obtain ⟨i, hi, rfl⟩ := List.getElem_of_mem (show x ∈ bs from hx)
      rw [hget i hi]
      refine Submodule.smul_mem _ _ (Submodule.sum_mem _ (fun q _ => Submodule.smul_mem _ _ (Submodule.subset_span ?_)))
      exact List.getElem_mem q.2
    · refine Submodule.span_le.mpr ?_
      intro x hx
      obtain ⟨i, hi, rfl⟩ := List.getElem_of_mem (show x ∈ zs from hx)
      -- the matrix of eigenvectors is orthogonal
      have h1 : r.vecsᵀ * r.vecs = 1 := by
        ext j l
        rw [mul_apply, one_apply, ← horth j l]
        rfl
      have h2 : r.vecs * r.vecsᵀ = 1 := mul_eq_one_comm.mp h1
      have key : zs[i] = ∑ k : Fin zs.length, (r.vecs ⟨i, hi⟩ k * Real.sqrt (r.vals k)) •
          ((1 / Real.sqrt (r.vals k)) • ∑ q, r.vecs q k • zs[q]) := by
        have e1 : ∀ k : Fin zs.length, (r.vecs ⟨i, hi⟩ k * Real.sqrt (r.vals k)) •
            ((1 / Real.sqrt (r.vals k)) • ∑ q, r.vecs q k • zs[q]) =
            ∑ q, (r.vecs ⟨i, hi⟩ k * r.vecs q k) • zs[q] := by
          intro k
          have hne : Real.sqrt (r.vals k) ≠ 0 := (Real.sqrt_pos.mpr (hpos k)).ne'
          rw [smul_smul, mul_assoc, mul_one_div_cancel hne, mul_one, Finset.smul_sum]
          exact Finset.sum_congr rfl (fun q _ => by rw [smul_smul])
        rw [Finset.sum_congr rfl (fun k _ => e1 k), Finset.sum_comm]
        have e2 : ∀ q : Fin zs.length, ∑ k, (r.vecs ⟨i, hi⟩ k * r.vecs q k) • zs[q] =
            (if (⟨i, hi⟩ : Fin zs.length) = q then (1 : ℝ) else 0) • zs[q] := by
          intro q
          rw [← Finset.sum_smul]
          congr 1
          have := congrFun (congrFun h2 ⟨i, hi⟩) q
          rw [mul_apply, one_apply] at this
          simpa using this
        rw [Finset.sum_congr rfl (fun q _ => e2 q)]
        simp
      show zs[i] ∈ spanOf bs
      rw [key]
      refine Submodule.sum_mem _ (fun k _ => Submodule.smul_mem _ _ (Submodule.subset_span ?_))
      show _ ∈ bs
      have := hget k (by rw [hlen]; exact k.2)
      rw [show (1 / Real.sqrt (r.vals k)) • ∑ q, r.vecs q k • zs[q] = bs[(k : Nat)]'(by rw [hlen]; exact k.2) from
        this.symm]
      exact List.getElem_mem _

/-- **C18** The constructor as a whole: whatever vectors it accepts, the operator is the orthogonal projection to their complement,
and `<v, L20*u> = (P*u, P*v)`. -/
theorem projector_constructed (eig : ∀ k, Matrix (Fin k) (Fin k) ℝ → EigPair k) (rnd : ℝ → ℝ)
    (he : EigSpec eig) (M : Matrix (Fin n) (Fin n) ℝ) (hM : M.IsSymm) (zs : List (Vec n)) (hz : zs ≠ []) {P : Projector n}
    (h : Projector.make eig rnd zs M = .ok P) :
    ∃ Q L : Vec n → Vec n, (∀ x, P.matvec x = .ok (Q x)) ∧ (∀ x, l20 P x = .ok (L x)) ∧
      (∀ x, Q (Q x) = Q x) ∧ (∀ z ∈ zs, Q z = 0) ∧ (∀ x, ∀ z ∈ zs, ip M z (Q x) = 0) ∧
      (∀ x, x - Q x ∈ spanOf zs) ∧ (∀ x y, ip M (Q x) y = ip M x (Q y)) ∧ ∀ u v, v ⬝ᵥ L u = ip M (Q u) (Q v) := by
  rcases hb : orthonormalize eig rnd zs M with e | bs
  · rw [Projector.make, hb, py_bind_error] at h; cases h
  rw [Projector.make, hb, py_bind_ok] at h
  injection h with h
  subst h
  obtain ⟨ho, hs⟩ := orthonormalize_orthonormal eig rnd he M hM zs bs hb
  have hne : bs ≠ [] := by
    rintro rfl
    unfold orthonormalize at hb
    dsimp only at hb
    split at hb
    · split at hb
      · injection hb with hb
        have := congrArg List.length hb
        simp at this
        exact hz this
      · cases hb
    · cases hb
  obtain ⟨Q, h1, h2, h3, h4, h5, h6⟩ := projector_projects_partial M hM bs hne ho
  obtain ⟨L, Q', l1, l2, l3⟩ := l20_inner_product M hM bs hne ho
  have hQ : Q' = Q := by
    funext x
    have := (l2 x).symm.trans (h1 x)
    injection this
  subst hQ
  refine ⟨Q', L, h1, l1, h2, ?_, ?_, fun x => hs ▸ h5 x, h6, l3⟩
  · intro z hzm
    have hspan : ∀ y ∈ spanOf bs, Q' y = 0 := by
      intro y hy
      obtain ⟨lin, hlin⟩ : ∃ T : Vec n →ₗ[ℝ] Vec n, ∀ x, T x = Q' x := by
        refine ⟨((Projector.of bs M).collapse).mulVecLin, fun x => ?_⟩
        have := (l20_collapse M hM bs hne x).1.symm.trans (h1 x)
        injection this
      rw [← hlin]
      have : spanOf bs ≤ LinearMap.ker lin := Submodule.span_le.2 (fun b hb => by
        rw [SetLike.mem_coe, LinearMap.mem_ker, hlin]; exact h3 b hb)
      exact LinearMap.mem_ker.1 (this hy)
    exact hspan z (hs ▸ Submodule.subset_span hzm)
  · intro x z hzm
    have hzs : z ∈ spanOf bs := hs ▸ Submodule.subset_span hzm
    refine Submodule.span_induction (p := fun z _ => ip M z (Q' x) = 0) (fun b hb => h4 x b hb) (by simp [ip]) ?_ ?_ hzs
    · intro a b _ _ ha hb
      simp only [ip, add_dotProduct] at ha hb ⊢
      rw [ha, hb, add_zero]
    · intro a b _ hb
      simp only [ip, smul_dotProduct] at hb ⊢
      rw [hb, smul_zero]

/-- **C18** The projector of no vectors, which is the identity, always raises `StopIteration`. -/
theorem projector_empty_raises (M : Matrix (Fin n) (Fin n) ℝ) (x : Vec n) :
    (Projector.of [] M).matvec x = .error .stopIteration ∧ l20 (Projector.of [] M) x = .error .stopIteration := ⟨rfl, rfl⟩

/-- **C18** Two or more vectors which are orthonormal already are always refused by the constructor: the eigenvalues of their
Gram matrix are equal. -/
theorem projector_orthonormal_refused (eig : ∀ k, Matrix (Fin k) (Fin k) ℝ → EigPair k) (rnd : ℝ → ℝ)
    (he : EigSpec eig) (M : Matrix (Fin n) (Fin n) ℝ) (zs : List (Vec n)) (ho : MOrthonormal M zs) (hz : 2 ≤ zs.length) :
    Projector.make eig rnd zs M = .error .assertion := by
  have hg : gram M zs = 1 := by
    ext i j
    simp only [gram, one_apply]
    have h1 := ho i j i.2 j.2
    have h2 := ho j i j.2 i.2
    simp only [ip, Fin.val_inj] at h1 h2
    split
    · exact h1
    · rw [Fin.getElem_fin, Fin.getElem_fin, h2]; simp only [eq_comm]
  have hv : ∀ j, (eig zs.length (gram M zs)).vals j = 1 := by
    intro j
    obtain ⟨h1, h2⟩ := he zs.length (gram M zs) (gram_symm M zs) j
    have h3 := congrArg (fun w => (fun i => (eig zs.length (gram M zs)).vecs i j) ⬝ᵥ w) h1
    simp only [dotProduct_smul, h2] at h3
    have key : ∀ w, gram M zs *ᵥ w = w := fun w => by rw [hg, one_mulVec]
    rw [key, h2] at h3
    simpa using h3.symm
  have hni : ¬ Function.Injective (fun i => rnd ((eig zs.length (gram M zs)).vals i)) := by
    intro h
    have := @h ⟨0, by omega⟩ ⟨1, by omega⟩ (by simp only [hv])
    simp at this
  have : orthonormalize eig rnd zs M = .error .assertion := by
    simp only [orthonormalize]
    rw [if_pos (fun i => by rw [hv]; exact one_pos), if_neg hni]
  rw [Projector.make, this, py_bind_error]

/-- **C18** Dependent vectors are refused by the constructor. -/
theorem projector_dependent_refused (eig : ∀ k, Matrix (Fin k) (Fin k) ℝ → EigPair k) (rnd : ℝ → ℝ)
    (he : EigSpec eig) (M : Matrix (Fin n) (Fin n) ℝ) (hM : M.IsSymm) (zs : List (Vec n))
    (hd : ¬ LinearIndependent ℝ (fun i : Fin zs.length => zs[i])) :
    Projector.make eig rnd zs M = .error .assertion := by
  cases h : orthonormalize eig rnd zs M with
  | error e =>
      rw [Projector.make, h, py_bind_error]
      simp only [orthonormalize] at h
      split at h
      · split at h
        · cases h
        · cases h; rfl
      · cases h; rfl
  | ok bs =>
      exfalso
      apply hd
      obtain ⟨h1, h2⟩ := orthonormalize_orthonormal eig rnd he M hM zs bs h
      have hlen : bs.length = zs.length := by
        simp only [orthonormalize] at h
        split at h
        · split at h
          · cases h; simp
          · cases h
        · cases h
      have hr : ∀ l : List (Vec n), Set.range (fun i : Fin l.length => l[i]) = {v | v ∈ l} := by
        intro l
        ext v
        simp only [Set.mem_range, Set.mem_ofPred_eq]
        constructor
        · rintro ⟨i, rfl⟩; exact List.getElem_mem _
        · intro hv
          obtain ⟨i, hi, rfl⟩ := List.getElem_of_mem hv
          exact ⟨⟨i, hi⟩, rfl⟩
      rw [linearIndependent_iff_card_eq_finrank_span, Set.finrank, hr]
      have h3 := linearIndependent_iff_card_eq_finrank_span.1 (linearIndependent_of_orthonormal h1)
      rw [Set.finrank, hr] at h3
      change _ = Module.finrank ℝ (spanOf zs)
      rw [← h2]
      simp only [Fintype.card_fin] at h3 ⊢
      rw [← hlen]
      exact h3

/-- **C18** Independent vectors are accepted for every inner product, provided that the eigenvalues of their Gram matrix differ
after rounding. -/
theorem orthonormalize_returns (eig : ∀ k, Matrix (Fin k) (Fin k) ℝ → EigPair k) (rnd : ℝ → ℝ)
    (he : EigSpec eig) (M : Matrix (Fin n) (Fin n) ℝ) (hM : M.IsSymm) (hpos : ∀ x : Vec n, x ≠ 0 → 0 < ip M x x)
    (zs : List (Vec n)) (hi : LinearIndependent ℝ (fun i : Fin zs.length => zs[i]))
    (hr : Function.Injective (fun i => rnd ((eig zs.length (gram M zs)).vals i))) :
    ∃ bs, orthonormalize eig rnd zs M = .ok bs := by
  have hv : ∀ j, 0 < (eig zs.length (gram M zs)).vals j := by
    intro j
    obtain ⟨h1, h2⟩ := he zs.length (gram M zs) (gram_symm M zs) j
    have h3 := congrArg (fun w => (fun i => (eig zs.length (gram M zs)).vecs i j) ⬝ᵥ w) h1
    simp only [dotProduct_smul, h2, smul_eq_mul, mul_one] at h3
    rw [← h3, ← ip_combination hM]
    refine hpos _ (fun h0 => ?_)
    have := Fintype.linearIndependent_iff.1 hi _ h0
    have hz : (fun i => (eig zs.length (gram M zs)).vecs i j) = 0 := funext this
    rw [hz] at h2
    simp at h2
  simp only [orthonormalize]
  rw [if_pos hv, if_pos hr]
  exact ⟨_, rfl⟩

/-- **C19** is false: with one nullspace vector the map always raises `ZeroDivisionError`. -/
theorem riesz_single_raises (M : Matrix (Fin n) (Fin n) ℝ) (hM : M.IsSymm) (z : Vec n) (iM : Vec n → Vec n) (x : Vec n) :
    riesz (Projector.of [z] M) iM x = .error .zeroDivision := by
  have := expand_ok M hM [z] (by simp) (iM x)
  simp only [riesz, Projector.of] at this ⊢
  rw [this]
  rfl

/-- **C19** is false: with more vectors the map gives back its argument, `riesz(L20(u)) = M*u`, for every `u` in
the orthogonal complement of the basis. -/
theorem riesz_returns_argument (M : Matrix (Fin n) (Fin n) ℝ) (hM : M.IsSymm) (zs : List (Vec n))
    (hz : 2 ≤ zs.length) (iM : Vec n → Vec n) (hi : ∀ y, iM (M *ᵥ y) = y) (u : Vec n)
    (hu : ∀ z ∈ zs, ip M z u = 0) :
    (do let x ← l20 (Projector.of zs M) u; riesz (Projector.of zs M) iM x) = .ok (M *ᵥ u) := by
  have hne : zs ≠ [] := by rintro rfl; simp at hz
  have h1 : l20 (Projector.of zs M) u = .ok (M *ᵥ u) := by
    rw [l20, matvec_ok M hM zs hne, py_bind_ok, part_zero_of_orth hu, sub_zero]
    rfl
  rw [h1, py_bind_ok, riesz]
  simp only [hi]
  have h2 := expand_ok M hM zs hne u
  rw [part_zero_of_orth hu] at h2
  rw [show (Projector.of zs M).primal.zip (Projector.of zs M).dual = zs.zip (zs.map (M *ᵥ ·)) from rfl, h2,
    py_bind_ok, if_neg]
  · simp
  · have : (Projector.of zs M).primal.length = zs.length := rfl
    rw [this]; omega

/-! A basis of two vectors in dimension three, orthonormal for the matrix `diag(1, 4, 2)`; the third unit vector
is in its complement and is not mapped to itself. -/
section example_
def M3 : Matrix (Fin 3) (Fin 3) ℝ := Matrix.diagonal ![1, 4, 2]
noncomputable def z3 : List (Vec 3) := [![1, 0, 0], ![0, 1 / 2, 0]]

example : M3.IsSymm ∧ MOrthonormal M3 z3 ∧ 2 ≤ z3.length ∧ (∀ z ∈ z3, ip M3 z ![0, 0, 1] = 0) ∧
    M3 *ᵥ ![0, 0, 1] ≠ ![0, 0, 1] := by
  refine ⟨by simp [M3, Matrix.IsSymm], ?_, by simp [z3], ?_, ?_⟩
  · intro i j hi hj
    simp only [z3, List.length_cons, List.length_nil] at hi hj
    interval_cases i <;> interval_cases j <;>
      simp [z3, ip, M3, dotProduct, mulVec_diagonal, Fin.sum_univ_three]; norm_num
  · intro z hz
    simp only [z3, List.mem_cons, List.not_mem_nil, or_false] at hz
    rcases hz with rfl | rfl <;> simp [ip, M3, dotProduct, mulVec_diagonal, Fin.sum_univ_three]
  · intro h
    have := congrFun h 2
    simp [M3, mulVec_diagonal] at this

/-- The hypotheses of `projector_dependent_refused` and of `orthonormalize_returns` are met. -/
example : ¬ LinearIndependent ℝ (fun i : Fin [(0 : Vec 3)].length => [(0 : Vec 3)][i]) ∧
    LinearIndependent ℝ (fun i : Fin [(![0, 0, 3] : Vec 3)].length => [(![0, 0, 3] : Vec 3)][i]) ∧
    (∀ x : Vec 3, x ≠ 0 → 0 < ip M3 x x) ∧ ∀ f : Fin 1 → ℝ, Function.Injective f := by
  refine ⟨fun h => h.ne_zero 0 rfl, ?_, ?_, fun f a b _ => Subsingleton.elim a b⟩
  · rw [Fintype.linearIndependent_iff]
    intro g hg i
    have h2 := congrFun hg 2
    obtain rfl : i = 0 := Subsingleton.elim (α := Fin 1) _ _
    simpa using h2
  · intro x hx
    have e : ip M3 x x = x 0 ^ 2 + 4 * x 1 ^ 2 + 2 * x 2 ^ 2 := by
      simp [ip, M3, dotProduct, mulVec_diagonal, Fin.sum_univ_three]; ring
    rw [e]
    by_contra hle
    have h0 : x 0 = 0 := by nlinarith [sq_nonneg (x 0), sq_nonneg (x 1), sq_nonneg (x 2)]
    have h1 : x 1 = 0 := by nlinarith [sq_nonneg (x 0), sq_nonneg (x 1), sq_nonneg (x 2)]
    have h2 : x 2 = 0 := by nlinarith [sq_nonneg (x 0), sq_nonneg (x 1), sq_nonneg (x 2)]
    apply hx
    funext i
    fin_cases i <;> assumption

/-- The assumption on `np.linalg.eig` can be met. -/
theorem exists_eigSpec : ∃ eig, EigSpec eig := by
  classical
  have key : ∀ k (G : Matrix (Fin k) (Fin k) ℝ), ∃ r : EigPair k, G.IsSymm → ∀ j,
      G *ᵥ (fun i => r.vecs i j) = r.vals j • (fun i => r.vecs i j) ∧
      (fun i => r.vecs i j) ⬝ᵥ (fun i => r.vecs i j) = 1 := by
    intro k G
    by_cases hG : G.IsSymm
    · have hH : G.IsHermitian := by
        rw [Matrix.IsHermitian, conjTranspose_eq_transpose_of_trivial]; exact hG
      refine ⟨⟨hH.eigenvalues, fun i j => hH.eigenvectorBasis j i⟩, fun _ j => ⟨?_, ?_⟩⟩
      · exact hH.mulVec_eigenvectorBasis j
      · have h1 := hH.eigenvectorBasis.orthonormal.1 j
        have h2 := real_inner_self_eq_norm_sq (hH.eigenvectorBasis j)
        rw [h1, one_pow] at h2
        rw [PiLp.inner_apply] at h2
        exact h2
    · exact ⟨⟨0, 0⟩, fun h => absurd h hG⟩
  choose eig he using key
  exact ⟨eig, fun k G hG => he k G hG⟩

/-- A nonzero vector is orthonormalized. -/
theorem single_accepted (eig) (he : EigSpec eig) (rnd : ℝ → ℝ) : ∃ bs, orthonormalize eig rnd [![0, 0, 3]] M3 = .ok bs := by
  have h := he 1 (gram M3 [![0, 0, 3]]) (gram_symm _ _) 0
  have hp : ∀ i, 0 < (eig 1 (gram M3 [![0, 0, 3]])).vals i := by
    intro i
    obtain rfl : i = 0 := Subsingleton.elim _ _
    obtain ⟨h1, h2⟩ := h
    have h3 := congrArg (fun w => (fun i => (eig 1 (gram M3 [![0, 0, 3]])).vecs i 0) ⬝ᵥ w) h1
    simp only [dotProduct_smul, h2] at h3
    have h4 : gram M3 [![0, 0, 3]] 0 0 = 18 := by
      simp [gram, M3, dotProduct, mulVec_diagonal, Fin.sum_univ_three]; norm_num
    simp only [dotProduct, mulVec, Fin.sum_univ_one, h4, smul_eq_mul, mul_one] at h2 h3
    rw [← h3]
    nlinarith
  exact ⟨_, by rw [orthonormalize]; exact (if_pos hp).trans (if_pos (fun a b _ => Subsingleton.elim (α := Fin 1) a b))⟩

/-- The hypotheses of `projector_constructed` are met, by a vector which is not normalised. -/
example (eig) (he : EigSpec eig) (rnd : ℝ → ℝ) : ∃ (P : Projector 3) (Q : Vec 3 → Vec 3), Projector.make eig rnd [![0, 0, 3]] M3 = .ok P ∧
    (∀ x, P.matvec x = .ok (Q x)) ∧ Q ![0, 0, 3] = 0 := by
  obtain ⟨bs, h⟩ := single_accepted eig he rnd
  have hm : Projector.make eig rnd [![0, 0, 3]] M3 = .ok (Projector.of bs M3) := by rw [Projector.make, h, py_bind_ok]
  obtain ⟨Q, L, h1, -, -, h2, -⟩ := projector_constructed eig rnd he M3 (by simp [M3, Matrix.IsSymm]) _ (by simp) hm
  exact ⟨_, Q, hm, h1, h2 _ (by simp)⟩
end example_

end Verif.L20
