import Mathlib.LinearAlgebra.LinearIndependent.Defs
import Mathlib.LinearAlgebra.LinearIndependent.Lemmas
import Verif.Spec.L20
import Mathlib.LinearAlgebra.Matrix.NonsingularInverse
import Mathlib.Tactic.LinearCombination
/-! # Lemmas about L20 operators -/
namespace Verif.L20
open Verif Matrix

variable {n : Nat}

theorem ip_comm {M : Matrix (Fin n) (Fin n) ℝ} (hM : M.IsSymm) (u v : Vec n) : ip M u v = ip M v u := by
  rw [ip, ip, dotProduct_mulVec, ← mulVec_transpose, hM, dotProduct_comm]

theorem ip_add_right (M : Matrix (Fin n) (Fin n) ℝ) (u v w : Vec n) : ip M u (v + w) = ip M u v + ip M u w := by
  simp [ip, mulVec_add, dotProduct_add]

theorem ip_sub_right (M : Matrix (Fin n) (Fin n) ℝ) (u v w : Vec n) : ip M u (v - w) = ip M u v - ip M u w := by
  simp [ip, mulVec_sub, dotProduct_sub]

theorem ip_smul_right (M : Matrix (Fin n) (Fin n) ℝ) (u : Vec n) (a : ℝ) (v : Vec n) : ip M u (a • v) = a * ip M u v := by
  simp [ip, mulVec_smul]

theorem ip_add_left (M : Matrix (Fin n) (Fin n) ℝ) (u v w : Vec n) : ip M (u + v) w = ip M u w + ip M v w := by
  simp [ip, add_dotProduct]

theorem ip_sub_left (M : Matrix (Fin n) (Fin n) ℝ) (u v w : Vec n) : ip M (u - v) w = ip M u w - ip M v w := by
  simp [ip, sub_dotProduct]

theorem ip_smul_left (M : Matrix (Fin n) (Fin n) ℝ) (a : ℝ) (u v : Vec n) : ip M (a • u) v = a * ip M u v := by
  simp [ip, smul_dotProduct]

/-- The component of `x` in the span of the basis. -/
def part (M : Matrix (Fin n) (Fin n) ℝ) (zs : List (Vec n)) (x : Vec n) : Vec n :=
  (zs.map (fun z => ip M z x • z)).sum

theorem foldl_expand (M : Matrix (Fin n) (Fin n) ℝ) (hM : M.IsSymm) : ∀ (zs : List (Vec n)) (x y : Vec n),
    (zs.zip (zs.map (M *ᵥ ·))).foldl (fun y p => y + (p.2 ⬝ᵥ x) • p.1) y = y + part M zs x
  | [], x, y => by simp [part]
  | z :: zs, x, y => by
      simp only [List.map_cons, List.zip_cons_cons, List.foldl_cons]
      rw [foldl_expand M hM zs x]
      have : (M *ᵥ z) ⬝ᵥ x = ip M z x := by
        rw [dotProduct_comm]; exact ip_comm hM x z
      simp only [part, List.map_cons, List.sum_cons, this, add_assoc]

theorem expand_ok (M : Matrix (Fin n) (Fin n) ℝ) (hM : M.IsSymm) (zs : List (Vec n)) (hz : zs ≠ []) (x : Vec n) :
    expand (zs.zip (zs.map (M *ᵥ ·))) x = .ok (part M zs x) := by
  match zs, hz with
  | z :: zs, _ =>
    simp only [List.map_cons, List.zip_cons_cons, expand]
    rw [foldl_expand M hM zs x]
    have : (M *ᵥ z) ⬝ᵥ x = ip M z x := by
      rw [dotProduct_comm]; exact ip_comm hM x z
    simp [part, this]

theorem matvec_ok (M : Matrix (Fin n) (Fin n) ℝ) (hM : M.IsSymm) (zs : List (Vec n)) (hz : zs ≠ []) (x : Vec n) :
    (Projector.of zs M).matvec x = .ok (x - part M zs x) := by
  simp [Projector.matvec, Projector.of, expand_ok M hM zs hz]

/-- Orthonormality in the form used by inductions. -/
structure ON (M : Matrix (Fin n) (Fin n) ℝ) (B : List (Vec n)) : Prop where
  unit : ∀ b ∈ B, ip M b b = 1
  orth : B.Pairwise (fun a b => ip M a b = 0)

theorem on_of {M : Matrix (Fin n) (Fin n) ℝ} {B : List (Vec n)} (h : MOrthonormal M B) : ON M B := by
  refine ⟨?_, ?_⟩
  · intro b hb
    obtain ⟨i, hi, rfl⟩ := List.getElem_of_mem hb
    simpa using h i i hi hi
  · rw [List.pairwise_iff_getElem]
    intro i j hi hj hij
    rw [h i j hi hj, if_neg (by omega)]

theorem ip_part_right (M : Matrix (Fin n) (Fin n) ℝ) (u : Vec n) (zs : List (Vec n)) (x : Vec n) :
    ip M u (part M zs x) = (zs.map (fun z => ip M z x * ip M u z)).sum := by
  induction zs with
  | nil => simp [part, ip]
  | cons z zs ih =>
      have : part M (z :: zs) x = ip M z x • z + part M zs x := by simp [part]
      rw [this, ip_add_right, ip_smul_right, ih]; simp

/-- The part of `x` has the same components as `x`. -/
theorem ip_basis_part {M : Matrix (Fin n) (Fin n) ℝ} (hM : M.IsSymm) {zs : List (Vec n)} (h : ON M zs) (x : Vec n) :
    ∀ b ∈ zs, ip M b (part M zs x) = ip M b x := by
  induction zs with
  | nil => simp
  | cons z zs ih =>
      have hh := List.pairwise_cons.mp h.orth
      have ht : ON M zs := ⟨fun b hb => h.unit b (by simp [hb]), hh.2⟩
      have e : part M (z :: zs) x = ip M z x • z + part M zs x := by simp [part]
      intro b hb
      rw [e, ip_add_right, ip_smul_right]
      rcases List.mem_cons.mp hb with rfl | hb
      · rw [h.unit b (by simp), ip_part_right]
        have : (zs.map (fun z => ip M z x * ip M b z)).sum = 0 := by
          refine List.sum_eq_zero (fun y hy => ?_)
          obtain ⟨c, hc, rfl⟩ := List.mem_map.mp hy
          rw [hh.1 c hc, mul_zero]
        rw [this]; ring
      · rw [ih ht b hb, ip_comm hM b z, hh.1 b hb]; ring

theorem part_sub (M : Matrix (Fin n) (Fin n) ℝ) (zs : List (Vec n)) (x y : Vec n) :
    part M zs (x - y) = part M zs x - part M zs y := by
  induction zs with
  | nil => simp [part]
  | cons z zs ih =>
      simp only [part, List.map_cons, List.sum_cons] at ih ⊢
      rw [ih, ip_sub_right, sub_smul]; abel

theorem part_of_components {M : Matrix (Fin n) (Fin n) ℝ} {zs : List (Vec n)} {x y : Vec n}
    (h : ∀ b ∈ zs, ip M b x = ip M b y) : part M zs x = part M zs y := by
  rw [part, part]
  congr 1
  exact List.map_congr_left (fun b hb => by rw [h b hb])

theorem part_zero_of_orth {M : Matrix (Fin n) (Fin n) ℝ} {zs : List (Vec n)} {x : Vec n}
    (h : ∀ b ∈ zs, ip M b x = 0) : part M zs x = 0 := by
  rw [part]
  refine List.sum_eq_zero (fun y hy => ?_)
  obtain ⟨c, hc, rfl⟩ := List.mem_map.mp hy
  rw [h c hc, zero_smul]

theorem ip_part_symm {M : Matrix (Fin n) (Fin n) ℝ} (hM : M.IsSymm) (zs : List (Vec n)) (u v : Vec n) :
    ip M (part M zs u) v = ip M u (part M zs v) := by
  rw [ip_comm hM, ip_part_right, ip_part_right]
  congr 1
  refine List.map_congr_left (fun b _ => ?_)
  rw [ip_comm hM v b, ip_comm hM u b]; ring

theorem gram_symm (M : Matrix (Fin n) (Fin n) ℝ) (zs : List (Vec n)) : (gram M zs).IsSymm := by
  ext i j
  simp only [transpose_apply, gram]
  rcases lt_trichotomy i j with h | h | h
  · rw [if_neg (not_le.mpr h), if_pos h.le]
  · subst h; rfl
  · rw [if_pos h.le, if_neg (not_le.mpr h)]

theorem gram_eq {M : Matrix (Fin n) (Fin n) ℝ} (hM : M.IsSymm) (zs : List (Vec n)) (i j : Fin zs.length) :
    gram M zs i j = ip M zs[i] zs[j] := by
  simp only [gram]
  split
  · rfl
  · exact ip_comm hM _ _

theorem ip_sum_right (M : Matrix (Fin n) (Fin n) ℝ) {k : Nat} (u : Vec n) (c : Fin k → ℝ) (z : Fin k → Vec n) :
    ip M u (∑ i, c i • z i) = ∑ i, c i * ip M u (z i) := by
  have h0 : ip M u 0 = 0 := by simp [ip]
  have : ∀ s : Finset (Fin k), ip M u (∑ i ∈ s, c i • z i) = ∑ i ∈ s, c i * ip M u (z i) := by
    intro s
    induction s using Finset.induction_on with
    | empty => simp [h0]
    | insert a s ha ih => rw [Finset.sum_insert ha, Finset.sum_insert ha, ip_add_right, ip_smul_right, ih]
  exact this Finset.univ

theorem ip_sum_left {M : Matrix (Fin n) (Fin n) ℝ} (hM : M.IsSymm) {k : Nat} (u : Vec n) (c : Fin k → ℝ) (z : Fin k → Vec n) :
    ip M (∑ i, c i • z i) u = ∑ i, c i * ip M (z i) u := by
  rw [ip_comm hM, ip_sum_right]
  exact Finset.sum_congr rfl (fun i _ => by rw [ip_comm hM])

/-- The form of combinations is the form of the Gram matrix. -/
theorem ip_combination {M : Matrix (Fin n) (Fin n) ℝ} (hM : M.IsSymm) (zs : List (Vec n)) (a b : Fin zs.length → ℝ) :
    ip M (∑ i, a i • zs[i]) (∑ i, b i • zs[i]) = a ⬝ᵥ (gram M zs *ᵥ b) := by
  rw [ip_sum_left hM]
  simp only [dotProduct, mulVec]
  refine Finset.sum_congr rfl (fun i _ => ?_)
  congr 1
  rw [ip_sum_right]
  exact Finset.sum_congr rfl (fun j _ => by rw [gram_eq hM]; ring)

/-- Eigenvectors for different eigenvalues are orthogonal. -/
theorem eigen_orth {k : Nat} {G : Matrix (Fin k) (Fin k) ℝ} (hG : G.IsSymm) {a b : Fin k → ℝ} {la lb : ℝ}
    (ha : G *ᵥ a = la • a) (hb : G *ᵥ b = lb • b) (hne : la ≠ lb) : a ⬝ᵥ b = 0 := by
  have h1 : a ⬝ᵥ (G *ᵥ b) = lb * (a ⬝ᵥ b) := by rw [hb]; simp
  have h2 : a ⬝ᵥ (G *ᵥ b) = la * (a ⬝ᵥ b) := by
    rw [dotProduct_mulVec, ← mulVec_transpose, hG, ha]; simp
  have : (la - lb) * (a ⬝ᵥ b) = 0 := by linear_combination h1 - h2
  rcases mul_eq_zero.mp this with h | h
  · exact absurd (sub_eq_zero.mp h) hne
  · exact h

theorem linearIndependent_of_orthonormal {M : Matrix (Fin n) (Fin n) ℝ} {bs : List (Vec n)} (h : MOrthonormal M bs) :
    LinearIndependent ℝ (fun i : Fin bs.length => bs[i]) := by
  rw [Fintype.linearIndependent_iff]
  intro g hg j
  have h1 : ip M bs[j] (∑ i, g i • bs[i]) = g j := by
    have : ip M bs[j] (∑ i, g i • bs[i]) = ∑ i, g i * ip M bs[j] bs[i] := by
      simp only [ip, mulVec_sum, dotProduct_sum, mulVec_smul, dotProduct_smul, smul_eq_mul]
    rw [this, Finset.sum_eq_single j]
    · have := h j j j.2 j.2
      simp only [if_true] at this
      rw [Fin.getElem_fin, this, mul_one]
    · intro b _ hb
      have := h j b j.2 b.2
      rw [if_neg (fun e => hb (Fin.ext e.symm))] at this
      rw [Fin.getElem_fin, Fin.getElem_fin, this, mul_zero]
    · simp
  rw [← h1, hg]
  simp [ip]

end Verif.L20
