import Verif.Lemmas.Nest
import Mathlib.Tactic.NormNum
/-!
# C68: nested matrices and field split preconditioners
-/
namespace Verif.Nest
open Verif Verif.BlockOps

section
variable {p q : Nat} {rows : Fin p → Nat} {cols : Fin q → Nat}

/-- C68.  The nested matrix acts like the block matrix up to the tolerance for each block. -/
theorem nest_close {tol : ℝ} (ht : 0 ≤ tol) {A : ∀ i j, Block (rows i) (cols j)} (h : Plain A) :
    ∃ N, nest tol A = some N ∧ ∀ (x : ∀ j, Fin (cols j) → ℝ) i k,
      |nestApply N x i k - blockApply A x i k| ≤ ∑ j, tol * Real.sqrt (∑ l, x j l ^ 2) := by
  refine ⟨_, nest_some h, fun x i k => ?_⟩
  unfold nestApply blockApply
  rw [Finset.sum_apply, ← Finset.sum_sub_distrib]
  exact (Finset.abs_sum_le_sum_abs _ _).trans (Finset.sum_le_sum (fun j _ => term_close ht (decide (i.val = j.val)) (h i j) (x j) k))

/-- C68.  It is the same if no block outside of the diagonal is smaller than the tolerance without being zero. -/
theorem nest_exact_partial {tol : ℝ} {A : ∀ i j, Block (rows i) (cols j)} (h : Plain A)
    (hn : ∀ i j M, A i j = .mat M → i.val = j.val ∨ M = 0 ∨ tol ≤ frobenius M) :
    ∃ N, nest tol A = some N ∧ ∀ x, nestApply N x = blockApply A x := by
  refine ⟨_, nest_some h, fun x => ?_⟩
  funext i k
  unfold nestApply blockApply
  rw [Finset.sum_apply]
  exact Finset.sum_congr rfl (fun j _ => term_exact (tol := tol) (decide (i.val = j.val)) (h i j) (fun M e => by
    rcases hn i j M e with h | h
    · exact Or.inl (decide_eq_true h)
    · exact Or.inr h) (x j) k)

/-- C68.  Diagonal blocks are kept, however small. -/
theorem nest_diagonal {tol : ℝ} {A : ∀ i j, Block (rows i) (cols j)} {N} (h : nest tol A = some N) {i j} (hij : i.val = j.val) {M}
    (hM : A i j = .mat M) : N i j = some M := by
  unfold nest at h
  split at h
  · cases h
  · injection h with h
    subst h
    simp [hM, nestBlock, hij]

/-- C68 is false of numbers: blocks which are numbers become zero, on the diagonal as well. -/
theorem nest_number_wrong : ∃ A : Fin 1 → Fin 1 → Block 1 1, ∃ N, nest (rows := fun _ => 1) (cols := fun _ => 1) (1 / 10 ^ 15) A = some N ∧
    ∃ x, nestApply N x 0 0 = 0 ∧ blockApply (rows := fun _ => 1) (cols := fun _ => 1) A x 0 0 = 1 := by
  refine ⟨fun _ _ => .num 1, fun _ _ => none, ?_, fun _ _ => 1, ?_, ?_⟩
  · unfold nest
    rw [if_neg (by simp [Block.isPre])]
    rfl
  · simp [nestApply, optApply]
  · simp [blockApply, blockAct]

/-- C68 is false of preconditioners: nothing is returned, without an error. -/
theorem nest_precond_none {tol : ℝ} {A : ∀ i j, Block (rows i) (cols j)} (h : ∃ i j, A i j = .pre) : nest tol A = none := by
  unfold nest
  rw [if_pos]
  obtain ⟨i, j, e⟩ := h
  exact ⟨i, j, by rw [e]; rfl⟩

/-- C68.  Vectors are nested block by block; numbers are refused. -/
theorem nest_vec (b : List (Option (List ℝ))) : nestVec b = (match b.mapM id with
    | some l => .ok l
    | none => .error .valueError) := by
  unfold nestVec
  induction b with
  | nil => rfl
  | cons x b ih =>
    unfold pyMap
    rw [ih]
    cases x with
    | none => rfl
    | some v =>
      rw [List.mapM_cons]
      cases h : b.mapM id <;> rfl

end

section
variable {M : Type}

/-- C68.  For supported blocks the settings made by `pc_mat` act like the block. -/
theorem pc_mat_action {V : Type} [AddMonoid V] {S : Solvers M V} (hS : S.Agree) (size : M → Nat) {b : PcBlock M} (h : Supported b) :
    ∃ s A f, pcMat size b = .ok (s, A) ∧ s.action S A = some f ∧ b.action S = some f := by
  have hl : ∀ k, k ≠ Kind.other → ∃ t, leaf k = .ok t ∧ ∀ A, S.petsc t.type t.solver A = S.cbc k A := by
    intro k hk
    cases k
    · exact ⟨_, rfl, hS.lu⟩
    · exact ⟨_, rfl, hS.superlu⟩
    · exact ⟨_, rfl, hS.amg⟩
    · exact ⟨_, rfl, hS.gamg⟩
    · exact absurd rfl hk
  match b, h with
  | .pre k A, h =>
      obtain ⟨t, h1, h2⟩ := hl k h
      refine ⟨.simple t, .given A, S.cbc k A, ?_, ?_, rfl⟩
      · simp only [pcMat, h1]
        rfl
      · simp [Setting.action, h2]
  | .add (.pre k A) (.pre l B), h =>
      obtain ⟨t, h1, h2⟩ := hl k h.1
      obtain ⟨u, h3, h4⟩ := hl l h.2
      refine ⟨.composite [(t, A), (u, B)], .identity (size B), fun v => S.cbc k A v + S.cbc l B v, ?_, ?_, rfl⟩
      · simp only [pcMat, pcSum, h1, h3]
        rfl
      · simp [Setting.action, h2, h4]

/-- C68.  Other blocks, such as sums of three, are refused. -/
theorem pc_mat_refused (size : M → Nat) {b : PcBlock M} (h : ¬ Supported b) : ∃ e, pcMat size b = .error e := by
  cases hb : pcMat size b with
  | error e => exact ⟨e, rfl⟩
  | ok s => exact absurd (pcMat_supported size hb) h

/-- C68.  A diagonal preconditioner without regrouping: field `i` has the indices of block `i` and the settings of block `i`. -/
theorem pc_nest_plain (size : M → Nat) (union : List Nat → List Nat → List Nat) {isets : List (List Nat)} {blocks : List (List (PcBlock M))}
    (h1 : isets.length ≠ 1) (hs : Square isets.length blocks) (hd : Diagonal blocks)
    (hb : ∀ (i : Nat) r b, blocks[i]? = some r → r[i]? = some b → Supported b) :
    ∃ F, pcNest size union isets isets (.mat blocks) = .ok F ∧ F.length = isets.length ∧
      ∀ (i : Nat) s r b, isets[i]? = some s → blocks[i]? = some r → r[i]? = some b →
      ∃ f, F[i]? = some f ∧ f.indices = s ∧ pcMat size b = .ok (f.setting, f.operator) := by
  obtain ⟨F, hF, h2⟩ := split_ok size hs hd hb
  refine ⟨F, ?_, h2⟩
  unfold pcNest
  simp only [decide_true, pyAssert_true, py_bind_ok, if_neg h1, fields]
  exact hF

/-- C68.  With regrouping by offsets which `ReductionOperator` accepts and which do not start with 0, field `i` has the indices of
    the blocks in its group and the settings of block `i`; every block of indices belongs to exactly one field. -/
theorem pc_nest_grouped (size : M → Nat) {union : List Nat → List Nat → List Nat} (hu : Union union) {isets : List (List Nat)}
    {offsets : List Nat} {blocks : List (List (PcBlock M))} (h1 : isets.length ≠ 1) (ho : checkOffsets offsets isets.length = .ok ())
    (h0 : offsets.head? ≠ some 0) (hs : Square offsets.length blocks) (hd : Diagonal blocks)
    (hb : ∀ (i : Nat) r b, blocks[i]? = some r → r[i]? = some b → Supported b) :
    ∃ F, pcNest size union isets isets (.mul true offsets blocks) = .ok F ∧ F.length = offsets.length ∧
      (∀ (i : Nat) (fl : Nat × Nat) r b, (offsetPairs 0 offsets)[i]? = some fl → blocks[i]? = some r → r[i]? = some b →
        ∃ f, F[i]? = some f ∧ (∀ a, a ∈ f.indices ↔ ∃ k, fl.1 ≤ k ∧ k < fl.2 ∧ ∃ s, isets[k]? = some s ∧ a ∈ s) ∧
          pcMat size b = .ok (f.setting, f.operator)) ∧
      ∀ k, k < isets.length → ∃! i : Nat, ∃ fl : Nat × Nat, (offsetPairs 0 offsets)[i]? = some fl ∧ fl.1 ≤ k ∧ k < fl.2 := by
  obtain ⟨hlast, hinc⟩ := checkOffsets_ok ho
  have hpos : ∀ l ∈ offsets.head?, 0 < l := by
    intro l hl
    rcases Nat.eq_zero_or_pos l with rfl | h
    · exact absurd hl h0
    · exact h
  have hlt := offsetPairs_lt offsets 0 hinc hpos
  have hle := offsetPairs_le offsets 0 hinc _ hlast
  obtain ⟨g, hg, -⟩ := CenterVec.pyMap_exists (R := fun _ _ => True) (f := group union isets) (l := offsetPairs 0 offsets) (fun fl hfl => by
    obtain ⟨r, hr, -⟩ := group_ok hu (hlt fl hfl) (hle fl hfl)
    exact ⟨r, hr, trivial⟩)
  have h2 := pyMap_eq_ok.1 hg
  have hlen : g.length = offsets.length := by rw [← h2.length_eq, offsetPairs_length]
  obtain ⟨F, hF, hFl, hFi⟩ := split_ok size (g := g) (by rw [hlen]; exact hs) hd hb
  refine ⟨F, ?_, by rw [hFl, hlen], ?_, ?_⟩
  · unfold pcNest
    simp only [decide_true, pyAssert_true, py_bind_ok, if_neg h1, fields, hg]
    exact hF
  · intro i fl r b hi hr hrb
    have hi1 := (List.getElem?_eq_some_iff.1 hi).1
    have hi2 : i < g.length := by rw [← h2.length_eq]; exact hi1
    obtain ⟨f, hf1, hf2, hf3⟩ := hFi i g[i] r b (List.getElem?_eq_getElem hi2) hr hrb
    refine ⟨f, hf1, ?_, hf3⟩
    have h3 := List.Forall₂.get h2 hi1 hi2
    have hm := List.mem_of_getElem? hi
    obtain ⟨r', hr', hk⟩ := group_ok hu (hlt fl hm) (hle fl hm)
    rw [List.get_eq_getElem, List.get_eq_getElem, (List.getElem?_eq_some_iff.1 hi).2] at h3
    rw [h3] at hr'
    injection hr' with hr'
    rw [hf2, hr']
    exact hk
  · intro k hk
    exact offsetPairs_unique offsets 0 hinc hpos _ hlast k (Nat.zero_le _) hk

/-- C68.  Preconditioners which are not diagonal are refused. -/
theorem pc_nest_offdiagonal (size : M → Nat) (union : List Nat → List Nat → List Nat) {isets jsets : List (List Nat)}
    {blocks : List (List (PcBlock M))} (h1 : isets.length ≠ 1) (h : ¬ Diagonal blocks) :
    pcNest size union isets jsets (.mat blocks) = .error .assertion := by
  unfold pcNest
  simp only [if_neg h1, fields, py_bind_ok, split]
  have : isDiagonal blocks = false := by
    rw [← Bool.not_eq_true, isDiagonal_iff]
    exact h
  rw [this]
  cases decide (isets.length = jsets.length) <;> cases decide (isets = jsets) <;>
    cases (decide (blocks.length = isets.length) && blocks.all (fun r => decide (r.length = isets.length))) <;> rfl

/-- C68.  As are preconditioners with another number of blocks than fields. -/
theorem pc_nest_shape (size : M → Nat) (union : List Nat → List Nat → List Nat) {isets jsets : List (List Nat)}
    {blocks : List (List (PcBlock M))} (h1 : isets.length ≠ 1) (h : ¬ Square isets.length blocks) :
    pcNest size union isets jsets (.mat blocks) = .error .assertion := by
  unfold pcNest
  simp only [if_neg h1, fields, py_bind_ok, split]
  have : (decide (blocks.length = isets.length) && blocks.all (fun r => decide (r.length = isets.length))) = false := by
    rw [← Bool.not_eq_true, Bool.and_eq_true, decide_eq_true_eq, List.all_eq_true]
    rintro ⟨h2, h3⟩
    exact h ⟨h2, fun r hr => of_decide_eq_true (h3 r hr)⟩
  rw [this]
  cases decide (isets.length = jsets.length) <;> cases decide (isets = jsets) <;> rfl

/-- C68.  As are matrices whose rows and columns are not split in the same way, and products `R.T*B*S` with `S` other than `R`. -/
theorem pc_nest_different (size : M → Nat) (union : List Nat → List Nat → List Nat) {isets jsets : List (List Nat)} (pc : BlockPc M)
    (h : isets ≠ jsets) : pcNest size union isets jsets pc = .error .assertion := by
  unfold pcNest
  rw [decide_eq_false h]
  cases decide (isets.length = jsets.length) <;> rfl

theorem pc_nest_regrouped (size : M → Nat) (union : List Nat → List Nat → List Nat) {isets : List (List Nat)} (offsets : List Nat)
    (blocks : List (List (PcBlock M))) (h1 : isets.length ≠ 1) :
    pcNest size union isets isets (.mul false offsets blocks) = .error .assertion := by
  unfold pcNest
  simp [if_neg h1, fields]

/-- C68 is false of offsets which start with 0: `ReductionOperator` accepts them, the first two fields overlap. -/
theorem pc_nest_overlap : checkOffsets [0, 2] 2 = .ok () ∧
    ∃ F : List (Field Unit), pcNest (fun _ => 1) (fun s t => s ++ t) [[0], [1]] [[0], [1]]
      (.mul true [0, 2] [[.pre .LU (), .number 0], [.number 0, .pre .LU ()]]) = .ok F ∧
      F.map Field.indices = [[0], [0, 1]] := ⟨rfl, _, rfl, rfl⟩

/-- C68 is false of one block in a regrouping: it is refused. -/
theorem pc_nest_single_refused (size : M → Nat) (union : List Nat → List Nat → List Nat) (s : List Nat) (same : Bool) (offsets : List Nat)
    (blocks : List (List (PcBlock M))) : pcNest size union [s] [s] (.mul same offsets blocks) = .error .typeError := by
  unfold pcNest
  simp [pyAssert, single]

/-! ## The hypotheses can be met -/

example : ∃ F : List (Field Nat), pcNest id (fun s t => s ++ t) [[0, 1], [2], [3, 4]] [[0, 1], [2], [3, 4]]
    (.mul true [2, 3] [[.pre .AMG 3, .number 0], [.number 0, .add (.pre .LU 2) (.pre .AMG 2)]]) = .ok F ∧
    F.map Field.indices = [[0, 1, 2], [3, 4]] := ⟨_, rfl, rfl⟩

example : (⟨fun t s A v => if t = "lu" then (if s = none then A + v else A * v) else if t = "hypre" then A * A * v else A * v * v,
    fun k A v => match k with
      | .LU => A + v
      | .SUPERLU_LU => A * v
      | .AMG => A * A * v
      | .Elasticity => A * v * v
      | .other => v⟩ : Solvers ℕ ℕ).Agree := ⟨fun _ => rfl, fun _ => rfl, fun _ => rfl, fun _ => rfl⟩

example : checkOffsets [2, 3] 3 = .ok () ∧ Union (fun s t => s ++ t) := ⟨rfl, fun _ _ _ => List.mem_append⟩

example : Plain (rows := fun _ : Fin 1 => 2) (cols := fun _ : Fin 1 => 2) (fun _ _ => .mat 1) := fun _ _ => Or.inr ⟨_, rfl⟩

end
end Verif.Nest
