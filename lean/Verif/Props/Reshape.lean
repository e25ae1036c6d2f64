import Verif.Lemmas.Reshape
import Mathlib.Tactic.NormNum
import Mathlib.Tactic.FinCases
import Mathlib.Tactic.IntervalCases
import Mathlib.Algebra.Order.Field.Rat
/-!
# C69: grouped matrices, identities and matrices of rows
-/
namespace Verif.Reshape
open Verif Verif.BlockOps
variable {α V : Type}

/-! ### block_reshape -/

/-- C69.  Block `(k, l)` of the result has the blocks of the rows of group `k` and the columns of group `l`. -/
theorem reshape_entries {A : List (List α)} (hA : Square A) {offsets : List Nat} (ho : Offsets offsets A.length) :
    ∃ M, blockReshape A offsets = .ok M ∧ M.length = offsets.length ∧ (∀ row ∈ M, row.length = offsets.length) ∧
      ∀ k a b l c d, Group offsets k a b → Group offsets l c d → ∃ e, M[k]?.bind (·[l]?) = some e ∧
        ∀ i j, e.at i j = if i < b - a ∧ j < d - c then A[a + i]?.bind (·[c + j]?) else none := by
  obtain ⟨M, hM, hf⟩ := reshape_good hA ho
  refine ⟨M, hM, by rw [← hf.length_eq, pairs_length], ?_, ?_⟩
  · intro row hrow
    obtain ⟨r, -, h⟩ : ∃ r ∈ offsetPairs 0 offsets, List.Forall₂ (Good A r) (offsetPairs 0 offsets) row := by
      clear hM
      generalize h0 : offsetPairs 0 offsets = ps at hf ⊢
      suffices ∀ {qs M}, List.Forall₂ (fun r row => List.Forall₂ (Good A r) ps row) qs M → row ∈ M → ∃ r ∈ qs, List.Forall₂ (Good A r) ps row from
        this hf hrow
      intro qs M h hr
      induction h with
      | nil => simp at hr
      | cons h1 _ ih =>
        rcases List.mem_cons.1 hr with rfl | hr
        · exact ⟨_, by simp, h1⟩
        · obtain ⟨r, hr1, hr2⟩ := ih hr
          exact ⟨r, by simp [hr1], hr2⟩
    rw [← h.length_eq, pairs_length]
  · intro k a b l c d hk hl
    obtain ⟨row, e1, hrow⟩ := forall₂_get hf ((pairs_get _ _ _ _ _).2 hk)
    obtain ⟨e, e2, he⟩ := forall₂_get hrow ((pairs_get _ _ _ _ _).2 hl)
    exact ⟨e, by rw [e1]; exact e2, he.1⟩

/-- C69.  If all groups have one block, or all have several, the grouped matrix maps a grouped vector to the grouped product. -/
theorem reshape_action_partial [AddCommMonoid V] (act : α → V → V) {A : List (List α)} (hA : Square A) {offsets : List Nat}
    (ho : Offsets offsets A.length) (hg : (∀ k a b, Group offsets k a b → b = a + 1) ∨ (∀ k a b, Group offsets k a b → b ≠ a + 1))
    {x : List V} (hx : x.length = A.length) {y z : List (Part V)} (hy : Regrouped offsets x y) (hz : Regrouped offsets (apply act A x) z) :
    ∃ M, blockReshape A offsets = .ok M ∧ applyParts act M y = some z := by
  have hlz : (apply act A x).length = A.length := by simp [apply]
  rcases hg with h1 | h1
  · refine ⟨_, reshape_single hA ho h1, ?_⟩
    rw [regrouped_single (hx ▸ ho) h1 hy, regrouped_single (hlz ▸ ho) h1 hz]
    unfold applyParts
    rw [List.mapM_map, mapM_some (g := fun row => Part.one (rowApply act row x))]
    · simp [apply]
    · intro row hrow
      have hlen := hA row hrow
      have hpos : 0 < A.length := List.length_pos_of_mem hrow
      exact rowApplyParts_one act row x (by rintro rfl; simp at hlen; omega) (by omega)
  · refine ⟨_, reshape_many h1 ho, ?_⟩
    rw [regrouped_many (hx ▸ ho) h1 hy, regrouped_many (hlz ▸ ho) h1 hz]
    unfold applyParts
    rw [List.mapM_map, mapM_some (g := fun r => Part.many (slice (apply act A x) r))]
    intro r hr
    have hne : offsetPairs 0 offsets ≠ [] := List.ne_nil_of_mem hr
    refine (rowApplyParts_many act (slice A r) x _ hne).trans ?_
    congr 2
    have : slice (apply act A x) r = (slice A r).map (fun row => rowApply act row x) := by
      simp [slice, apply, List.map_take, List.map_drop]
    rw [this]
    apply List.map_congr_left
    intro row hrow
    have hmem : row ∈ A := List.mem_of_mem_drop (List.mem_of_mem_take hrow)
    have hlen := hA row hmem
    have := slice_sum offsets 0 (List.zipWith act row x) ho.1 (by rw [ho.2]; simp; omega)
    simp only [rowApply]
    simpa [slice_zipWith] using this

/-- C69 is false of groups of one next to groups of several: their blocks do not fit the grouped vectors. -/
theorem reshape_mixed_refused [AddCommMonoid V] (act : α → V → V) {A : List (List α)} (hA : Square A) {offsets : List Nat}
    (ho : Offsets offsets A.length) {k a b l c d : Nat} (hk : Group offsets k a b) (h1 : b = a + 1) (hl : Group offsets l c d)
    (h2 : d ≠ c + 1) {x : List V} {y : List (Part V)} (hy : Regrouped offsets x y) :
    ∃ M, blockReshape A offsets = .ok M ∧ applyParts act M y = none := by
  obtain ⟨M, hM, hf⟩ := reshape_good hA ho
  refine ⟨M, hM, ?_⟩
  obtain ⟨row, e1, hrow⟩ := forall₂_get hf ((pairs_get _ _ _ _ _).2 hl)
  obtain ⟨e, e2, he⟩ := forall₂_get hrow ((pairs_get _ _ _ _ _).2 hk)
  obtain ⟨v, -, e3⟩ := (hy.2 k a b hk).1 h1
  have hm := pairs_mem ho.1 ho.2 (c, d) (List.mem_of_getElem? ((pairs_get _ _ _ _ _).2 hl))
  have he' := he.2.2 (by simp only at hm ⊢; omega)
  exact mapM_none (List.mem_of_getElem? e1) (rowApplyParts_none act row y k e _ e2 e3 (by rw [he']; rfl))

/-- C69.  `RegroupOperator` groups vectors in this sense (for several groups). -/
theorem regroup_parts {K : Type} {offsets : List Nat} {xs : List (List K)} (ho : Offsets offsets xs.length) (h2 : 2 ≤ offsets.length) :
    ∃ y : List (Part (List K)), regroup offsets xs = .ok (.blk (y.map (fun p => match p with
      | .one v => .vec v
      | .many vs => .blk (vs.map .vec)))) ∧ Regrouped offsets xs y := by
  obtain ⟨n, hn⟩ : ∃ n, n = offsetPairs 0 offsets := ⟨_, rfl⟩
  have key : ∀ fl ∈ offsetPairs 0 offsets, ∃ b, regroupOne xs fl = .ok b ∧ ∃ p : Part (List K), b = (match p with
      | .one v => .vec v
      | .many vs => .blk (vs.map .vec)) ∧ (fl.2 = fl.1 + 1 → ∃ v, xs[fl.1]? = some v ∧ p = .one v) ∧
      (fl.2 ≠ fl.1 + 1 → p = .many (slice xs fl)) := by
    intro fl hfl
    have hm := pairs_mem ho.1 ho.2 fl hfl
    unfold regroupOne
    by_cases h : fl.2 - fl.1 = 1
    · have hlt : fl.1 < xs.length := by omega
      refine ⟨.vec xs[fl.1], by simp [h, pyGet_ok hlt], .one xs[fl.1], rfl, fun _ => ⟨_, List.getElem?_eq_getElem hlt, rfl⟩, fun h' => absurd ?_ h'⟩
      omega
    · refine ⟨_, if_neg h, .many (slice xs fl), rfl, fun h' => absurd ?_ h, fun _ => rfl⟩
      omega
  obtain ⟨bs, hbs, hR⟩ := CenterVec.pyMap_exists key
  obtain ⟨y, hy, hyR⟩ : ∃ y : List (Part (List K)), bs = y.map (fun p => match p with
      | .one v => .vec v
      | .many vs => .blk (vs.map .vec)) ∧ List.Forall₂ (fun (fl : Nat × Nat) p => (fl.2 = fl.1 + 1 → ∃ v, xs[fl.1]? = some v ∧ p = .one v) ∧
      (fl.2 ≠ fl.1 + 1 → p = .many (slice xs fl))) (offsetPairs 0 offsets) y := by
    clear hbs key hn
    generalize offsetPairs 0 offsets = ps at hR
    induction hR with
    | nil => exact ⟨[], rfl, .nil⟩
    | cons h _ ih =>
      obtain ⟨p, rfl, hp⟩ := h
      obtain ⟨y, rfl, hy⟩ := ih
      exact ⟨p :: y, rfl, .cons hp hy⟩
  have hlen : y.length = offsets.length := by rw [← hyR.length_eq, pairs_length]
  refine ⟨y, ?_, hlen, ?_⟩
  · unfold regroup
    rw [hbs, hy]
    obtain ⟨p, q, r, rfl⟩ : ∃ p q r, y = p :: q :: r := by
      match y, hlen with
      | [], h => simp at h; omega
      | [_], h => simp at h; omega
      | p :: q :: r, _ => exact ⟨p, q, r, rfl⟩
    rfl
  · intro k a b hg
    obtain ⟨p, e1, h1, h2⟩ := forall₂_get hyR ((pairs_get _ _ _ _ _).2 hg)
    have hm := pairs_mem ho.1 ho.2 (a, b) (List.mem_of_getElem? ((pairs_get _ _ _ _ _).2 hg))
    refine ⟨fun h => ?_, fun h => ?_⟩
    · obtain ⟨v, e2, rfl⟩ := h1 h
      exact ⟨v, e2, e1⟩
    · have := h2 h
      subst this
      refine ⟨_, e1, slice_length hm.2.2, fun i hi => ?_⟩
      rw [slice_get, if_pos hi]

/-- C69 is false of offsets which end too early: blocks are dropped without an error. -/
theorem reshape_drops (a b c d : α) : blockReshape [[a, b], [c, d]] [1] = .ok [[.one a]] := rfl

/-! ### block_diag_mat, identity_matrix -/

/-- C69.  A block diagonal matrix applies each block to its component. -/
theorem diag_action [AddCommMonoid V] (act : α → V → V) {d : List α} {x : List V} (hx : x.length = d.length) :
    apply (Block.apply act) (blockDiag d) x = List.zipWith act d x := by
  apply List.ext_getElem?
  intro i
  simp only [apply, blockDiag, List.map_map, List.getElem?_map, List.getElem?_zipIdx, List.getElem?_zipWith, Nat.zero_add]
  by_cases hi : i < d.length
  · have hi' : i < x.length := by omega
    rw [List.getElem?_eq_getElem hi, List.getElem?_eq_getElem hi']
    simp only [Option.map_some, Option.some.injEq, Function.comp]
    obtain ⟨a, ha⟩ : ∃ a, a = d[i] := ⟨_, rfl⟩
    rw [← ha]
    have hgen : ∀ (n : Nat) (x : List V) (i : Nat), x.length = n → (hi : i < x.length) →
        rowApply (Block.apply act) ((List.replicate n Block.zero).set i (.op a)) x = act a x[i] := by
      intro n
      induction n with
      | zero => intro x i h hi; omega
      | succ n ih =>
        intro x i h hi
        cases x with
        | nil => simp at h
        | cons v x =>
          cases i with
          | zero =>
            have : ∀ (m : Nat) (y : List V), y.length = m →
                (List.zipWith (Block.apply act) (List.replicate m Block.zero) y).sum = 0 := by
              intro m
              induction m with
              | zero => intro y hy; simp
              | succ m ihm =>
                intro y hy
                cases y with
                | nil => simp at hy
                | cons w y => simpa [List.replicate_succ, Block.apply] using ihm y (by simpa using hy)
            simp [List.replicate_succ, rowApply, Block.apply, this n x (by simpa using h)]
          | succ i =>
            have := ih x i (by simpa using h) (by simpa using hi)
            simpa [List.replicate_succ, rowApply, Block.apply] using this
    exact hgen d.length x i hx _
  · rw [List.getElem?_eq_none_iff.2 (by omega)]
    simp

/-- C69.  `identity_matrix` maps every vector to itself, however the spaces are nested. -/
theorem identity_action {K : Type} [Semiring K] : ∀ (V : Space) (x : V.Vec K), (identity K V).apply x = x
  | .dim n, x => by
    funext i
    have h : ∀ y : Fin n → K, (Matrix.mulVec (diagonalOne K n) y) i = y i := by
      intro y
      simp [Matrix.mulVec, dotProduct, diagonalOne]
    exact h x
  | .list n V, x => by
    funext i
    show ∑ j, (setDiag (fun i => identity K (V i)) i j).apply (x j) = x i
    rw [Finset.sum_eq_single i]
    · simp only [setDiag, dite_true]
      exact identity_action (V i) (x i)
    · intro j _ hj
      have : setDiag (fun i => identity K (V i)) i j = .zero := by
        unfold setDiag
        rw [dif_neg (fun h => hj h.symm)]
      rw [this]
      simp [Op.apply]
    · simp

/-! ### row_matrix, zero_matrix -/

/-- C69.  The matrix of rows of the same length has these rows. -/
theorem row_entries {K : Type} [AddCommMonoid K] {rows : List (List K)} {n : Nat} (hne : rows ≠ []) (h : ∀ r ∈ rows, r.length = n) :
    ∃ A, rowMatrix rows = .ok A ∧ A.rows = rows.length ∧ A.cols = n ∧ A.Valid ∧
      ∀ i j v, rows[i]?.bind (·[j]?) = some v → A.entry i j = v := by
  refine ⟨⟨rows.flatten, (List.replicate rows.length (List.range n)).flatten,
      cumsum 0 (0 :: List.replicate rows.length n), rows.length, n⟩, by rw [rowMatrix, sizes_eq hne h], rfl, rfl, ?_, ?_⟩
  · have hd : rows.flatten.length = rows.length * n := flatten_length h
    refine ⟨by simp [cumsum, cumsum_length], by simp [cumsum], ?_, ?_, ?_, ?_⟩
    · show (cumsum 0 (0 :: List.replicate rows.length n)).getD rows.length 0 = _
      rw [indptr_get le_rfl, hd]
    · exact cumsum_mono _ _
    · show (List.replicate rows.length (List.range n)).flatten.length = _
      rw [hd, flatten_length (n := n) (by intro r hr; rw [List.eq_of_mem_replicate hr]; simp)]; simp
    · intro j hj
      obtain ⟨l, hl, hj⟩ := List.mem_flatten.1 hj
      rw [List.eq_of_mem_replicate hl] at hj
      exact List.mem_range.1 hj
  · intro i j v hv
    obtain ⟨r, hr, hj⟩ := Option.bind_eq_some_iff.1 hv
    have hi : i < rows.length := (List.getElem?_eq_some_iff.1 hr).1
    have hrl := h r (List.mem_of_getElem? hr)
    have hjn : j < n := hrl ▸ (List.getElem?_eq_some_iff.1 hj).1
    unfold Csr.entry
    dsimp only
    rw [indptr_get hi.le, indptr_get (show i + 1 ≤ rows.length from hi)]
    rw [Finset.sum_eq_single (i * n + j)]
    · rw [List.getD_eq_getElem?_getD, flatten_get h i j hjn, hr]
      simp [hj]
    · intro k hk hkj
      exfalso
      obtain ⟨h1, h2⟩ := Finset.mem_filter.1 hk
      obtain ⟨h3, h4⟩ := Finset.mem_Ico.1 h1
      have hk' : k = i * n + (k - i * n) := by omega
      have hlt : k - i * n < n := by rw [Nat.add_mul, Nat.one_mul] at h4; omega
      rw [hk', List.getD_eq_getElem?_getD, flatten_get (n := n) (by intro r hr; rw [List.eq_of_mem_replicate hr]; simp) i _ hlt] at h2
      rw [List.getElem?_replicate_of_lt hi] at h2
      simp [hlt] at h2
      omega
    · intro hk
      exfalso
      apply hk
      rw [Finset.mem_filter, Finset.mem_Ico]
      refine ⟨⟨by omega, by rw [Nat.add_mul]; omega⟩, ?_⟩
      rw [List.getD_eq_getElem?_getD, flatten_get (n := n) (by intro r hr; rw [List.eq_of_mem_replicate hr]; simp) i j hjn,
        List.getElem?_replicate_of_lt hi]
      simp [hjn]

/-- C69.  No rows, and rows of different lengths, are refused. -/
theorem row_refused {K : Type} {rows : List (List K)} (h : rows = [] ∨ ∃ r ∈ rows, ∃ s ∈ rows, r.length ≠ s.length) :
    rowMatrix rows = .error .valueError := by
  unfold rowMatrix
  cases hs : sizes rows with
  | nil => rfl
  | cons n l =>
    cases l with
    | cons m l => rfl
    | nil =>
      exfalso
      have hm : ∀ r ∈ rows, r.length = n := by
        intro r hr
        have : r.length ∈ sizes rows := List.mem_dedup.2 (List.mem_map_of_mem hr)
        rw [hs] at this
        simpa using this
      rcases h with rfl | ⟨r, hr, s, hs', hne⟩
      · simp [sizes] at hs
      · exact hne ((hm r hr).trans (hm s hs').symm)

/-- C69.  `zero_matrix` is zero. -/
theorem zero_entries {K : Type} [AddCommMonoid K] {m n : Nat} (hn : 0 < n) :
    ∃ T, zeroMatrix K m n = .ok (T, m, n) ∧ ∀ i j, tripleEntry T i j = 0 := by
  refine ⟨(List.replicate m 0).zip ((List.range m).zip (List.replicate m 0)), ?_, fun i j => ?_⟩
  · unfold zeroMatrix triples
    rw [if_pos]
    exact ⟨fun i hi => List.mem_range.1 hi, fun j hj => by rw [List.eq_of_mem_replicate hj]; exact hn⟩
  · unfold tripleEntry
    apply List.sum_eq_zero
    intro v hv
    obtain ⟨t, ht, rfl⟩ := List.mem_map.1 hv
    have := List.mem_of_mem_filter ht
    exact List.eq_of_mem_replicate (List.of_mem_zip this).1

/-- C69 is false of matrices with rows and no columns: they are refused. -/
theorem zero_no_columns {K : Type} [Zero K] {m : Nat} (hm : 0 < m) : zeroMatrix K m 0 = .error .valueError := by
  unfold zeroMatrix triples
  rw [if_neg]
  rintro ⟨-, h⟩
  exact absurd (h 0 (List.mem_replicate.2 ⟨by omega, rfl⟩)) (by omega)

/-! ### Cases which meet the hypotheses -/

example : Offsets [2, 4] 4 ∧ Square [[1, 2, 3, 4], [5, 6, 7, 8], [9, 10, 11, 12], [13, 14, 15, 16]] := by
  constructor
  · constructor
    · decide
    · rfl
  · intro r hr
    fin_cases hr <;> rfl

example : ∀ k a b, Group [2, 4] k a b → b ≠ a + 1 := by
  rintro (_ | _ | k) a b ⟨h1, h2⟩ <;> simp at h1 h2 <;> omega

example : Group [1, 3] 0 0 1 ∧ Group [1, 3] 1 1 3 := ⟨⟨rfl, rfl⟩, ⟨rfl, rfl⟩⟩

example : Regrouped [2, 4] [(1 : ℚ), 2, 3, 4] [.many [1, 2], .many [3, 4]] := by
  refine ⟨rfl, ?_⟩
  rintro (_ | _ | k) a b ⟨h1, h2⟩ <;> simp at h1 h2
  · obtain ⟨rfl, rfl⟩ := And.intro h1 h2
    refine ⟨by omega, fun _ => ⟨_, rfl, rfl, fun i hi => ?_⟩⟩
    interval_cases i <;> rfl
  · obtain ⟨rfl, rfl⟩ := And.intro h1 h2
    refine ⟨by omega, fun _ => ⟨_, rfl, rfl, fun i hi => ?_⟩⟩
    interval_cases i <;> rfl

example : ∀ r ∈ [[(1 : ℚ), 2], [3, 4]], r.length = 2 := by
  intro r hr
  fin_cases hr <;> rfl

end Verif.Reshape
