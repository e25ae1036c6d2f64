import Verif.Props.Patch
/-!
# C114: what patch averages with a colouring are, exactly
-/
namespace Verif.Patch
open Verif Verif.BlockOps Verif.Trace
variable {K G : Type} [Field K] [LinearOrder K] [IsStrictOrderedRing K]

omit [LinearOrder K] [IsStrictOrderedRing K] in
/-- Integration against an assembled vector at some dofs. -/
theorem sum_group (V : Space K) (chi : Nat → Nat) (u : Nat → K) {cols : List Nat} (hn : cols.Nodup) :
    (cols.map (fun j => assemble V chi j * u j)).sum =
      (((List.range V.numCells).filter (fun c => chi c = 1)).map
        (cellIntegral V (fun j => if j ∈ cols then u j else 0))).sum := by
  simp only [assemble, ← List.sum_map_mul_right]
  rw [sum_swap]
  simp only [sum_element V u _ hn]
  congr 1
  refine List.map_congr_left (fun c _ => ?_)
  simp only [cellIntegral, mul_ite, mul_zero]

omit [IsStrictOrderedRing K] in
theorem extract_val {V : Space K} {pf : Nat → Nat} {ids : List Nat} (hV : V.WF) {vDofs : Nat → K}
    {info : List (Nat × Info K)} (I : (Nat → K) → Nat → K) :
    ∀ (cs : List Nat) (acc : Triples K) (F : (Nat → K) → Nat → K), Acc ids.length V.dim acc F →
      (∀ p ∈ cs, ∃ i, info.lookup p = some i ∧ i.Good V pf ids p) →
      (∀ p ∈ cs, ∀ cols : List Nat, cols.Nodup → (∀ j, j ∈ cols ↔ ∃ c ∈ patch V pf p, j ∈ V.cellDofs c) →
        ∀ u : Nat → K, (cols.map (fun j => vDofs j * u j)).sum = I u p) →
      ∃ acc', extract vDofs info cs acc = .ok acc' ∧
        Acc ids.length V.dim acc' (fun u d => F u d +
          (cs.map (fun p => if IsRow ids p d then I u p / ((patch V pf p).map V.vol).sum else 0)).sum)
  | [], acc, F, h, _, _ => ⟨acc, rfl, h.congr (by simp)⟩
  | p :: cs, acc, F, h, hi, hv => by
      obtain ⟨i, hl, hg⟩ := hi p (by simp)
      rw [extract, infoGet, hl]
      simp only [py_bind_ok]
      have hrow : i.row < ids.length := (List.getElem?_eq_some_iff.1 hg.row.1).1
      obtain ⟨acc', e, h'⟩ := extract_val (vDofs := vDofs) hV I cs _ _
        (h.extend hrow (cols := i.columns) (fun j hj => by
            obtain ⟨c, hc, hjc⟩ := (hg.mem j).1 hj
            exact hV.lt c (patch_lt hc) j hjc)
          (vals := i.columns.map (fun j => vDofs j / i.volume)) (by simp))
        (fun p hp => hi p (by simp [hp])) (fun p hp => hv p (by simp [hp]))
      refine ⟨acc', e, h'.congr (fun u d => ?_)⟩
      rw [add_assoc, List.map_cons, List.sum_cons, sum_zip_map]
      congr 2
      have hiff : d = i.row ↔ IsRow ids p d := by
        constructor
        · rintro rfl; exact hg.row
        · intro h
          rcases Nat.lt_trichotomy d i.row with h1 | h1 | h1
          · exact absurd h.1 (hg.row.2 d h1)
          · exact h1
          · exact absurd hg.row.1 (h.2 _ h1)
      by_cases hd : d = i.row
      · rw [if_pos hd, if_pos (hiff.1 hd), ← hv p (by simp) i.columns hg.nodup hg.mem u, hg.volume,
          div_eq_mul_inv, ← List.sum_map_mul_right]
        congr 1
        exact List.map_congr_left (fun j _ => by rw [div_eq_mul_inv]; ring)
      · rw [if_neg hd, if_neg (fun h => hd (hiff.2 h))]

theorem groupLoop_val [DecidableEq G] {V : Space K} (hV : V.WF) {pf : Nat → Nat} {ids : List Nat}
    {coloring : List (Nat × G)} :
    ∀ (groups : List (G × List Nat)) (acc : Triples K) (F : (Nat → K) → Nat → K), Acc ids.length V.dim acc F →
      (∀ q ∈ groups, ∀ p ∈ q.2, patch V pf p ≠ [] ∧ coloring.lookup p = some q.1) →
      (∀ q ∈ groups, ∀ p, p ∈ q.2 ↔ p ∈ ids ∧ coloring.lookup p = some q.1) →
      ∃ acc', groupLoop V pf (ids.map (fun x : Nat => (x : K))) groups (fun _ => 0) acc = .ok acc' ∧
        Acc ids.length V.dim acc' (fun u d => F u d +
          ((groups.flatMap (fun q => q.2)).map (fun p => if IsRow ids p d then groupMean V pf coloring ids u p else 0)).sum)
  | [], acc, F, h, _, _ => ⟨acc, rfl, h.congr (by simp)⟩
  | (g, cs) :: groups, acc, F, h, hg, hall => by
      rw [groupLoop]
      have hcs := hall _ List.mem_cons_self
      dsimp only at hcs
      obtain ⟨chi, info, e1, hchi, -, hinfo⟩ := collect_ok hV cs (fun _ => 0) [] (ids := ids) (pf := pf)
        (fun p hp => ⟨((hcs p).1 hp).1, (hg _ List.mem_cons_self p hp).1⟩)
      obtain ⟨acc1, e2, h1⟩ := extract_val (vDofs := assemble V chi) hV
        (fun u p => ((groupCells V pf coloring ids p).map (cellIntegral V (carried V pf p u))).sum) cs acc F h hinfo (by
        intro p hp cols hn hm u
        rw [sum_group V chi u hn]
        have ec : (fun j => if j ∈ cols then u j else 0) = carried V pf p u := by
          funext j
          simp only [carried, hm]
        have ef : (List.range V.numCells).filter (fun c => chi c = 1) = groupCells V pf coloring ids p := by
          rw [groupCells]
          refine List.filter_congr (fun c hc => ?_)
          rw [decide_eq_decide, hchi c, (hg _ List.mem_cons_self p hp).2]
          constructor
          · rintro (h0 | ⟨q, hq, hcq⟩)
            · simp at h0
            · rw [patch_pf hcq]; exact (hcs q).1 hq
          · intro h0
            exact Or.inr ⟨pf c, (hcs _).2 h0, by simp [patch]; simpa using hc⟩
        rw [ec, ef])
      obtain ⟨acc', e3, h2⟩ := groupLoop_val (coloring := coloring) hV groups acc1 _ h1
        (fun q hq => hg q (by simp [hq])) (fun q hq => hall q (by simp [hq]))
      refine ⟨acc', ?_, h2.congr (fun u d => ?_)⟩
      · rw [e1, py_bind_ok]
        dsimp only
        rw [e2, py_bind_ok, e3]
      · rw [List.flatMap_cons, List.map_append, List.sum_append, add_assoc]
        rfl

theorem sum_rows {ids : List Nat} (f : Nat → K) (d p : Nat) (hd : ids[d]? = some p) : ∀ l : List Nat,
    (l.map (fun q => if IsRow ids q d then f q else 0)).sum = (l.count p : K) * (if IsRow ids p d then f p else 0) := by
  have hone : ∀ q, IsRow ids q d → q = p := fun q h => by
    have := h.1; rw [hd] at this; exact (Option.some.inj this).symm
  intro l
  induction l with
  | nil => simp
  | cons x l ih =>
    rw [List.map_cons, List.sum_cons, ih, List.count_cons]
    by_cases hx : x = p
    · subst hx
      by_cases hr : IsRow ids x d
      · simp [hr]; ring
      · simp [hr]
    · have : ¬ IsRow ids x d := fun h => hx (hone x h)
      simp [this, hx]

omit [IsStrictOrderedRing K] in
theorem collect_nonempty {V : Space K} {pf : Nat → Nat} {colorIds : List K} : ∀ (cs : List Nat) (chi : Nat → Nat)
    (info : List (Nat × Info K)) r, collect V pf colorIds cs chi info = .ok r → ∀ p ∈ cs, patchCells V pf (p : K) ≠ []
  | [], _, _, _, _ => by simp
  | q :: cs, chi, info, r, h => by
      rw [collect] at h
      dsimp only at h
      obtain ⟨cols, hc, h⟩ := py_bind_eq_ok.1 h
      obtain ⟨ix, -, h⟩ := py_bind_eq_ok.1 h
      obtain ⟨v, -, h⟩ := py_bind_eq_ok.1 h
      obtain ⟨_, -, h⟩ := py_bind_eq_ok.1 h
      intro p hp
      rcases List.mem_cons.1 hp with rfl | hp
      · intro h0
        rw [patchDofs, if_pos h0] at hc
        cases hc
      · exact collect_nonempty cs _ _ r h p hp

omit [IsStrictOrderedRing K] in
theorem groupLoop_nonempty {V : Space K} {pf : Nat → Nat} {colorIds : List K} : ∀ (groups : List (G × List Nat))
    (chi : Nat → Nat) (acc r : Triples K), groupLoop V pf colorIds groups chi acc = .ok r →
    ∀ q ∈ groups, ∀ p ∈ q.2, patchCells V pf (p : K) ≠ []
  | [], _, _, _, _ => by simp
  | (g, cs) :: groups, chi, acc, r, h => by
      rw [groupLoop] at h
      obtain ⟨x, hx, h⟩ := py_bind_eq_ok.1 h
      obtain ⟨acc1, -, h⟩ := py_bind_eq_ok.1 h
      intro q hq
      rcases List.mem_cons.1 hq with rfl | hq
      · exact collect_nonempty cs _ _ _ hx
      · exact groupLoop_nonempty groups _ _ r h q hq

omit [LinearOrder K] [IsStrictOrderedRing K] in
theorem ids_map {ids : List Nat} {toUint : K → Nat} (hu : ∀ n : Nat, toUint (n : K) = n) :
    (ids.map (fun p : Nat => (p : K))).map toUint = ids := by
  rw [List.map_map]
  conv_rhs => rw [← List.map_id ids]
  exact List.map_congr_left (fun p _ => hu p)

theorem groups_of [DecidableEq G] (coloring : List (Nat × G)) (ids : List Nat) :
    Groups coloring ids (makeGroups coloring ids []) := by
  have := makeGroups_ok (coloring := coloring) ids [] [] ⟨by simp, by simp, by simp⟩
  simpa using this

/-- **C114** With a colouring, for all groups and all patches of the dofs: in the row of the first dof with the patch `p` is as many
    times the integral of the part of the function carried by the dofs of `p`, over all cells of the group, as there are
    dofs with this patch; it is divided by the volume of the patch only.  The rows of the other dofs with this patch, and
    of dofs whose patch has no colour, are zero. -/
theorem coloring_exact [DecidableEq G] {V : Space K} (hV : V.WF) {pf : Nat → Nat} {ids : List Nat}
    {m : Nat} (hm : ids.length = m) {coloring : List (Nat × G)} {toUint : K → Nat}
    (hu : ∀ n : Nat, toUint (n : K) = n)
    (hne : ∀ p ∈ ids, coloring.lookup p ≠ none → patch V pf p ≠ []) :
    ∃ M, patchAvgColoring V m true pf (ids.map (fun p : Nat => (p : K))) toUint coloring = .ok M ∧ M.rows = m ∧
      M.cols = V.dim ∧ ∀ (d p : Nat), ids[d]? = some p → ∀ u : Nat → K,
        M.act u d = if coloring.lookup p ≠ none ∧ ∀ k, k < d → ids[k]? ≠ some p then
          (ids.count p : K) * groupMean V pf coloring ids u p else 0 := by
  subst hm
  have hG := groups_of coloring ids
  have hmem : ∀ q ∈ makeGroups coloring ids [], ∀ p ∈ q.2, p ∈ ids := by
    intro q hq p hp
    have := hG.perm.mem_iff.1 (List.mem_flatMap.2 ⟨q, hq, hp⟩)
    exact (List.mem_filter.1 this).1
  obtain ⟨acc', e, h⟩ := groupLoop_val (coloring := coloring) hV (makeGroups coloring ids []) _ _ (Acc.nil ids.length V.dim)
    (fun q hq p hp => ⟨hne p (hmem q hq p hp) (by rw [hG.group q hq p hp]; simp), hG.group q hq p hp⟩)
    (fun q hq p => ⟨fun hp => ⟨hmem q hq p hp, hG.group q hq p hp⟩, fun ⟨h1, h2⟩ => by
      have h3 : p ∈ (makeGroups coloring ids []).flatMap (fun q => q.2) :=
        hG.perm.mem_iff.2 (List.mem_filter.2 ⟨h1, by rw [h2]; rfl⟩)
      obtain ⟨q', hq', hp'⟩ := List.mem_flatMap.1 h3
      have h4 := hG.group q' hq' p hp'
      rw [h2] at h4
      have : q' = q := List.inj_on_of_nodup_map hG.keys hq' hq (Option.some.inj h4).symm
      rwa [← this]⟩)
  obtain ⟨M, eM, hr, hc, hM⟩ := h.csr
  refine ⟨M, ?_, hr, hc, fun d p hp u => ?_⟩
  · rw [patchAvgColoring, pyAssert_true, py_bind_ok]
    dsimp only
    rw [ids_map hu, e, py_bind_ok]
    exact eM
  · have hd : d < ids.length := (List.getElem?_eq_some_iff.1 hp).1
    rw [hM u d hd, zero_add, (hG.perm.map _).sum_eq, sum_rows (fun q => groupMean V pf coloring ids u q) d p hp]
    cases hl : coloring.lookup p with
    | none =>
      have : (ids.filter (fun q => (coloring.lookup q).isSome)).count p = 0 := by
        rw [List.count_eq_zero]
        intro h
        have := (List.mem_filter.1 h).2
        rw [hl] at this
        simp at this
      rw [this]
      simp
    | some g =>
      rw [List.count_filter (by rw [hl]; rfl)]
      simp only [IsRow, hp, true_and, ne_eq, reduceCtorEq, not_false_eq_true]
      split <;> simp

/-- A matrix is returned exactly if the patches which have a colour have cells. -/
theorem coloring_returns_iff [DecidableEq G] {V : Space K} (hV : V.WF) {pf : Nat → Nat} {ids : List Nat}
    {coloring : List (Nat × G)} {toUint : K → Nat} (hu : ∀ n : Nat, toUint (n : K) = n) :
    (∃ M, patchAvgColoring V ids.length true pf (ids.map (fun p : Nat => (p : K))) toUint coloring = .ok M) ↔
      ∀ p ∈ ids, coloring.lookup p ≠ none → ∃ c, c < V.numCells ∧ pf c = p := by
  have hp : ∀ p, patch V pf p ≠ [] ↔ ∃ c, c < V.numCells ∧ pf c = p := by
    intro p
    simp [patch, List.filter_eq_nil_iff]
  constructor
  · rintro ⟨M, h⟩ p hpi hl
    rw [patchAvgColoring, pyAssert_true, py_bind_ok] at h
    dsimp only at h
    rw [ids_map hu] at h
    obtain ⟨r, hr, -⟩ := py_bind_eq_ok.1 h
    have hG := groups_of coloring ids
    have h3 : p ∈ (makeGroups coloring ids []).flatMap (fun q => q.2) :=
      hG.perm.mem_iff.2 (List.mem_filter.2 ⟨hpi, by cases h : coloring.lookup p <;> simp_all⟩)
    obtain ⟨q, hq, hpq⟩ := List.mem_flatMap.1 h3
    have := groupLoop_nonempty _ _ _ r hr q hq p hpq
    rw [patchCells_nat] at this
    exact (hp p).1 this
  · intro h
    obtain ⟨M, e, -⟩ := coloring_exact hV rfl hu (fun p hpi hl => (hp p).2 (h p hpi hl))
    exact ⟨M, e⟩

omit [LinearOrder K] [IsStrictOrderedRing K] in
/-- If patches of a group share no dofs the integral over the group is the one over the patch. -/
theorem groupMean_separated [DecidableEq G] {V : Space K} {pf : Nat → Nat} {ids : List Nat} {coloring : List (Nat × G)}
    (hs : Separated V pf coloring ids) {p : Nat} (hp : p ∈ ids) (hl : coloring.lookup p ≠ none) (u : Nat → K) :
    groupMean V pf coloring ids u p = patchMean V pf u p := by
  rw [groupMean, patchMean]
  congr 1
  rw [patch, ← sum_filter_ite (fun c => decide (pf c ∈ ids ∧ coloring.lookup (pf c) = coloring.lookup p))
    (fun c => decide (pf c = p)) (cellIntegral V u)]
  · rw [groupCells]
    congr 1
    refine List.map_congr_left (fun c hc => ?_)
    rw [List.mem_filter, List.mem_range, decide_eq_true_eq] at hc
    by_cases h : pf c = p
    · simp only [h, decide_true, if_true, cellIntegral]
      congr 1
      refine List.map_congr_left (fun q hq => ?_)
      rw [carried, if_pos ⟨c, by simp [patch, hc.1, h], List.fst_mem_of_mem_zipIdx hq⟩]
    · simp only [h, decide_false, Bool.false_eq_true, if_false, cellIntegral]
      refine List.sum_eq_zero (fun x hx => ?_)
      obtain ⟨q, hq, rfl⟩ := List.mem_map.1 hx
      rw [carried, if_neg, mul_zero]
      rintro ⟨c', hc', hj⟩
      exact hs (pf c) hc.2.1 p hp h hc.2.2 (by rw [hc.2.2]; exact hl) c (by simp [patch, hc.1]) c' hc' q.1
        (List.fst_mem_of_mem_zipIdx hq) hj
  · intro c hc hb
    simp only [decide_eq_true_eq] at hb ⊢
    rw [hb]
    exact ⟨hp, rfl⟩

/-- Dofs with the same patch: if patches of a group share no dofs, the first of them gets the mean times their number, and
    the others get zero. -/
theorem coloring_repeated [DecidableEq G] {V : Space K} (hV : V.WF) {pf : Nat → Nat} {ids : List Nat}
    {m : Nat} (hm : ids.length = m) {coloring : List (Nat × G)} {toUint : K → Nat}
    (hu : ∀ n : Nat, toUint (n : K) = n)
    (hne : ∀ p ∈ ids, coloring.lookup p ≠ none → patch V pf p ≠ [])
    (hs : Separated V pf coloring ids) :
    ∃ M, patchAvgColoring V m true pf (ids.map (fun p : Nat => (p : K))) toUint coloring = .ok M ∧
      ∀ (d p : Nat), ids[d]? = some p → coloring.lookup p ≠ none → ∀ u : Nat → K,
        M.act u d = if ∀ k, k < d → ids[k]? ≠ some p then (ids.count p : K) * patchMean V pf u p else 0 := by
  obtain ⟨M, e, -, -, h⟩ := coloring_exact hV hm hu hne
  refine ⟨M, e, fun d p hp hl u => ?_⟩
  rw [h d p hp u]
  simp only [hl, ne_eq, not_false_eq_true, true_and]
  rw [groupMean_separated hs (List.mem_iff_getElem?.2 ⟨d, hp⟩) hl]

/-- Three dofs, two of them with the patch 1, which is next to the patch 2 of the same group: the row of the first dof gives 3
    for constants instead of 1. -/
example : ∃ M, patchAvgColoring line3 3 true (fun c => c) ([1, 2, 1].map (fun p : Nat => (p : ℚ)))
      (fun x => x.num.toNat) [(1, ()), (2, ())] = .ok M ∧ M.act (fun _ => 1) 0 = 3 ∧ M.act (fun _ => 1) 1 = 3 / 2 ∧
      M.act (fun _ => 1) 2 = 0 := by
  obtain ⟨M, e, -, -, h⟩ := coloring_exact (K := ℚ) line3_wf (pf := fun c => c)
    (ids := [1, 2, 1]) (m := 3) rfl (coloring := [(1, ()), (2, ())]) (toUint := fun x => x.num.toNat)
    (fun n => by simp) (by decide)
  refine ⟨M, e, ?_, ?_, ?_⟩
  · rw [h 0 1 rfl]; decide +kernel
  · rw [h 1 2 rfl]; decide +kernel
  · rw [h 2 1 rfl]; decide +kernel

end Verif.Patch
